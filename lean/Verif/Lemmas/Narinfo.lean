import Verif.Spec.Narinfo
import Verif.Lemmas.GoLib
import Verif.Lemmas.Path

/-! # Lemmas about narinfo parsing -/

namespace Verif.GoLib

theorem index_some {s p : Bytes} {i : Nat} (h : index s p = some i) :
    s = s.take i ++ p ++ s.drop (i + p.length) ∧ ∀ a b, s = a ++ p ++ b → i ≤ a.length := by
  induction s generalizing i with
  | nil =>
    unfold index at h
    split at h
    · rename_i hp
      have : p = [] := by simpa using hp
      subst this
      simp at h; subst h
      simp
    · simp at h
  | cons c s ih =>
    unfold index at h
    split at h
    · rename_i hp
      simp at h; subst h
      rw [List.isPrefixOf_iff_prefix] at hp
      obtain ⟨t, ht⟩ := hp
      constructor
      · rw [← ht]; simp
      · intros; omega
    · rename_i hp
      cases hi : index s p with
      | none => rw [hi] at h; simp at h
      | some j =>
        rw [hi] at h
        simp at h
        subst h
        obtain ⟨h1, h2⟩ := ih hi
        constructor
        · rw [show j + 1 + p.length = (j + p.length) + 1 by omega]
          simp only [List.take_succ_cons, List.drop_succ_cons, List.cons_append]
          exact congrArg (c :: ·) h1
        · intro a b hab
          cases a with
          | nil =>
            exfalso
            apply hp
            rw [List.isPrefixOf_iff_prefix]
            exact ⟨b, by simpa using hab.symm⟩
          | cons x a =>
            simp only [List.cons_append, List.cons.injEq] at hab
            have := h2 a b hab.2
            simp only [List.length_cons]; omega

theorem index_isSome_iff {s p : Bytes} : (index s p).isSome = true ↔ ∃ a b, s = a ++ p ++ b := by
  constructor
  · intro h
    obtain ⟨i, hi⟩ := Option.isSome_iff_exists.1 h
    exact ⟨_, _, (index_some hi).1⟩
  · rintro ⟨a, b, rfl⟩
    induction a with
    | nil =>
      cases hp : p ++ b with
      | nil =>
        have : p = [] := (List.append_eq_nil_iff.1 hp).1
        subst this
        simp at hp
        subst hp
        rfl
      | cons c t =>
        simp only [List.nil_append, hp]
        unfold index
        have : p.isPrefixOf (c :: t) = true := by
          rw [List.isPrefixOf_iff_prefix]; exact ⟨b, hp⟩
        simp [this]
    | cons c a ih =>
      simp only [List.cons_append]
      unfold index
      split
      · rfl
      · simpa using ih

theorem contains_iff {s p : Bytes} : contains s p = true ↔ ∃ a b, s = a ++ p ++ b := index_isSome_iff

theorem digitsValue_append (s t : Bytes) (acc : Nat) :
    digitsValue acc (s ++ t) = digitsValue (digitsValue acc s) t := by
  induction s generalizing acc with
  | nil => rfl
  | cons c s ih =>
    exact ih (acc * 10 + (c.toNat - 48))

theorem digit_char {k : Nat} (h : k < 10) : UInt8.ofNat (48 + k) ∈ b!"0123456789" ∧
    (UInt8.ofNat (48 + k)).toNat - 48 = k := by
  have key : ∀ k : Fin 10, UInt8.ofNat (48 + k.val) ∈ b!"0123456789" ∧
    (UInt8.ofNat (48 + k.val)).toNat - 48 = k.val := by decide +kernel
  exact key ⟨k, h⟩

theorem formatUint_digits (n : Nat) : (∀ c ∈ formatUint n, c ∈ b!"0123456789") ∧ formatUint n ≠ [] ∧
    digitsValue 0 (formatUint n) = n := by
  fun_induction formatUint n with
  | case1 n h =>
    obtain ⟨h1, h2⟩ := digit_char h
    refine ⟨?_, by simp, ?_⟩
    · intro c hc; rw [List.mem_singleton] at hc; rw [hc]; exact h1
    · show 0 * 10 + _ = n
      rw [h2]; omega
  | case2 n h ih =>
    obtain ⟨i1, i2, i3⟩ := ih
    obtain ⟨h1, h2⟩ := digit_char (k := n % 10) (by omega)
    refine ⟨?_, by simp, ?_⟩
    · intro c hc
      rw [List.mem_append, List.mem_singleton] at hc
      rcases hc with hc | hc
      · exact i1 c hc
      · rw [hc]; exact h1
    · rw [digitsValue_append, i3]
      show n / 10 * 10 + _ = n
      rw [h2]; omega

theorem formatUint_length {n k : Nat} (hk : 0 < k) (h : n < 10 ^ k) : (formatUint n).length ≤ k := by
  induction k generalizing n with
  | zero => omega
  | succ k ih =>
    unfold formatUint
    split
    · simp
    · rename_i hn
      have : 0 < k := by
        rcases Nat.eq_zero_or_pos k with rfl | h'
        · omega
        · exact h'
      have := ih (n := n / 10) this (by rw [Nat.pow_succ] at h; omega)
      simp; omega

theorem isDigit_iff (c : UInt8) : (48 ≤ c && c ≤ 57) = true ↔ c ∈ b!"0123456789" := by
  have key : ∀ k : Fin 256, ((48 : UInt8) ≤ UInt8.ofNat k.val && UInt8.ofNat k.val ≤ 57) = true ↔
      UInt8.ofNat k.val ∈ b!"0123456789" := by decide +kernel
  have := key ⟨c.toNat, c.toNat_lt⟩
  simpa using this

theorem parseUint_iff (v : Bytes) (x : Nat) :
    parseUint v = .ok x ↔ v ≠ [] ∧ (∀ c ∈ v, c ∈ b!"0123456789") ∧ digitsValue 0 v < 2 ^ 64 ∧
      x = digitsValue 0 v := by
  have hall : v.all (fun c => 48 ≤ c && c ≤ 57) = true ↔ ∀ c ∈ v, c ∈ b!"0123456789" := by
    rw [List.all_eq_true]
    exact ⟨fun h c hc => (isDigit_iff c).1 (h c hc), fun h c hc => (isDigit_iff c).2 (h c hc)⟩
  unfold parseUint
  split
  · simp_all
  · rename_i h0
    split
    · rename_i h1
      have : ¬ ∀ c ∈ v, c ∈ b!"0123456789" := by
        rw [← hall]; simpa using h1
      exact ⟨by simp, fun h => absurd h.2.1 this⟩
    · rename_i h1
      have h1' : ∀ c ∈ v, c ∈ b!"0123456789" := by
        rw [← hall]; simpa using h1
      split
      · rename_i h2
        constructor
        · simp
        · rintro ⟨_, _, h, _⟩; exact absurd h (by omega)
      · rename_i h2
        constructor
        · intro h; injection h with h; exact ⟨h0, h1', by omega, h.symm⟩
        · rintro ⟨_, _, _, rfl⟩; rfl

theorem parseUint_ne_panic (v : Bytes) : parseUint v ≠ .panic := by
  unfold parseUint; repeat' split
  all_goals simp

theorem parseUint_formatUint {n : Nat} (h : n < 2 ^ 64) : parseUint (formatUint n) = .ok n := by
  obtain ⟨h1, h2, h3⟩ := formatUint_digits n
  rw [parseUint_iff]
  exact ⟨h2, h1, by rw [h3]; exact h, h3.symm⟩

end Verif.GoLib

namespace Verif.Narinfo
open Verif.GoLib Verif.Nixhash Verif.Signature

theorem splitOnce_iff (s k v : Bytes) : splitOnce s = .ok (k, v) ↔ SplitsAs s k v := by
  unfold splitOnce SplitsAs
  cases hi : index s b!": " with
  | none =>
    constructor
    · simp
    · rintro ⟨h, _⟩
      have : (index s b!": ").isSome = true := index_isSome_iff.2 ⟨k, v, h⟩
      rw [hi] at this; simp at this
  | some i =>
    obtain ⟨h1, h2⟩ := index_some hi
    simp only [List.length_cons, List.length_nil, Nat.zero_add, Nat.reduceAdd] at h1
    have hil : i + 2 ≤ s.length := by
      have := congrArg List.length h1
      simp at this; omega
    simp only []
    have htl : (s.take i).length = i := by simp; omega
    have hdrop : s.drop (i + 1) = 32 :: s.drop (i + 2) := by
      have e1 : s.drop (i + 1) = (s.drop i).drop 1 := by simp
      have e2 : s.drop i = b!": " ++ s.drop (i + 2) := by
        conv => lhs; rw [h1]
        rw [List.append_assoc, List.drop_left' htl]
      rw [e1, e2]; rfl
    by_cases hc : contains (s.drop (i + 1)) b!": " = true
    · rw [if_pos hc]
      constructor
      · simp
      · rintro ⟨_, hu⟩
        obtain ⟨a, b, hab⟩ := contains_iff.1 hc
        have e1 := hu _ _ h1
        have e2 := hu (s.take (i + 1) ++ a) b (by
          rw [List.append_assoc, List.append_assoc, ← List.append_assoc a, ← hab, List.take_append_drop])
        have := congrArg List.length (e1.trans e2.symm)
        simp at this
        omega
    · rw [if_neg hc]
      constructor
      · intro h
        simp only [Res.ok.injEq, Prod.mk.injEq] at h
        obtain ⟨rfl, rfl⟩ := h
        refine ⟨h1, fun a b hab => ?_⟩
        have hia := h2 a b hab
        by_cases heq : a.length = i
        · have := congrArg (List.take i) hab
          rw [List.append_assoc, List.take_left' heq] at this
          exact this.symm
        · exfalso
          apply hc
          rw [contains_iff]
          refine ⟨a.drop (i + 1), b, ?_⟩
          conv => lhs; rw [hab]
          rw [List.append_assoc, List.append_assoc, List.drop_append_of_le_length (by omega)]
      · rintro ⟨hs, hu⟩
        have e1 := hu _ _ h1
        rw [← e1]
        congr 1
        have : k.length = i := by rw [← e1]; exact htl
        rw [hs, List.drop_left' (by simp [this])]

theorem splitOnce_ne_panic (s : Bytes) : splitOnce s ≠ .panic := by
  unfold splitOnce
  split
  · simp
  · split <;> simp

end Verif.Narinfo
