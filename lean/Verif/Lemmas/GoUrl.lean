import Verif.GoUrl
import Verif.Lemmas.GoLib
import Verif.Lemmas.Narinfo

/-!
# Lemmas about `net/url`
-/

namespace Verif.GoUrl
open Verif.GoLib

/-! ### Bytes -/

theorem byte_cases {P : UInt8 → Prop} (h : ∀ n : Fin 256, P (UInt8.ofNat n)) (c : UInt8) : P c := by
  have := h ⟨c.toNat, c.toNat_lt⟩
  simpa using this

theorem hex_upper (c : UInt8) : hexVal (upperhex.getD (c.toNat / 16) 0) = some (c.toNat / 16) ∧
    hexVal (upperhex.getD (c.toNat % 16) 0) = some (c.toNat % 16) := by
  have key : ∀ v : Fin 16, hexVal (upperhex.getD v 0) = some v.val := by decide +kernel
  exact ⟨key ⟨c.toNat / 16, by have := c.toNat_lt; omega⟩, key ⟨c.toNat % 16, by omega⟩⟩

theorem upper_alnum (v : Nat) (h : v < 16) : isAlnum (upperhex.getD v 0) = true := by
  have key : ∀ v : Fin 16, isAlnum (upperhex.getD v 0) = true := by decide +kernel
  exact key ⟨v, h⟩

theorem join_nibbles (c : UInt8) : UInt8.ofNat (16 * (c.toNat / 16) + c.toNat % 16) = c := by
  rw [Nat.div_add_mod]; simp

theorem shouldEscape_percent (m : Mode) : shouldEscape 37 m = true := by cases m <;> decide

theorem alnum_plain {c : UInt8} (h : isAlnum c = true) (m : Mode) : shouldEscape c m = false := by
  unfold shouldEscape; simp [h]

/-- The bytes that `escape` writes: the percent sign and bytes that need no escape. -/
theorem mem_escape {m : Mode} {s : Bytes} {c : UInt8} (h : c ∈ escape m s) :
    c = 37 ∨ shouldEscape c m = false := by
  unfold escape at h
  rw [List.mem_flatMap] at h
  obtain ⟨x, _, hx⟩ := h
  unfold escapeByte at hx
  split at hx
  · simp only [List.mem_cons, List.not_mem_nil, or_false] at hx
    rcases hx with rfl | rfl | rfl
    · exact .inl rfl
    · exact .inr (alnum_plain (upper_alnum _ (by have := x.toNat_lt; omega)) m)
    · exact .inr (alnum_plain (upper_alnum _ (by omega)) m)
  · rename_i hs
    simp only [List.mem_cons, List.not_mem_nil, or_false] at hx
    subst hx
    exact .inr (by simpa using hs)

theorem not_mem_escape {m : Mode} {s : Bytes} {c : UInt8} (h1 : c ≠ 37) (h2 : shouldEscape c m = true) :
    c ∉ escape m s := by
  intro h
  rcases mem_escape h with h | h
  · exact h1 h
  · rw [h2] at h; simp at h

theorem escape_cons (m : Mode) (c : UInt8) (s : Bytes) : escape m (c :: s) = escapeByte m c ++ escape m s := rfl

theorem escape_ne_nil {m : Mode} {s : Bytes} (h : s ≠ []) : escape m s ≠ [] := by
  cases s with
  | nil => exact absurd rfl h
  | cons c s =>
    rw [escape_cons]
    unfold escapeByte
    split <;> simp

theorem hexVal_lt {c : UInt8} {v : Nat} (h : hexVal c = some v) : v < 16 := by
  have key : ∀ n : Fin 256, (match hexVal (UInt8.ofNat n) with | some w => decide (w < 16) | none => true) = true := by
    decide +kernel
  have := byte_cases (P := fun c => (match hexVal c with | some w => decide (w < 16) | none => true) = true) key c
  rw [h] at this
  simpa using this

theorem unescape_other {m : Mode} {c : UInt8} (h : c ≠ 37) (s : Bytes) :
    unescape m (c :: s) = if badByte m c then .err (.msg "invalid character in host name")
      else unescape m s >>= fun t => .ok (c :: t) := by
  rw [unescape.eq_def]
  simp only [if_neg h]

/-- A byte that can be read back after escaping in mode `m`. -/
def Readable (m : Mode) (c : UInt8) : Prop :=
  if shouldEscape c m then badEscape m c.toNat = false else badByte m c = false

theorem readable_path (m : Mode) (h : m ≠ .host) (h' : m ≠ .zone) (c : UInt8) : Readable m c := by
  unfold Readable badEscape badByte
  cases m <;> simp_all

theorem unescape_escape_append {m : Mode} {s : Bytes} (h : ∀ c ∈ s, Readable m c) (r : Bytes) :
    unescape m (escape m s ++ r) = unescape m r >>= fun t => .ok (s ++ t) := by
  induction s with
  | nil =>
    show unescape m r = _
    cases unescape m r <;> rfl
  | cons c s ih =>
    obtain ⟨h1, h2⟩ := List.forall_mem_cons.1 h
    rw [escape_cons]
    unfold Readable at h1
    unfold escapeByte
    split at h1
    · rename_i hs
      rw [if_pos hs]
      show unescape m (37 :: _ :: _ :: (escape m s ++ r)) = _
      rw [unescape, if_pos rfl]
      unfold escapedByte
      rw [(hex_upper c).1, (hex_upper c).2]
      simp only
      rw [Nat.div_add_mod, h1]
      simp only [Bool.false_eq_true, if_false, ih h2]
      cases unescape m r with
      | ok t => simp
      | err e => rfl
      | panic => rfl
    · rename_i hs
      rw [if_neg hs]
      show unescape m (c :: (escape m s ++ r)) = _
      have hc : c ≠ 37 := by rintro rfl; exact hs (shouldEscape_percent m)
      rw [unescape_other hc, h1]
      simp only [Bool.false_eq_true, if_false, ih h2]
      cases unescape m r with
      | ok t => simp
      | err e => rfl
      | panic => rfl

theorem unescape_escape {m : Mode} {s : Bytes} (h : ∀ c ∈ s, Readable m c) :
    unescape m (escape m s) = .ok s := by
  have := unescape_escape_append h []
  rw [List.append_nil] at this
  rw [this]
  simp [unescape]

theorem unescape_length {m : Mode} {s t : Bytes} (h : unescape m s = .ok t) :
    t.length ≤ s.length ∧ (t.length = s.length → t = s ∧ (37 : UInt8) ∉ s) := by
  fun_induction unescape m s generalizing t with
  | case1 => simp at h; subst h; simp
  | case2 a b r hb => simp at h
  | case3 a b r x hb ih =>
    rw [Res.bind_eq_ok] at h
    obtain ⟨t', h1, h2⟩ := h
    simp at h2; subst h2
    have := (ih h1).1
    simp; omega
  | case4 => simp at h
  | case5 => simp at h
  | case6 c s hc hb ih =>
    rw [Res.bind_eq_ok] at h
    obtain ⟨t', h1, h2⟩ := h
    simp at h2; subst h2
    obtain ⟨g1, g2⟩ := ih h1
    refine ⟨by simp; omega, fun hl => ?_⟩
    obtain ⟨rfl, g3⟩ := g2 (by simpa using hl)
    exact ⟨rfl, by simp [g3, Ne.symm hc]⟩

/-- Without percent sign nothing is changed (except in a host or zone, where some bytes are refused). -/
theorem unescape_plain {m : Mode} {s : Bytes} (h : (37 : UInt8) ∉ s) (hb : ∀ c ∈ s, badByte m c = false) :
    unescape m s = .ok s := by
  induction s with
  | nil => rfl
  | cons c s ih =>
    obtain ⟨h1, h2⟩ := List.forall_mem_cons.1 hb
    simp only [List.mem_cons, not_or] at h
    rw [unescape_other (Ne.symm h.1), h1]
    simp [ih h.2 h2]

theorem badByte_path (m : Mode) (h : m ≠ .host) (h' : m ≠ .zone) (c : UInt8) : badByte m c = false := by
  unfold badByte; simp [h, h']

/-- What `unescape` gives can be escaped and read back. -/
theorem unescape_readable {s t : Bytes} (h : unescape .host s = .ok t) :
    ∀ c ∈ t, Readable .host c := by
  fun_induction unescape Mode.host s generalizing t with
  | case1 => simp at h; subst h; simp
  | case2 a b r hb => simp at h
  | case3 a b r x hb ih =>
    rw [Res.bind_eq_ok] at h
    obtain ⟨t', h1, h2⟩ := h
    simp at h2; subst h2
    rw [List.forall_mem_cons]
    refine ⟨?_, ih h1⟩
    unfold escapedByte at hb
    split at hb
    · rename_i u v hu hv
      split at hb
      · simp at hb
      · rename_i hbad
        have hb := Option.some.inj hb
        have hu' := hexVal_lt hu
        have hv' := hexVal_lt hv
        have hx : x.toNat = 16 * u + v := by
          rw [← hb, UInt8.toNat_ofNat']; omega
        unfold Readable
        split
        · rw [hx]; simpa using hbad
        · rename_i hs
          unfold badByte
          simp only [hs]; simp
    · simp at hb
  | case4 => simp at h
  | case5 => simp at h
  | case6 c s hc hb ih =>
    rw [Res.bind_eq_ok] at h
    obtain ⟨t', h1, h2⟩ := h
    simp at h2; subst h2
    rw [List.forall_mem_cons]
    refine ⟨?_, ih h1⟩
    have hb' : badByte .host c = false := by simpa using hb
    unfold Readable
    split
    · rename_i hs
      unfold badByte at hb'
      simp only [hs] at hb'
      unfold badEscape
      simp at hb' ⊢
      intro hlt
      have := UInt8.le_iff_toNat_le.1 hb'
      simp at this
      omega
    · exact hb'

/-! ### The parts of `Parse` -/

theorem cut_eq (s : Bytes) (c : UInt8) : (c ∉ s ∧ cut s c = (s, [])) ∨ ∃ a b, c ∉ a ∧ s = a ++ c :: b ∧ cut s c = (a, b) := by
  unfold cut
  induction s with
  | nil => left; simp
  | cons x s ih =>
    by_cases h : x = c
    · right; subst h; exact ⟨[], s, by simp, by simp, by simp⟩
    · have hx : (x != c) = true := by simpa using h
      rcases ih with ⟨h1, h2⟩ | ⟨a, b, h1, h2, h3⟩
      · left
        simp only [Prod.mk.injEq] at h2
        simp [hx, h2.1, h2.2, h1, Ne.symm h]
      · right
        simp only [Prod.mk.injEq] at h3
        exact ⟨x :: a, b, by simp [h1, Ne.symm h], by simp [← h2], by simp [hx, h3.1, h3.2]⟩

theorem cut_none {s : Bytes} {c : UInt8} (h : c ∉ s) : cut s c = (s, []) := by
  rcases cut_eq s c with ⟨_, h2⟩ | ⟨a, b, _, h2, _⟩
  · exact h2
  · exact absurd (by rw [h2]; simp) h

theorem cut_append {a b : Bytes} {c : UInt8} (h : c ∉ a) : cut (a ++ c :: b) c = (a, b) := by
  unfold cut
  have h1 : ∀ x ∈ a, (x != c) = true := by
    intro x hx; simp; rintro rfl; exact h hx
  rw [List.takeWhile_append_of_pos h1, List.dropWhile_append_of_pos h1]
  simp

theorem cut_length (s : Bytes) (c : UInt8) : (cut s c).1.length ≤ s.length ∧
    ((cut s c).1.length = s.length → (cut s c).1 = s ∧ c ∉ s) := by
  rcases cut_eq s c with ⟨h1, h2⟩ | ⟨a, b, _, h2, h3⟩
  · rw [h2]; exact ⟨Nat.le_refl _, fun _ => ⟨rfl, h1⟩⟩
  · rw [h3, h2]; constructor
    · simp
    · intro h; simp at h

theorem splitQuery_none {s : Bytes} (h : (63 : UInt8) ∉ s) : splitQuery s = (s, false, []) := by
  unfold splitQuery
  rw [if_neg, cut_none h]
  rintro ⟨h1, _⟩
  exact h (List.mem_of_getLast? h1)

theorem splitQuery_length (s : Bytes) : (splitQuery s).1.length ≤ s.length ∧
    ((splitQuery s).1.length = s.length → (splitQuery s).1 = s ∧ (63 : UInt8) ∉ s) := by
  unfold splitQuery
  split
  · rename_i h
    have : s ≠ [] := by rintro rfl; simp at h
    have := List.length_pos_iff.2 this
    simp; omega
  · exact cut_length s 63

theorem schemeEnd_none {s : Bytes} (i : Nat) (h : (58 : UInt8) ∉ s.takeWhile (· != 47)) : schemeEnd i s = .ok none := by
  induction s generalizing i with
  | nil => rfl
  | cons c s ih =>
    unfold schemeEnd
    by_cases hc : c = 47
    · subst hc; rfl
    · have hx : (c != 47) = true := by simpa using hc
      rw [List.takeWhile_cons, if_pos hx] at h
      simp only [List.mem_cons, not_or] at h
      have := ih (i + 1) h.2
      split
      · exact this
      · split
        · split
          · rfl
          · exact this
        · rw [if_neg (Ne.symm h.1)]

theorem schemeEnd_bound {s : Bytes} {i j : Nat} (h : schemeEnd i s = .ok (some j)) : i ≤ j ∧ j < i + s.length := by
  induction s generalizing i with
  | nil => simp [schemeEnd] at h
  | cons c s ih =>
    unfold schemeEnd at h
    simp only [List.length_cons]
    split at h
    · have := ih h; omega
    · split at h
      · split at h
        · simp at h
        · have := ih h; omega
      · split at h
        · split at h
          · simp at h
          · simp at h; omega
        · simp at h

theorem getScheme_none {s : Bytes} (h : (58 : UInt8) ∉ s.takeWhile (· != 47)) : getScheme s = .ok ([], s) := by
  unfold getScheme
  rw [schemeEnd_none 0 h]; rfl

theorem getScheme_length {s : Bytes} {x : Bytes × Bytes} (h : getScheme s = .ok x) : x.2.length ≤ s.length ∧
    (x.2.length = s.length → x = ([], s)) := by
  unfold getScheme at h
  rw [Res.bind_eq_ok] at h
  obtain ⟨o, h1, h2⟩ := h
  cases o with
  | none => simp at h2; subst h2; simp
  | some j =>
    simp at h2; subst h2
    have := schemeEnd_bound h1
    simp; omega

theorem setPath_ok {u v : URL} {p : Bytes} (h : setPath u p = .ok v) : unescape .path p = .ok v.path ∧
    v = { u with path := v.path, rawPath := v.rawPath } := by
  unfold setPath at h
  rw [Res.bind_eq_ok] at h
  obtain ⟨q, h1, h2⟩ := h
  have := Res.ok.inj h2
  subst this
  exact ⟨h1, rfl⟩

theorem setFragment_ok {u v : URL} {p : Bytes} (h : setFragment u p = .ok v) :
    v = { u with fragment := v.fragment, rawFragment := v.rawFragment } := by
  unfold setFragment at h
  rw [Res.bind_eq_ok] at h
  obtain ⟨q, h1, h2⟩ := h
  have := Res.ok.inj h2
  subst this
  rfl

/-- The path is not longer than the text; if it has the same length, the text is the path. -/
theorem parseRest_length {u v : URL} {s : Bytes} (hu : u.path = []) (hs : s ≠ []) (h : parseRest u s = .ok v) :
    v.path.length ≤ s.length ∧ (v.path.length = s.length → v.path = s ∧ (37 : UInt8) ∉ s ∧
      (s.head? = some 47 → ¬ ((u.scheme ≠ [] ∨ hasPrefix s b!"///" = false) ∧ hasPrefix s b!"//" = true)) ∧
      (s.head? ≠ some 47 → u.scheme = [] ∧ (58 : UInt8) ∉ s.takeWhile (· != 47))) := by
  unfold parseRest at h
  split at h
  · rename_i h1
    split at h
    · have := Res.ok.inj h
      subst this
      have := List.length_pos_iff.2 hs
      simp [hu]; omega
    · rename_i h2
      split at h
      · simp at h
      · rename_i h3
        have := unescape_length (setPath_ok h).1
        refine ⟨this.1, fun hl => ?_⟩
        obtain ⟨g1, g2⟩ := this.2 hl
        exact ⟨g1, g2, fun h => absurd h h1, fun _ => ⟨by simpa using h2, h3⟩⟩
  · rename_i h1
    split at h
    · rw [Res.bind_eq_ok] at h
      obtain ⟨uh, _, h3⟩ := h
      have := (unescape_length (setPath_ok h3).1).1
      have h4 : ((s.drop 2).dropWhile (· != 47)).length ≤ (s.drop 2).length := (List.dropWhile_sublist _).length_le
      have := List.length_pos_iff.2 hs
      simp at h4
      omega
    · rename_i h2
      have := unescape_length (setPath_ok h).1
      refine ⟨this.1, fun hl => ?_⟩
      obtain ⟨g1, g2⟩ := this.2 hl
      exact ⟨g1, g2, fun _ => h2, fun h => absurd h (by simpa using h1)⟩

end Verif.GoUrl
