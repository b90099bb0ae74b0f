import Verif.Model.Nar
import Verif.Lemmas.Path

namespace Verif.Nar
open Verif.GoLib Verif.Spec

theorem contains_singleton (s : Bytes) (c : UInt8) : contains s [c] = true ↔ c ∈ s := by
  unfold contains
  induction s with
  | nil => simp [index]
  | cons x s ih =>
    unfold index
    split
    · rename_i h; simp [List.isPrefixOf] at h; simp [h]
    · rename_i h
      simp [List.isPrefixOf] at h
      simp only [Option.isSome_map, ih, List.mem_cons]
      simp [h]

theorem isValidNodeName_iff (n : Bytes) :
    isValidNodeName n = true ↔ (47 : UInt8) ∉ n ∧ (0 : UInt8) ∉ n := by
  unfold isValidNodeName
  rw [Bool.and_eq_true, Bool.not_eq_true', Bool.not_eq_true', ← Bool.not_eq_true, ← Bool.not_eq_true,
    contains_singleton]
  simp

/-- slash-lowest lexicographic order -/
def slashLe : Bytes → Bytes → Bool
  | [], _ => true
  | _ :: _, [] => false
  | a :: p, b :: q =>
    if a = b then slashLe p q
    else if a = 47 then true
    else if b = 47 then false
    else decide (a < b)

theorem splitByte_cons_sep (s : Bytes) : splitByte (47 :: s) 47 = [] :: splitByte s 47 := by
  simp [splitByte]

theorem splitByte_cons_other {c : UInt8} (h : c ≠ 47) (s : Bytes) :
    ∃ x xs, splitByte s 47 = x :: xs ∧ splitByte (c :: s) 47 = (c :: x) :: xs := by
  cases hs : splitByte s 47 with
  | nil => exact absurd hs (splitByte_ne_nil s 47)
  | cons x xs =>
    refine ⟨x, xs, rfl, ?_⟩
    unfold splitByte
    rw [if_neg (by simp [h]), hs]

theorem slashLe_iff (a b : Bytes) : slashLe a b = true ↔ splitByte a 47 ≤ splitByte b 47 := by
  induction a generalizing b with
  | nil =>
    simp only [slashLe, true_iff]
    have e : splitByte [] 47 = [[]] := rfl
    rw [e]
    cases hb : splitByte b 47 with
    | nil => exact absurd hb (splitByte_ne_nil b 47)
    | cons y ys =>
      rw [List.cons_le_cons_iff]
      cases y with
      | nil => exact .inr ⟨rfl, List.nil_le _⟩
      | cons z y => exact .inl (List.nil_lt_cons _ _)
  | cons c a ih =>
    cases b with
    | nil =>
      simp only [slashLe, Bool.false_eq_true, false_iff]
      have e : splitByte [] 47 = [[]] := rfl
      rw [e]
      by_cases hc : c = 47
      · subst hc
        rw [splitByte_cons_sep, List.cons_le_cons_iff]
        rintro (h | ⟨_, h⟩)
        · exact List.lt_irrefl _ h
        · rw [List.le_nil] at h; exact splitByte_ne_nil a 47 h
      · obtain ⟨x, xs, _, h2⟩ := splitByte_cons_other hc a
        rw [h2, List.cons_le_cons_iff]
        rintro (h | ⟨h, _⟩)
        · exact List.not_lt_nil _ h
        · simp at h
    | cons d b =>
      unfold slashLe
      by_cases hcd : c = d
      · subst hcd
        rw [if_pos rfl, ih]
        by_cases hc : c = 47
        · subst hc
          rw [splitByte_cons_sep, splitByte_cons_sep, List.cons_le_cons_iff]
          constructor
          · intro h; exact .inr ⟨rfl, h⟩
          · rintro (h | ⟨_, h⟩)
            · exact absurd h (List.lt_irrefl _)
            · exact h
        · obtain ⟨x, xs, h1, h2⟩ := splitByte_cons_other hc a
          obtain ⟨y, ys, h3, h4⟩ := splitByte_cons_other hc b
          rw [h1, h2, h3, h4, List.cons_le_cons_iff, List.cons_le_cons_iff, List.cons_lt_cons_iff]
          simp
      · rw [if_neg hcd]
        by_cases hc : c = 47
        · subst hc
          rw [if_pos rfl]
          obtain ⟨y, ys, h3, h4⟩ := splitByte_cons_other (Ne.symm hcd) b
          rw [splitByte_cons_sep, h4, List.cons_le_cons_iff]
          exact ⟨fun _ => .inl (List.nil_lt_cons _ _), fun _ => rfl⟩
        · rw [if_neg hc]
          obtain ⟨x, xs, h1, h2⟩ := splitByte_cons_other hc a
          by_cases hd : d = 47
          · subst hd
            rw [if_pos rfl, splitByte_cons_sep, h2, List.cons_le_cons_iff]
            simp
          · rw [if_neg hd]
            obtain ⟨y, ys, h3, h4⟩ := splitByte_cons_other hd b
            rw [h2, h4, List.cons_le_cons_iff, List.cons_lt_cons_iff]
            simp [hcd]

theorem ordered_eq (a b : Bytes) :
    pathIsLexicographicallyOrdered a b = (strLe a b || slashLe a b) := by
  unfold pathIsLexicographicallyOrdered
  split
  · rename_i h; simp [h]
  · rename_i h
    have hs : strLe a b = false := by simpa using h
    rw [hs, Bool.false_or]
    clear h
    induction a generalizing b with
    | nil => simp [strLe] at hs
    | cons c a ih =>
      cases b with
      | nil => simp [orderLoop, slashLe]
      | cons d b =>
        unfold orderLoop slashLe
        unfold strLe at hs
        by_cases hcd : c = d
        · rw [if_pos hcd] at hs
          rw [if_pos hcd, if_pos hcd, ← ih b hs]
          split <;> simp
        · rw [if_neg hcd] at hs
          rw [if_neg hcd, if_neg hcd]
          by_cases hc : c = 47
          · subst hc
            rw [if_pos ⟨rfl, Ne.symm hcd⟩, if_pos rfl]
          · rw [if_neg (by simp [hc]), if_neg hc]
            simp only []
            rw [hs]
            split <;> rfl

theorem ordered_iff (a b : Bytes) :
    pathIsLexicographicallyOrdered a b = true ↔ a ≤ b ∨ splitByte a 47 ≤ splitByte b 47 := by
  rw [ordered_eq, Bool.or_eq_true, strLe_iff, slashLe_iff]

end Verif.Nar
