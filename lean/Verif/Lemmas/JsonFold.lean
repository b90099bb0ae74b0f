import Verif.Lemmas.JsonParse

/-! # Lemmas: the names of fields -/

namespace Verif.GoJson
open Verif.Spec Verif.GoLib

theorem segsF_fuel {s v : Bytes} (h : Repaired s v) : ∀ f, s.length ≤ f → segsF f s = segsF s.length s := by
  induction h with
  | nil => intro f _; cases f <;> rfl
  | @char c s v hc _ ih =>
    intro f hf
    have hpos := utf8_pos c
    have hrs := runeSize_utf8 hc s
    obtain ⟨a, q, hq, _⟩ := utf8_head hc
    have key : ∀ f, s.length ≤ f → segsF (f + 1) (utf8 c ++ s) = (utf8 c, true) :: segsF s.length s := by
      intro f hf
      have e : utf8 c ++ s = a :: (q ++ s) := by rw [hq]; rfl
      rw [e] at hrs ⊢
      simp only [segsF, hrs]
      rw [← e, List.take_left, List.drop_left, ih f hf]
    rw [List.length_append] at hf ⊢
    obtain ⟨f, rfl⟩ : ∃ k, f = k + 1 := ⟨f - 1, by omega⟩
    obtain ⟨n, hn⟩ : ∃ n, (utf8 c).length + s.length = n + 1 := ⟨(utf8 c).length + s.length - 1, by omega⟩
    rw [hn, key f (by omega), key n (by omega)]
  | @bad b s v hn _ ih =>
    intro f hf
    have hrs := (runeSize_none_iff _).2 hn
    rw [List.length_cons] at hf ⊢
    obtain ⟨f, rfl⟩ : ∃ k, f = k + 1 := ⟨f - 1, by omega⟩
    simp only [segsF, hrs]
    rw [ih f (by omega)]

theorem segs_char {c : Nat} (hc : IsScalar c) (s : Bytes) : segs (utf8 c ++ s) = (utf8 c, true) :: segs s := by
  have hpos := utf8_pos c
  have hrs := runeSize_utf8 hc s
  obtain ⟨a, q, hq, _⟩ := utf8_head hc
  unfold segs
  have e : utf8 c ++ s = a :: (q ++ s) := by rw [hq]; rfl
  rw [List.length_append]
  obtain ⟨n, hn⟩ : ∃ n, (utf8 c).length + s.length = n + 1 := ⟨(utf8 c).length + s.length - 1, by omega⟩
  rw [hn]
  rw [e] at hrs ⊢
  simp only [segsF, hrs]
  rw [← e, List.take_left, List.drop_left, segsF_fuel (repair_spec s) n (by omega)]

theorem segs_bad {b : UInt8} {s : Bytes} (h : NoRune (b :: s)) : segs (b :: s) = ([b], false) :: segs s := by
  have hrs := (runeSize_none_iff _).2 h
  unfold segs
  rw [List.length_cons]
  simp only [segsF, hrs]

theorem foldName_nil : foldName [] = [] := rfl

theorem foldName_char {c : Nat} (hc : IsScalar c) (s : Bytes) : foldName (utf8 c ++ s) = foldSeg (utf8 c) ++ foldName s := by
  unfold foldName
  rw [segs_char hc, List.flatMap_cons]

theorem foldName_bad {b : UInt8} {s : Bytes} (h : NoRune (b :: s)) : foldName (b :: s) = foldSeg [b] ++ foldName s := by
  unfold foldName
  rw [segs_bad h, List.flatMap_cons]

theorem utf8_byte {b : UInt8} (h : b.toNat < 0x80) : utf8 b.toNat = [b] := by
  unfold utf8
  rw [if_pos h]
  simp

theorem foldName_byte {b : UInt8} (h : b.toNat < 0x80) (s : Bytes) : foldName (b :: s) = foldSeg [b] ++ foldName s := by
  have := foldName_char (c := b.toNat) (.inl (by omega)) s
  rwa [utf8_byte h] at this

/-- the upper case of a byte -/
def upperByte (c : UInt8) : UInt8 := if inR 97 122 c then c - 32 else c

theorem foldSeg_byte (c : UInt8) : foldSeg [c] = [upperByte c] := by
  unfold foldSeg upperByte
  simp only []
  split <;> rfl

theorem foldName_ascii {s : Bytes} (h : ∀ c ∈ s, c.toNat < 0x80) : foldName s = s.map upperByte := by
  induction s with
  | nil => rfl
  | cons c s ih =>
    rw [foldName_byte (h c List.mem_cons_self), foldSeg_byte, ih fun x hx => h x (List.mem_cons_of_mem _ hx)]
    rfl

theorem letter_key : ∀ c d : Fin 256, c.val < 128 →
    (upperByte (UInt8.ofNat d) = upperByte (UInt8.ofNat c) ↔
      (UInt8.ofNat d = UInt8.ofNat c ∨ (65 ≤ c.val ∧ c.val ≤ 90 ∧ UInt8.ofNat d = UInt8.ofNat c + 32) ∨
        (97 ≤ c.val ∧ c.val ≤ 122 ∧ UInt8.ofNat d = UInt8.ofNat c - 32))) := by
  decide +kernel

theorem letter_byte {c d : UInt8} (hc : c.toNat < 0x80) : upperByte d = upperByte c ↔
    (d = c ∨ (65 ≤ c.toNat ∧ c.toNat ≤ 90 ∧ d = c + 32) ∨ (97 ≤ c.toNat ∧ c.toNat ≤ 122 ∧ d = c - 32)) := by
  have h := letter_key ⟨c.toNat, c.toNat_lt⟩ ⟨d.toNat, d.toNat_lt⟩ hc
  simpa using h

theorem upper_ascii {c : UInt8} (hc : c.toNat < 0x80) : (upperByte c).toNat < 0x80 := by
  have key : ∀ c : Fin 256, c.val < 128 → (upperByte (UInt8.ofNat c)).toNat < 128 := by decide +kernel
  simpa using key ⟨c.toNat, c.toNat_lt⟩ hc

theorem letter_S {c : UInt8} : upperByte c = 83 ↔ (c = 83 ∨ c = 115) := by
  have key : ∀ c : Fin 256, (upperByte (UInt8.ofNat c) = 83 ↔ (UInt8.ofNat c = 83 ∨ UInt8.ofNat c = 115)) := by decide +kernel
  simpa using key ⟨c.toNat, c.toNat_lt⟩

theorem letter_K {c : UInt8} : upperByte c = 75 ↔ (c = 75 ∨ c = 107) := by
  have key : ∀ c : Fin 256, (upperByte (UInt8.ofNat c) = 75 ↔ (UInt8.ofNat c = 75 ∨ UInt8.ofNat c = 107)) := by decide +kernel
  simpa using key ⟨c.toNat, c.toNat_lt⟩

theorem foldSeg_long {c : Nat} (hc : IsScalar c) (h : 0x80 ≤ c) :
    foldSeg (utf8 c) = if c = 0x17F then b!"S" else if c = 0x212A then b!"K" else utf8 c := by
  have hl : ∀ x, utf8 c ≠ [x] := by
    intro x hx
    obtain ⟨a, q, hq, _, _⟩ := utf8_head hc
    unfold utf8 at hx
    rw [if_neg (by omega)] at hx
    revert hx
    repeat' split
    all_goals simp
  have inj : ∀ c', IsScalar c' → utf8 c = utf8 c' → c = c' := by
    intro c' hc' he
    unfold IsScalar at hc hc'
    unfold utf8 at he
    repeat' split at he
    all_goals
      simp only [List.map_cons, List.map_nil, List.cons.injEq, and_true, reduceCtorEq, and_false] at he
    · omega
    · obtain ⟨h1, h2⟩ := he
      rw [← UInt8.toNat_inj, toNat_ofNat_lt (by omega), toNat_ofNat_lt (by omega)] at h1 h2
      omega
    · obtain ⟨h1, h2, h3⟩ := he
      rw [← UInt8.toNat_inj, toNat_ofNat_lt (by omega), toNat_ofNat_lt (by omega)] at h1 h2 h3
      omega
    · obtain ⟨h1, h2, h3, h4⟩ := he
      rw [← UInt8.toNat_inj, toNat_ofNat_lt (by omega), toNat_ofNat_lt (by omega)] at h1 h2 h3 h4
      omega
  unfold foldSeg
  split
  · rename_i x hx
    exact absurd hx (hl x)
  · have e1 : utf8 c = [0xC5, 0xBF] ↔ c = 0x17F := by
      have e : ([0xC5, 0xBF] : Bytes) = utf8 0x17F := by decide
      rw [e]
      exact ⟨inj _ (.inl (by omega)), fun h => by rw [h]⟩
    have e2 : utf8 c = [0xE2, 0x84, 0xAA] ↔ c = 0x212A := by
      have e : ([0xE2, 0x84, 0xAA] : Bytes) = utf8 0x212A := by decide
      rw [e]
      exact ⟨inj _ (.inl (by omega)), fun h => by rw [h]⟩
    simp only [e1, e2]

theorem keyFor_of_fold {field key v : Bytes} (hf : ∀ c ∈ field, c.toNat < 0x80) (hr : Repaired key v)
    (h : foldName key = field.map upperByte) : KeyFor field key := by
  induction hr generalizing field with
  | nil =>
    cases field with
    | nil => exact .nil
    | cons c f => simp [foldName_nil] at h
  | @char c s v hc _ ih =>
    rw [foldName_char hc] at h
    by_cases h80 : c < 0x80
    · obtain ⟨a, q, hq, hlo, _⟩ := utf8_head hc
      obtain ⟨ha, rfl⟩ := hlo h80
      rw [hq, foldSeg_byte] at h
      cases field with
      | nil => simp at h
      | cons b f =>
        simp only [List.cons_append, List.nil_append, List.map_cons, List.cons.injEq] at h
        rw [hq]
        refine .cons ?_ (ih (fun x hx => hf x (List.mem_cons_of_mem _ hx)) h.2)
        rcases (letter_byte (hf b List.mem_cons_self)).1 h.1 with h | h | h
        · exact .inl (by rw [h])
        · exact .inr (.inl ⟨h.1, h.2.1, by rw [h.2.2]⟩)
        · exact .inr (.inr (.inl ⟨h.1, h.2.1, by rw [h.2.2]⟩))
    · rw [foldSeg_long hc (by omega)] at h
      split at h
      · rename_i he
        subst he
        cases field with
        | nil => simp at h
        | cons b f =>
          simp only [List.cons_append, List.nil_append, List.map_cons, List.cons.injEq] at h
          exact .cons (.inr (.inr (.inr (.inl ⟨letter_S.1 h.1.symm, rfl⟩)))) (ih (fun x hx => hf x (List.mem_cons_of_mem _ hx)) h.2)
      · split at h
        · rename_i he
          subst he
          cases field with
          | nil => simp at h
          | cons b f =>
            simp only [List.cons_append, List.nil_append, List.map_cons, List.cons.injEq] at h
            exact .cons (.inr (.inr (.inr (.inr ⟨letter_K.1 h.1.symm, rfl⟩)))) (ih (fun x hx => hf x (List.mem_cons_of_mem _ hx)) h.2)
        · exfalso
          obtain ⟨a, q, hq, _, hhi⟩ := utf8_head hc
          rw [hq] at h
          cases field with
          | nil => simp at h
          | cons b f =>
            simp only [List.cons_append, List.map_cons, List.cons.injEq] at h
            have h1 := upper_ascii (hf b List.mem_cons_self)
            have h2 := hhi (by omega)
            rw [h.1] at h2
            omega
  | @bad b s v hn _ ih =>
    exfalso
    rw [foldName_bad hn, foldSeg_byte] at h
    have hb : 0x80 ≤ b.toNat := by
      apply Nat.le_of_not_lt
      intro hlt
      exact hn b.toNat (.inl (by omega)) (by rw [utf8_byte hlt]; exact ⟨s, rfl⟩)
    cases field with
    | nil => simp at h
    | cons d f =>
      simp only [List.cons_append, List.nil_append, List.map_cons, List.cons.injEq] at h
      have h1 := upper_ascii (hf d List.mem_cons_self)
      have h2 : upperByte b = b := by
        unfold upperByte
        rw [if_neg]
        rw [inR_iff]
        omega
      rw [h2] at h
      rw [← h.1] at h1
      omega

theorem fold_of_keyFor {field key : Bytes} (hf : ∀ c ∈ field, c.toNat < 0x80) (h : KeyFor field key) :
    foldName key = field.map upperByte := by
  induction h with
  | nil => rfl
  | @cons c t field key hl _ ih =>
    have ih := ih fun x hx => hf x (List.mem_cons_of_mem _ hx)
    have hc := hf c List.mem_cons_self
    have byte : ∀ d : UInt8, d.toNat < 0x80 → upperByte d = upperByte c → foldName ([d] ++ key) = (c :: field).map upperByte := by
      intro d hd he
      rw [List.cons_append, List.nil_append, foldName_byte hd, foldSeg_byte, ih, he]
      rfl
    rcases hl with rfl | ⟨h1, h2, rfl⟩ | ⟨h1, h2, rfl⟩ | ⟨h1, rfl⟩ | ⟨h1, rfl⟩
    · exact byte c hc rfl
    · refine byte (c + 32) ?_ ((letter_byte hc).2 (.inr (.inl ⟨h1, h2, rfl⟩)))
      rw [UInt8.toNat_add]
      have : (32 : UInt8).toNat = 32 := rfl
      omega
    · refine byte (c - 32) ?_ ((letter_byte hc).2 (.inr (.inr ⟨h1, h2, rfl⟩)))
      rw [UInt8.toNat_sub_of_le _ _ (by rw [UInt8.le_iff_toNat_le]; have : (32 : UInt8).toNat = 32 := rfl; omega)]
      omega
    · rw [foldName_char (.inl (by omega)), foldSeg_long (.inl (by omega)) (by omega), ih]
      rw [if_pos rfl, List.map_cons, letter_S.2 h1]
      rfl
    · rw [foldName_char (.inl (by omega)), foldSeg_long (.inl (by omega)) (by omega), ih]
      rw [if_neg (by decide), if_pos rfl, List.map_cons, letter_K.2 h1]
      rfl

theorem sameField_iff {field key : Bytes} (hf : ∀ c ∈ field, c.toNat < 0x80) : sameField field key = true ↔ KeyFor field key := by
  unfold sameField
  rw [beq_iff_eq, foldName_ascii hf]
  exact ⟨keyFor_of_fold hf (repair_spec key), fold_of_keyFor hf⟩

end Verif.GoJson
