import Verif.GoLib

namespace Verif.GoLib

theorem b64Val_char {v : Nat} (h : v < 64) : b64Val (b64Char v) = some v := by
  have key : ∀ v : Fin 64, b64Val (b64Char v) = some v.val := by decide +kernel
  exact key ⟨v, h⟩

theorem b64Char_mem {v : Nat} (h : v < 64) : b64Char v ∈ b64Alphabet := by
  have key : ∀ v : Fin 64, b64Char v ∈ b64Alphabet := by decide +kernel
  exact key ⟨v, h⟩

theorem b64Val_lt {c : UInt8} {v : Nat} (h : b64Val c = some v) : v < 64 := by
  unfold b64Val at h
  rw [List.findIdx?_eq_some_iff_getElem] at h
  obtain ⟨h, _⟩ := h
  exact h

theorem b64Val_eq : b64Val 61 = none := by decide

theorem ofNat_eq_of_toNat {x : UInt8} {n : Nat} (h : n = x.toNat) : UInt8.ofNat n = x := by
  subst h; simp

theorem b64Quads_encode (b : Bytes) : b64Quads (b64Encode b) = .ok b := by
  fun_induction b64Encode b with
  | case1 => rfl
  | case2 a =>
    have := a.toNat_lt
    simp only [b64Quads]
    rw [b64Val_char (by omega), b64Val_char (by omega), b64Val_eq]
    simp only [BEq.rfl, Bool.and_self, List.isEmpty_nil, if_true, Res.ok.injEq, List.cons.injEq, and_true]
    exact ofNat_eq_of_toNat (by omega)
  | case3 a b =>
    have := a.toNat_lt; have := b.toNat_lt
    simp only [b64Quads]
    rw [b64Val_char (by omega), b64Val_char (by omega), b64Val_char (by omega), b64Val_eq]
    simp only [BEq.rfl, Bool.and_self, List.isEmpty_nil, if_true, Res.ok.injEq, List.cons.injEq, and_true]
    exact ⟨ofNat_eq_of_toNat (by omega), ofNat_eq_of_toNat (by omega)⟩
  | case4 a b c rest ih =>
    have := a.toNat_lt; have := b.toNat_lt; have := c.toNat_lt
    simp only [b64Quads]
    rw [b64Val_char (by omega), b64Val_char (by omega), b64Val_char (by omega),
      b64Val_char (by omega)]
    simp only [ih, Res.bind_ok, Res.ok.injEq, List.cons.injEq, and_true]
    exact ⟨ofNat_eq_of_toNat (by omega), ofNat_eq_of_toNat (by omega),
      ofNat_eq_of_toNat (by omega)⟩

theorem b64Encode_mem (b : Bytes) : ∀ c ∈ b64Encode b, c ∈ b64Alphabet ∨ c = 61 := by
  fun_induction b64Encode b with
  | case1 => simp
  | case2 a =>
    have := a.toNat_lt
    intro c hc
    simp only [List.mem_cons, List.not_mem_nil, or_false] at hc
    rcases hc with rfl | rfl | rfl | rfl <;> first
      | exact .inr rfl
      | exact .inl (b64Char_mem (by omega))
  | case3 a b =>
    have := a.toNat_lt; have := b.toNat_lt
    intro c hc
    simp only [List.mem_cons, List.not_mem_nil, or_false] at hc
    rcases hc with rfl | rfl | rfl | rfl <;> first
      | exact .inr rfl
      | exact .inl (b64Char_mem (by omega))
  | case4 a b c rest ih =>
    have := a.toNat_lt; have := b.toNat_lt; have := c.toNat_lt
    intro x hx
    simp only [List.mem_cons] at hx
    rcases hx with rfl | rfl | rfl | rfl | hx
    · exact .inl (b64Char_mem (by omega))
    · exact .inl (b64Char_mem (by omega))
    · exact .inl (b64Char_mem (by omega))
    · exact .inl (b64Char_mem (by omega))
    · exact ih x hx

theorem b64Encode_no (b : Bytes) (c : UInt8) (h : c ∉ b64Alphabet) (h' : c ≠ 61) :
    c ∉ b64Encode b := by
  intro hc
  rcases b64Encode_mem b c hc with h1 | h1
  · exact h h1
  · exact h' h1

theorem filter_crlf {s : Bytes} (h1 : (10 : UInt8) ∉ s) (h2 : (13 : UInt8) ∉ s) :
    s.filter (fun c => c != 10 && c != 13) = s := by
  rw [List.filter_eq_self]
  intro a ha
  simp
  exact ⟨fun h => h1 (h ▸ ha), fun h => h2 (h ▸ ha)⟩

theorem b64Decode_encode (b : Bytes) : b64Decode (b64Encode b) = .ok b := by
  unfold b64Decode
  rw [filter_crlf (b64Encode_no b 10 (by decide) (by decide))
    (b64Encode_no b 13 (by decide) (by decide)), b64Quads_encode]

theorem b64Quads_ne_panic (s : Bytes) : b64Quads s ≠ .panic := by
  fun_induction b64Quads s with
  | case2 a b c d rest x y hb ha z hc w hd ih =>
    cases h : b64Quads rest with
    | ok r => simp
    | err e => simp
    | panic => exact absurd h ih
  | _ => simp

theorem b64Decode_ne_panic (s : Bytes) : b64Decode s ≠ .panic := b64Quads_ne_panic _

theorem b64Encode_length (b : Bytes) : (b64Encode b).length = b64EncodedLen b.length := by
  fun_induction b64Encode b with
  | case1 => rfl
  | case2 a => simp [b64EncodedLen]
  | case3 a b => simp [b64EncodedLen]
  | case4 a b c rest ih => simp [ih, b64EncodedLen]; omega

/-- Length of decoded data: three bytes per group of four, less one per padding character. -/
theorem b64Quads_length {s d : Bytes} (h : b64Quads s = .ok d) :
    s.length % 4 = 0 ∧ d.length + s.count 61 = s.length / 4 * 3 ∧ s.count 61 ≤ 2 := by
  fun_induction b64Quads s generalizing d with
  | case1 => simp at h; subst h; simp
  | case2 a b c dd rest x y ha hb z hc w hd ih =>
    rw [Res.bind_eq_ok] at h
    obtain ⟨r, hr, h⟩ := h
    have := ih hr
    simp at h; subst h
    have na : a ≠ 61 := by rintro rfl; have := b64Val_eq; simp_all
    have nb : b ≠ 61 := by rintro rfl; have := b64Val_eq; simp_all
    have nc : c ≠ 61 := by rintro rfl; have := b64Val_eq; simp_all
    have nd : dd ≠ 61 := by rintro rfl; have := b64Val_eq; simp_all
    rw [List.count_cons_of_ne na, List.count_cons_of_ne nb, List.count_cons_of_ne nc, List.count_cons_of_ne nd]
    simp only [List.length_cons]
    omega
  | case3 a b c dd rest x y ha hb z hc hd hif =>
    simp at h; subst h
    simp at hif
    obtain ⟨rfl, rfl⟩ := hif
    have na : a ≠ 61 := by rintro rfl; have := b64Val_eq; simp_all
    have nb : b ≠ 61 := by rintro rfl; have := b64Val_eq; simp_all
    have nc : c ≠ 61 := by rintro rfl; have := b64Val_eq; simp_all
    rw [List.count_cons_of_ne na, List.count_cons_of_ne nb, List.count_cons_of_ne nc]
    simp
  | case5 a b c dd rest x y ha hb hc hif =>
    simp at h; subst h
    simp at hif
    obtain ⟨⟨rfl, rfl⟩, rfl⟩ := hif
    have na : a ≠ 61 := by rintro rfl; have := b64Val_eq; simp_all
    have nb : b ≠ 61 := by rintro rfl; have := b64Val_eq; simp_all
    rw [List.count_cons_of_ne na, List.count_cons_of_ne nb]
    simp
  | case4 => simp at h
  | case6 => simp at h
  | case7 => simp at h
  | case8 => simp at h

theorem hexVal_digit {v : Nat} (h : v < 16) : hexVal (hexDigits.getD v 0) = some v := by
  have key : ∀ v : Fin 16, hexVal (hexDigits.getD v 0) = some v.val := by decide +kernel
  exact key ⟨v, h⟩

theorem hexDigit_mem {v : Nat} (h : v < 16) : hexDigits.getD v 0 ∈ hexDigits := by
  have key : ∀ v : Fin 16, hexDigits.getD v 0 ∈ hexDigits := by decide +kernel
  exact key ⟨v, h⟩

theorem hexDecode_encode (b : Bytes) : hexDecode (hexEncode b) = .ok b := by
  induction b with
  | nil => rfl
  | cons x xs ih =>
    have := x.toNat_lt
    simp only [hexEncode, hexDecode]
    rw [hexVal_digit (by omega), hexVal_digit (by omega)]
    simp only [ih, Res.bind_ok, Res.ok.injEq, List.cons.injEq, and_true]
    exact ofNat_eq_of_toNat (by omega)

theorem hexEncode_length (b : Bytes) : (hexEncode b).length = 2 * b.length := by
  induction b with
  | nil => rfl
  | cons x xs ih => simp [hexEncode, ih]; omega

theorem hexEncode_mem (b : Bytes) : ∀ c ∈ hexEncode b, c ∈ hexDigits := by
  induction b with
  | nil => simp [hexEncode]
  | cons x xs ih =>
    have := x.toNat_lt
    intro c hc
    simp only [hexEncode, List.mem_cons] at hc
    rcases hc with rfl | rfl | hc
    · exact hexDigit_mem (by omega)
    · exact hexDigit_mem (by omega)
    · exact ih c hc

theorem hexDecode_length {s d : Bytes} (h : hexDecode s = .ok d) : s.length = 2 * d.length := by
  fun_induction hexDecode s generalizing d with
  | case1 => simp at h; subst h; rfl
  | case4 a b rest x y hx hy ih =>
    rw [Res.bind_eq_ok] at h
    obtain ⟨r, hr, h⟩ := h
    simp at h; subst h
    have := ih hr
    simp only [List.length_cons]; omega
  | _ => simp at h

theorem indexByte_none {s : Bytes} {c : UInt8} : indexByte s c = none ↔ c ∉ s := by
  unfold indexByte
  rw [List.findIdx?_eq_none_iff]
  constructor
  · intro h hc; have := h c hc; simp at this
  · intro h x hx; simp; rintro rfl; exact h hx

theorem indexByte_some {s : Bytes} {c : UInt8} {i : Nat} :
    indexByte s c = some i ↔ c ∉ s.take i ∧ s[i]? = some c := by
  induction s generalizing i with
  | nil => simp [indexByte]
  | cons x s ih =>
    unfold indexByte at *
    rw [List.findIdx?_cons]
    by_cases hx : x = c
    · subst hx
      cases i <;> simp
    · cases i with
      | zero => simp [hx]
      | succ i =>
        simp [hx]
        rw [ih]
        constructor
        · rintro ⟨h1, h2⟩; exact ⟨⟨fun h => hx h.symm, h1⟩, h2⟩
        · rintro ⟨⟨_, h1⟩, h2⟩; exact ⟨h1, h2⟩

theorem indexByte_append {p s : Bytes} {c : UInt8} (h : c ∉ p) :
    indexByte (p ++ c :: s) c = some p.length := by
  rw [indexByte_some]
  constructor
  · simpa using h
  · simp

end Verif.GoLib
