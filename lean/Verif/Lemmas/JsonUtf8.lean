import Verif.Spec.Json

/-! # Lemmas: UTF-8 -/

namespace Verif.GoJson
open Verif.Spec

theorem toNat_ofNat_lt {n : Nat} (h : n < 256) : (UInt8.ofNat n).toNat = n := by
  rw [UInt8.toNat_ofNat']; exact Nat.mod_eq_of_lt h

theorem ofNat_eq_iff {n : Nat} (h : n < 256) (m : UInt8) : UInt8.ofNat n = m ↔ n = m.toNat := by
  rw [← UInt8.toNat_inj, toNat_ofNat_lt h]

theorem encodeRune_eq (c : Nat) : encodeRune c = utf8 c := by
  unfold encodeRune utf8
  repeat' split
  all_goals rfl

theorem inR_ofNat {n lo hi : Nat} (h : n < 256) : inR lo hi (UInt8.ofNat n) = decide (lo ≤ n ∧ n ≤ hi) := by
  unfold inR
  rw [toNat_ofNat_lt h, Bool.decide_and]

theorem runeSize_utf8 {c : Nat} (hc : IsScalar c) (r : Bytes) : runeSize (utf8 c ++ r) = some (utf8 c).length := by
  unfold IsScalar at hc
  unfold utf8
  split
  · rename_i h
    simp only [List.map_cons, List.map_nil, List.cons_append, List.nil_append, runeSize, List.length_cons, List.length_nil]
    rw [if_pos (by rw [toNat_ofNat_lt (by omega)]; omega)]
  · split
    · rename_i h1 h2
      simp only [List.map_cons, List.map_nil, List.cons_append, List.nil_append, runeSize, List.length_cons, List.length_nil]
      rw [if_neg (by rw [toNat_ofNat_lt (by omega)]; omega), if_pos (by rw [inR_ofNat (by omega)]; simp; omega),
        if_pos (by rw [inR_ofNat (by omega)]; simp; omega)]
    · split
      · rename_i h1 h2 h3
        simp only [List.map_cons, List.map_nil, List.cons_append, List.nil_append, runeSize, List.length_cons, List.length_nil]
        rw [if_neg (by rw [toNat_ofNat_lt (by omega)]; omega), if_neg (by rw [inR_ofNat (by omega)]; simp; omega),
          if_neg (by rw [inR_ofNat (by omega)]; simp; omega)]
        simp only [ofNat_eq_iff (n := 0xE0 + c / 2 ^ 12) (by omega)]
        have e1 : (0xE0 : UInt8).toNat = 0xE0 := rfl
        have e2 : (0xED : UInt8).toNat = 0xED := rfl
        rw [e1, e2, inR_ofNat (by omega), inR_ofNat (by omega), inR_ofNat (by omega), inR_ofNat (by omega)]
        simp only [decide_eq_true_eq]
        split
        · rw [if_pos (by omega)]
        · split
          · rw [if_pos (by omega)]
          · rw [if_pos (by omega), if_pos (by omega)]
      · rename_i h1 h2 h3
        simp only [List.map_cons, List.map_nil, List.cons_append, List.nil_append, runeSize, List.length_cons, List.length_nil]
        rw [if_neg (by rw [toNat_ofNat_lt (by omega)]; omega), if_neg (by rw [inR_ofNat (by omega)]; simp; omega),
          if_neg (by rw [inR_ofNat (by omega)]; simp; omega)]
        simp only [ofNat_eq_iff (n := 0xF0 + c / 2 ^ 18) (by omega)]
        have e1 : (0xE0 : UInt8).toNat = 0xE0 := rfl
        have e2 : (0xED : UInt8).toNat = 0xED := rfl
        have e3 : (0xF0 : UInt8).toNat = 0xF0 := rfl
        have e4 : (0xF4 : UInt8).toNat = 0xF4 := rfl
        rw [e1, e2, e3, e4, if_neg (by omega), if_neg (by omega), if_neg (by rw [inR_ofNat (by omega)]; simp; omega),
          if_neg (by rw [inR_ofNat (by omega)]; simp; omega)]
        rw [inR_ofNat (by omega), inR_ofNat (by omega), inR_ofNat (by omega), inR_ofNat (by omega)]
        simp only [decide_eq_true_eq]
        split
        · rw [if_pos (by omega)]
        · split
          · rw [if_pos (by omega)]
          · rw [if_pos (by omega), if_pos (by omega)]

theorem inR_iff {lo hi : Nat} {b : UInt8} : inR lo hi b = true ↔ lo ≤ b.toNat ∧ b.toNat ≤ hi := by
  unfold inR; simp

theorem byte_eq {b : UInt8} {n : Nat} (h : n = b.toNat) : b = UInt8.ofNat n := by
  rw [h, UInt8.ofNat_toNat]

theorem rs_two : ∀ (a b : UInt8) (r : Bytes), 0xC2 ≤ a.toNat → a.toNat ≤ 0xDF → 0x80 ≤ b.toNat → b.toNat ≤ 0xBF →
    ∃ c, IsScalar c ∧ (a :: b :: r).take 2 = utf8 c ∧ 2 = (utf8 c).length := by
  intro a b r h1 h2 h3 h4
  refine ⟨(a.toNat - 0xC0) * 64 + (b.toNat - 0x80), .inl (by omega), ?_⟩
  unfold utf8
  rw [if_neg (by omega), if_pos (by omega)]
  refine ⟨?_, rfl⟩
  simp only [List.take_succ_cons, List.take_zero, List.map_cons, List.map_nil]
  refine congr (congrArg _ (byte_eq (by omega))) (congrArg (· :: []) (byte_eq (by omega)))

theorem rs_three : ∀ (a b c : UInt8) (r : Bytes), 0xE0 ≤ a.toNat → a.toNat ≤ 0xEF → 0x80 ≤ b.toNat → b.toNat ≤ 0xBF →
    0x80 ≤ c.toNat → c.toNat ≤ 0xBF → (a.toNat = 0xE0 → 0xA0 ≤ b.toNat) → (a.toNat = 0xED → b.toNat ≤ 0x9F) →
    ∃ n, IsScalar n ∧ (a :: b :: c :: r).take 3 = utf8 n ∧ 3 = (utf8 n).length := by
  intro a b c r h1 h2 h3 h4 h5 h6 h7 h8
  refine ⟨(a.toNat - 0xE0) * 4096 + (b.toNat - 0x80) * 64 + (c.toNat - 0x80), ?_, ?_⟩
  · unfold IsScalar
    omega
  · unfold utf8
    rw [if_neg (by omega), if_neg (by omega), if_pos (by omega)]
    refine ⟨?_, rfl⟩
    simp only [List.take_succ_cons, List.take_zero, List.map_cons, List.map_nil]
    refine congr (congrArg _ (byte_eq (by omega))) (congr (congrArg _ (byte_eq (by omega))) (congrArg (· :: []) (byte_eq (by omega))))

theorem rs_four : ∀ (a b c d : UInt8) (r : Bytes), 0xF0 ≤ a.toNat → a.toNat ≤ 0xF4 → 0x80 ≤ b.toNat → b.toNat ≤ 0xBF →
    0x80 ≤ c.toNat → c.toNat ≤ 0xBF → 0x80 ≤ d.toNat → d.toNat ≤ 0xBF → (a.toNat = 0xF0 → 0x90 ≤ b.toNat) →
    (a.toNat = 0xF4 → b.toNat ≤ 0x8F) →
    ∃ n, IsScalar n ∧ (a :: b :: c :: d :: r).take 4 = utf8 n ∧ 4 = (utf8 n).length := by
  intro a b c d r h1 h2 h3 h4 h5 h6 h7 h8 h9 h10
  refine ⟨(a.toNat - 0xF0) * 262144 + (b.toNat - 0x80) * 4096 + (c.toNat - 0x80) * 64 + (d.toNat - 0x80), ?_, ?_⟩
  · unfold IsScalar
    omega
  · unfold utf8
    rw [if_neg (by omega), if_neg (by omega), if_neg (by omega)]
    refine ⟨?_, rfl⟩
    simp only [List.take_succ_cons, List.take_zero, List.map_cons, List.map_nil]
    refine congr (congrArg _ (byte_eq (by omega))) (congr (congrArg _ (byte_eq (by omega)))
      (congr (congrArg _ (byte_eq (by omega))) (congrArg (· :: []) (byte_eq (by omega)))))

set_option maxHeartbeats 2000000 in
theorem runeSize_some {s : Bytes} {k : Nat} (h : runeSize s = some k) :
    ∃ c, IsScalar c ∧ s.take k = utf8 c ∧ k = (utf8 c).length := by
  cases s with
  | nil => simp [runeSize] at h
  | cons a r =>
    simp only [runeSize] at h
    split at h
    · rename_i h1
      cases h
      refine ⟨a.toNat, .inl (by omega), ?_⟩
      unfold utf8
      rw [if_pos h1]
      simp
    · rename_i h1
      cases r with
      | nil => simp at h
      | cons b r =>
        simp only [] at h
        split at h
        · rename_i h2
          rw [inR_iff] at h2
          split at h
          · rename_i h3
            rw [inR_iff] at h3
            cases h
            exact rs_two a b r h2.1 h2.2 h3.1 h3.2
          · simp at h
        · rename_i h2
          cases r with
          | nil => simp at h
          | cons c r =>
            simp only [] at h
            have ha : ∀ x : UInt8, a = x → a.toNat = x.toNat := fun x hx => by rw [hx]
            have ha' : ∀ x : UInt8, a ≠ x → a.toNat ≠ x.toNat := fun x hx hy => hx (UInt8.toNat_inj.1 hy)
            split at h
            · simp at h
            · rename_i h3
              rw [Bool.not_eq_true', Bool.not_eq_false, inR_iff] at h3
              split at h
              · rename_i h4
                have := ha _ h4
                split at h
                · rename_i h5
                  rw [inR_iff] at h5
                  cases h
                  have e1 : (0xE0 : UInt8).toNat = 0xE0 := rfl
                  exact rs_three a b c r (by omega) (by omega) (by omega) (by omega) h3.1 h3.2 (by omega) (by omega)
                · simp at h
              · rename_i h4
                have hn4 := ha' _ h4
                have e1 : (0xE0 : UInt8).toNat = 0xE0 := rfl
                have e2 : (0xED : UInt8).toNat = 0xED := rfl
                split at h
                · rename_i h5
                  have := ha _ h5
                  split at h
                  · rename_i h6
                    rw [inR_iff] at h6
                    cases h
                    exact rs_three a b c r (by omega) (by omega) (by omega) (by omega) h3.1 h3.2 (by omega) (by omega)
                  · simp at h
                · rename_i h5
                  have hn5 := ha' _ h5
                  split at h
                  · rename_i h6
                    rw [inR_iff] at h6
                    split at h
                    · rename_i h7
                      rw [inR_iff] at h7
                      cases h
                      exact rs_three a b c r (by omega) (by omega) (by omega) (by omega) h3.1 h3.2 (by omega) (by omega)
                    · simp at h
                  · cases r with
                    | nil => simp at h
                    | cons d r =>
                      simp only [] at h
                      have e3 : (0xF0 : UInt8).toNat = 0xF0 := rfl
                      have e4 : (0xF4 : UInt8).toNat = 0xF4 := rfl
                      split at h
                      · simp at h
                      · rename_i h6
                        rw [Bool.not_eq_true', Bool.not_eq_false, inR_iff] at h6
                        split at h
                        · rename_i h7
                          have := ha _ h7
                          split at h
                          · rename_i h8
                            rw [inR_iff] at h8
                            cases h
                            exact rs_four a b c d r (by omega) (by omega) (by omega) (by omega) h3.1 h3.2 h6.1 h6.2 (by omega) (by omega)
                          · simp at h
                        · rename_i h7
                          have hn7 := ha' _ h7
                          split at h
                          · rename_i h7
                            have := ha _ h7
                            split at h
                            · rename_i h8
                              rw [inR_iff] at h8
                              cases h
                              exact rs_four a b c d r (by omega) (by omega) (by omega) (by omega) h3.1 h3.2 h6.1 h6.2 (by omega) (by omega)
                            · simp at h
                          · rename_i h7'
                            have hn7' := ha' _ h7'
                            split at h
                            · rename_i h8
                              rw [inR_iff] at h8
                              split at h
                              · rename_i h9
                                rw [inR_iff] at h9
                                cases h
                                exact rs_four a b c d r (by omega) (by omega) (by omega) (by omega) h3.1 h3.2 h6.1 h6.2 (by omega) (by omega)
                              · simp at h
                            · simp at h

theorem runeSize_none_iff (s : Bytes) : runeSize s = none ↔ NoRune s := by
  constructor
  · rintro h c hc ⟨r, rfl⟩
    rw [runeSize_utf8 hc] at h
    simp at h
  · intro h
    cases hk : runeSize s with
    | none => rfl
    | some k =>
      obtain ⟨c, hc, he, _⟩ := runeSize_some hk
      exact absurd ⟨s.drop k, by rw [← he, List.take_append_drop]⟩ (h c hc)

theorem utf8_pos (c : Nat) : 0 < (utf8 c).length := by
  unfold utf8
  repeat' split
  all_goals simp

/-- the first byte tells whether the character is ASCII -/
theorem utf8_head {c : Nat} (hc : IsScalar c) : ∃ a r, utf8 c = a :: r ∧ (c < 0x80 → a.toNat = c ∧ r = []) ∧
    (0x80 ≤ c → 0x80 ≤ a.toNat) := by
  unfold IsScalar at hc
  unfold utf8
  repeat' split
  · refine ⟨_, _, rfl, fun _ => ⟨toNat_ofNat_lt (by omega), rfl⟩, by omega⟩
  · refine ⟨_, _, rfl, by omega, fun _ => by rw [toNat_ofNat_lt (by omega)]; omega⟩
  · refine ⟨_, _, rfl, by omega, fun _ => by rw [toNat_ofNat_lt (by omega)]; omega⟩
  · refine ⟨_, _, rfl, by omega, fun _ => by rw [toNat_ofNat_lt (by omega)]; omega⟩

end Verif.GoJson
