import Verif.Lemmas.Nixhash
import Verif.Spec.HashText

/-!
# Lemmas for C102: hexadecimal and base64 texts
-/

namespace Verif.Nixhash
open Verif.GoLib Verif.Spec

/-! ### hexadecimal -/

theorem hexVal_iff (c : UInt8) (v : Nat) : hexVal c = some v ↔ HexDigit c v := by
  have key : ∀ n : Fin 256, ∀ v : Fin 16, (hexVal (UInt8.ofNat n) = some v.val ↔
      (b!"0123456789abcdef"[v.val]? = some (UInt8.ofNat n) ∨ b!"0123456789ABCDEF"[v.val]? = some (UInt8.ofNat n))) := by
    decide +kernel
  have hlt : ∀ n : Fin 256, ∀ w, hexVal (UInt8.ofNat n) = some w → w < 16 := by
    have : ∀ n : Fin 256, (match hexVal (UInt8.ofNat n) with | some w => decide (w < 16) | none => true) = true := by
      decide +kernel
    intro n w hw
    have := this n
    rw [hw] at this
    simpa using this
  have hc : UInt8.ofNat (⟨c.toNat, c.toNat_lt⟩ : Fin 256).val = c := by simp
  have k := key ⟨c.toNat, c.toNat_lt⟩
  have l := hlt ⟨c.toNat, c.toNat_lt⟩ v
  rw [hc] at k l
  by_cases hv : v < 16
  · exact k ⟨v, hv⟩
  · constructor
    · intro h; exact absurd (l h) hv
    · intro h
      exfalso
      rcases h with h | h
      · have := (List.getElem?_eq_some_iff.1 h).1; simp at this; omega
      · have := (List.getElem?_eq_some_iff.1 h).1; simp at this; omega

theorem hexDecode_iff (s d : Bytes) : hexDecode s = .ok d ↔ HexText s d := by
  constructor
  · intro h
    fun_induction hexDecode s generalizing d with
    | case1 => simp at h; subst h; exact .nil
    | case2 => simp at h
    | case3 => simp at h
    | case4 a b rest x y ha hb ih =>
      rw [Res.bind_eq_ok] at h
      obtain ⟨r, hr, h⟩ := h
      simp only [Res.ok.injEq] at h
      subst h
      rw [Nat.mul_comm x 16]
      exact .cons ((hexVal_iff _ _).1 hb) ((hexVal_iff _ _).1 ha) (ih _ hr)
    | case5 => simp at h
  · intro h
    induction h with
    | nil => rfl
    | cons h1 h2 h3 ih =>
      simp only [hexDecode, (hexVal_iff _ _).2 h1, (hexVal_iff _ _).2 h2, ih, Res.bind_ok, Nat.mul_comm]

theorem hexText_length {s d : Bytes} (h : HexText s d) : s.length = 2 * d.length := by
  induction h with
  | nil => rfl
  | cons _ _ _ ih => simp [ih]; omega

/-! ### base64 -/

theorem b64Val_iff (c : UInt8) (v : Nat) : b64Val c = some v ↔ v < 64 ∧ base64Digits.getD v 0 = c := by
  have key : ∀ n : Fin 256, ∀ v : Fin 64, (b64Val (UInt8.ofNat n) = some v.val ↔
      base64Digits.getD v.val 0 = UInt8.ofNat n) := by decide +kernel
  have hc : UInt8.ofNat (⟨c.toNat, c.toNat_lt⟩ : Fin 256).val = c := by simp
  have k := key ⟨c.toNat, c.toNat_lt⟩
  rw [hc] at k
  by_cases hv : v < 64
  · rw [k ⟨v, hv⟩]; simp [hv]
  · constructor
    · intro h; exact absurd (b64Val_lt h) hv
    · intro h; exact absurd h.1 hv

/-- the shape of accepted base64 texts without line breaks -/
theorem b64Quads_shape {t d : Bytes} (h : b64Quads t = .ok d) :
    ∃ (vs : List Nat) (p : Nat), p ≤ 2 ∧ (vs.length + p) % 4 = 0 ∧
      t = vs.map (fun v => base64Digits.getD v 0) ++ List.replicate p 61 ∧ ∀ v ∈ vs, v < 64 := by
  fun_induction b64Quads t generalizing d with
  | case1 => exact ⟨[], 0, by simp⟩
  | case2 a b c dd rest x y ha hb z hc w hd ih =>
    rw [Res.bind_eq_ok] at h
    obtain ⟨r, hr, h⟩ := h
    obtain ⟨vs, p, h1, h2, h3, h4⟩ := ih hr
    rw [b64Val_iff] at ha hb hc hd
    refine ⟨x :: y :: z :: w :: vs, p, h1, by simp; omega, ?_, ?_⟩
    · simp only [List.map_cons, List.cons_append, ha.2, hb.2, hc.2, hd.2, h3]
    · intro v hv
      simp only [List.mem_cons] at hv
      rcases hv with rfl | rfl | rfl | rfl | hv
      · exact hb.1
      · exact ha.1
      · exact hc.1
      · exact hd.1
      · exact h4 v hv
  | case3 a b c dd rest x y ha hb z hc hd hif =>
    simp at hif
    obtain ⟨rfl, rfl⟩ := hif
    rw [b64Val_iff] at ha hb hc
    refine ⟨[x, y, z], 1, by simp, by simp, ?_, ?_⟩
    · simp only [List.map_cons, List.map_nil, List.cons_append, ha.2, hb.2, hc.2]; rfl
    · intro v hv
      simp only [List.mem_cons, List.not_mem_nil, or_false] at hv
      rcases hv with rfl | rfl | rfl
      · exact hb.1
      · exact ha.1
      · exact hc.1
  | case5 a b c dd rest x y ha hb hc hif =>
    simp at hif
    obtain ⟨⟨rfl, rfl⟩, rfl⟩ := hif
    rw [b64Val_iff] at ha hb
    refine ⟨[x, y], 2, by simp, by simp, ?_, ?_⟩
    · simp only [List.map_cons, List.map_nil, List.cons_append, ha.2, hb.2]; rfl
    · intro v hv
      simp only [List.mem_cons, List.not_mem_nil, or_false] at hv
      rcases hv with rfl | rfl
      · exact hb.1
      · exact ha.1
  | case4 => simp at h
  | case6 => simp at h
  | case7 => simp at h
  | case8 => simp at h

/-- value with a number in front -/
def beFrom (b acc : Nat) (ds : List Nat) : Nat := ds.foldl (fun acc v => acc * b + v) acc

theorem beFrom_cons (b acc v : Nat) (ds : List Nat) : beFrom b acc (v :: ds) = beFrom b (acc * b + v) ds := rfl

theorem beFrom_nil (b acc : Nat) : beFrom b acc [] = acc := rfl

theorem toNat_ofNat_lt {n : Nat} (h : n < 256) : (UInt8.ofNat n).toNat = n := by
  simp [UInt8.toNat_ofNat', Nat.mod_eq_of_lt h]

/-- texts of the right shape are decoded to the bits of their digits -/
theorem b64Quads_value (vs : List Nat) (p : Nat) (hp : p ≤ 2) (hm : (vs.length + p) % 4 = 0)
    (hv : ∀ v ∈ vs, v < 64) (acc : Nat) :
    ∃ d, b64Quads (vs.map (fun v => base64Digits.getD v 0) ++ List.replicate p 61) = .ok d ∧
      8 * d.length + 2 * p = 6 * vs.length ∧
      beFrom 256 acc (d.map UInt8.toNat) = beFrom 64 acc vs / 2 ^ (2 * p) := by
  match vs with
  | [] =>
    have : p = 0 := by simp at hm; omega
    subst this
    exact ⟨[], rfl, rfl, by simp [beFrom]⟩
  | [_] => simp at hm; omega
  | [x, y] =>
    have : p = 2 := by simp at hm; omega
    subst this
    have hx := hv x (by simp); have hy := hv y (by simp)
    have e1 := (b64Val_iff _ x).2 ⟨hx, rfl⟩
    have e2 := (b64Val_iff _ y).2 ⟨hy, rfl⟩
    refine ⟨[UInt8.ofNat (x * 4 + y / 16)], ?_, rfl, ?_⟩
    · simp only [List.map_cons, List.map_nil, List.cons_append, List.nil_append, List.replicate, b64Quads, e1, e2, b64Val_eq]
      rfl
    · simp only [List.map_cons, List.map_nil, beFrom_cons, beFrom_nil]
      rw [toNat_ofNat_lt (by omega)]
      omega
  | [x, y, z] =>
    have : p = 1 := by simp at hm; omega
    subst this
    have hx := hv x (by simp); have hy := hv y (by simp); have hz := hv z (by simp)
    have e1 := (b64Val_iff _ x).2 ⟨hx, rfl⟩
    have e2 := (b64Val_iff _ y).2 ⟨hy, rfl⟩
    have e3 := (b64Val_iff _ z).2 ⟨hz, rfl⟩
    refine ⟨[UInt8.ofNat (x * 4 + y / 16), UInt8.ofNat (y % 16 * 16 + z / 4)], ?_, rfl, ?_⟩
    · simp only [List.map_cons, List.map_nil, List.cons_append, List.nil_append, List.replicate, b64Quads, e1, e2, e3, b64Val_eq]
      rfl
    · simp only [List.map_cons, List.map_nil, beFrom_cons, beFrom_nil]
      rw [toNat_ofNat_lt (by omega), toNat_ofNat_lt (by omega)]
      omega
  | x :: y :: z :: w :: vs =>
    have hx := hv x (by simp); have hy := hv y (by simp); have hz := hv z (by simp); have hw := hv w (by simp)
    have e1 := (b64Val_iff _ x).2 ⟨hx, rfl⟩
    have e2 := (b64Val_iff _ y).2 ⟨hy, rfl⟩
    have e3 := (b64Val_iff _ z).2 ⟨hz, rfl⟩
    have e4 := (b64Val_iff _ w).2 ⟨hw, rfl⟩
    obtain ⟨d, h1, h2, h3⟩ := b64Quads_value vs p hp (by simp at hm; omega)
      (fun v h => hv v (by simp [h])) ((((acc * 64 + x) * 64 + y) * 64 + z) * 64 + w)
    refine ⟨UInt8.ofNat (x * 4 + y / 16) :: UInt8.ofNat (y % 16 * 16 + z / 4) ::
            UInt8.ofNat (z % 4 * 64 + w) :: d, ?_, ?_, ?_⟩
    · simp only [List.map_cons, List.cons_append, b64Quads, e1, e2, e3, e4, h1, Res.bind_ok]
    · simp; omega
    · simp only [List.map_cons, beFrom_cons]
      rw [toNat_ofNat_lt (by omega), toNat_ofNat_lt (by omega), toNat_ofNat_lt (by omega), ← h3]
      congr 1
      omega

theorem beFrom_eq (b acc : Nat) (ds : List Nat) : beFrom b acc ds = acc * b ^ ds.length + beFrom b 0 ds := by
  induction ds generalizing acc with
  | nil => simp [beFrom]
  | cons v ds ih =>
    rw [beFrom_cons, beFrom_cons, ih, ih (0 * b + v)]
    simp only [List.length_cons, Nat.pow_succ, Nat.zero_mul, Nat.zero_add, Nat.add_mul]
    rw [Nat.mul_comm (b ^ ds.length) b, ← Nat.mul_assoc]; omega

theorem beFrom_lt (ds : Bytes) : beFrom 256 0 (ds.map UInt8.toNat) < 256 ^ ds.length := by
  induction ds with
  | nil => simp [beFrom]
  | cons v ds ih =>
    rw [List.map_cons, beFrom_cons, beFrom_eq]
    have hv := v.toNat_lt
    simp only [List.length_cons, List.length_map, Nat.pow_succ, Nat.zero_mul, Nat.zero_add]
    have : (v.toNat + 1) * 256 ^ ds.length ≤ 256 * 256 ^ ds.length := Nat.mul_le_mul_right _ (by omega)
    rw [Nat.add_mul] at this
    omega

theorem beFrom_inj (ds es : Bytes) (hl : ds.length = es.length)
    (h : beFrom 256 0 (ds.map UInt8.toNat) = beFrom 256 0 (es.map UInt8.toNat)) : ds = es := by
  induction ds generalizing es with
  | nil => cases es with
    | nil => rfl
    | cons _ _ => simp at hl
  | cons x ds ih =>
    cases es with
    | nil => simp at hl
    | cons y es =>
      simp only [List.map_cons, beFrom_cons, Nat.zero_mul, Nat.zero_add] at h
      rw [beFrom_eq _ x.toNat, beFrom_eq _ y.toNat] at h
      simp only [List.length_map] at h
      have hl' : ds.length = es.length := by simpa using hl
      have l1 := beFrom_lt ds
      have l2 := beFrom_lt es
      rw [hl'] at h l1
      have hpos : 0 < 256 ^ es.length := Nat.pow_pos (by omega)
      have q : x.toNat = y.toNat := by
        have a1 : (x.toNat * 256 ^ es.length + beFrom 256 0 (ds.map UInt8.toNat)) / 256 ^ es.length = x.toNat := by
          rw [Nat.add_comm, Nat.add_mul_div_right _ _ hpos, Nat.div_eq_of_lt l1]; omega
        have a2 : (y.toNat * 256 ^ es.length + beFrom 256 0 (es.map UInt8.toNat)) / 256 ^ es.length = y.toNat := by
          rw [Nat.add_comm, Nat.add_mul_div_right _ _ hpos, Nat.div_eq_of_lt l2]; omega
        rw [← a1, ← a2, h]
      rw [q] at h
      rw [UInt8.toNat_inj.1 q, ih es hl' (by omega)]

theorem b64Decode_iff (s d : Bytes) : b64Decode s = .ok d ↔ Base64Text s d := by
  have hf : s.filter (fun c => c != 13 && c != 10) = s.filter (fun c => c != 10 && c != 13) := by
    congr 1; funext c; exact Bool.and_comm _ _
  unfold b64Decode Base64Text
  rw [hf]
  constructor
  · intro h
    obtain ⟨vs, p, h1, h2, h3, h4⟩ := b64Quads_shape h
    obtain ⟨d', e1, e2, e3⟩ := b64Quads_value vs p h1 h2 h4 0
    rw [← h3, h] at e1
    cases e1
    exact ⟨vs, p, h1, h2, h3, h4, e2, e3⟩
  · rintro ⟨vs, p, h1, h2, h3, h4, h5, h6⟩
    obtain ⟨d', e1, e2, e3⟩ := b64Quads_value vs p h1 h2 h4 0
    rw [h3, e1]
    refine congrArg _ (beFrom_inj _ _ (by omega) ?_)
    rw [e3]
    exact h6.symm

end Verif.Nixhash
