import Verif.Model.Nixbase32
import Verif.Spec.Numeral

namespace Verif

theorem goShr_toNat (x : UInt8) (k : Nat) : (goShr x k).toNat = x.toNat / 2 ^ k := by
  have h : x.toNat < 256 := x.toNat_lt
  have : x.toNat / 2 ^ k ≤ x.toNat := Nat.div_le_self _ _
  simp [goShr, Nat.shiftRight_eq_div_pow]
  omega

theorem goShl_toNat (x : UInt8) (k : Nat) : (goShl x k).toNat = x.toNat * 2 ^ k % 256 := by
  simp [goShl, Nat.shiftLeft_eq]

/-- OR of disjoint ranges is addition. -/
theorem or_eq_add (a b k : Nat) (ha : a < 2 ^ k) : a ||| (b * 2 ^ k) = a + b * 2 ^ k := by
  rw [Nat.or_comm, ← Nat.shiftLeft_eq, ← Nat.shiftLeft_add_eq_or_of_lt ha, Nat.add_comm]

namespace Spec

@[simp] theorem leValue_nil : leValue [] = 0 := rfl
@[simp] theorem leValue_cons (x : UInt8) (xs : Bytes) :
    leValue (x :: xs) = x.toNat + 256 * leValue xs := rfl

theorem leValue_lt (xs : Bytes) : leValue xs < 256 ^ xs.length := by
  induction xs with
  | nil => simp
  | cons x xs ih =>
    have := x.toNat_lt
    simp only [leValue_cons, List.length_cons, Nat.pow_succ]
    omega

theorem leValue_drop (xs : Bytes) (i : Nat) : leValue (xs.drop i) = leValue xs / 256 ^ i := by
  induction i generalizing xs with
  | zero => simp
  | succ i ih =>
    cases xs with
    | nil => simp
    | cons x xs =>
      have := x.toNat_lt
      simp only [List.drop_succ_cons, ih, leValue_cons]
      rw [Nat.pow_succ, Nat.mul_comm (256 ^ i), ← Nat.div_div_eq_div_mul]
      congr 1; omega

theorem leValue_replicate (n : Nat) : leValue (List.replicate n 0) = 0 := by
  induction n with
  | zero => rfl
  | succ n ih => simp [List.replicate_succ, ih]

theorem leValue_set (xs : Bytes) (i : Nat) (v : UInt8) (h : i < xs.length) :
    leValue (xs.set i v) + 256 ^ i * (xs.getD i 0).toNat = leValue xs + 256 ^ i * v.toNat := by
  induction xs generalizing i with
  | nil => simp at h
  | cons x xs ih =>
    cases i with
    | zero => simp; omega
    | succ i =>
      have := ih i (by simpa using h)
      simp only [List.set_cons_succ, leValue_cons, List.getD_cons_succ, Nat.pow_succ]
      have e : ∀ y, 256 ^ i * 256 * y = 256 * (256 ^ i * y) := by intro y; ac_rfl
      rw [e, e]; omega

theorem leValue_inj (xs ys : Bytes) (hl : xs.length = ys.length)
    (hv : leValue xs = leValue ys) : xs = ys := by
  induction xs generalizing ys with
  | nil => cases ys <;> simp_all
  | cons x xs ih =>
    cases ys with
    | nil => simp at hl
    | cons y ys =>
      have := x.toNat_lt; have := y.toNat_lt
      simp only [leValue_cons] at hv
      have h1 : x.toNat = y.toNat := by omega
      have h2 : leValue xs = leValue ys := by omega
      rw [UInt8.toNat_inj.mp h1, ih ys (by simpa using hl) h2]

end Spec

namespace Nixbase32
open Spec

theorem alphabet_length : alphabet.length = 32 := rfl

theorem alphabet_eq : alphabet = nixDigits := rfl

theorem alphabet_nodup : alphabet.Nodup := by decide

theorem indexAlphabet_eq_some {c : UInt8} {d : Nat} :
    indexAlphabet c = some d ↔ alphabet[d]? = some c := by
  unfold indexAlphabet
  rw [List.findIdx?_eq_some_iff_getElem]
  constructor
  · rintro ⟨h, h1, _⟩
    simp at h1
    simp [h, h1]
  · intro h
    obtain ⟨hd, he⟩ := List.getElem?_eq_some_iff.mp h
    refine ⟨hd, by simp [he], ?_⟩
    intro j hj
    have := alphabet_nodup
    rw [List.nodup_iff_pairwise_ne, List.pairwise_iff_getElem] at this
    have := this j d (by omega) hd hj
    simpa [he] using this

theorem indexAlphabet_lt {c : UInt8} {d : Nat} (h : indexAlphabet c = some d) : d < 32 := by
  rw [indexAlphabet_eq_some] at h
  have := (List.getElem?_eq_some_iff.mp h).1
  simpa [alphabet_length] using this

theorem indexAlphabet_eq_none {c : UInt8} : indexAlphabet c = none ↔ c ∉ alphabet := by
  unfold indexAlphabet
  rw [List.findIdx?_eq_none_iff]
  constructor
  · intro h hc
    have := h c hc
    simp at this
  · intro h x hx
    simp
    rintro rfl
    exact h hx

theorem indexAlphabet_getD {d : Nat} (h : d < 32) : indexAlphabet (alphabet.getD d 0) = some d := by
  rw [indexAlphabet_eq_some]
  have : d < alphabet.length := h
  simp [List.getD, this]

theorem drop_eq_getD_cons {xs : Bytes} {i : Nat} (h : i < xs.length) :
    xs.drop i = xs.getD i 0 :: xs.drop (i + 1) := by
  rw [List.drop_eq_getElem_cons h]
  simp [List.getD, h]

/-- The digit computed by the encoder loop is the `n`-th base-32 digit of the little-endian value. -/
theorem encodeChar_eq (src : Bytes) (n : Nat) (h : n * 5 / 8 < src.length) :
    encodeChar src n = alphabet.getD (leValue src / 32 ^ n % 32) 0 := by
  have hpow : (32 : Nat) ^ n = 256 ^ (n * 5 / 8) * 2 ^ (n * 5 % 8) := by
    have h32 : (32 : Nat) = 2 ^ 5 := rfl
    have h256 : (256 : Nat) = 2 ^ 8 := rfl
    rw [h32, h256, ← Nat.pow_mul, ← Nat.pow_mul, ← Nat.pow_add]
    congr 1; omega
  rw [hpow, ← Nat.div_div_eq_div_mul, ← leValue_drop, drop_eq_getD_cons h]
  unfold encodeChar
  simp only []
  generalize n * 5 / 8 = i at *
  have hj : n * 5 % 8 < 8 := Nat.mod_lt _ (by decide)
  generalize n * 5 % 8 = j at *
  congr 1
  generalize hx : src.getD i 0 = x
  have hx := x.toNat_lt
  rw [UInt8.toNat_and]
  have h31 : (0x1f : UInt8).toNat = 2 ^ 5 - 1 := rfl
  rw [h31, Nat.and_two_pow_sub_one_eq_mod, leValue_cons]
  split
  · rename_i h1
    rw [drop_eq_getD_cons h1, leValue_cons]
    generalize src.getD (i + 1) 0 = y
    have hy := y.toNat_lt
    generalize leValue (List.drop (i + 1 + 1) src) = r
    rw [UInt8.toNat_or, goShr_toNat, goShl_toNat]
    have h2 : y.toNat * 2 ^ (8 - j) % 256 = (y.toNat % 2 ^ j) * 2 ^ (8 - j) := by
      have : (256 : Nat) = 2 ^ j * 2 ^ (8 - j) := by
        have h8 : j + (8 - j) = 8 := by omega
        rw [← Nat.pow_add, h8]
      rw [this, Nat.mul_mod_mul_right]
    rw [h2, or_eq_add]
    · rw [← h2]
      have : j = 0 ∨ j = 1 ∨ j = 2 ∨ j = 3 ∨ j = 4 ∨ j = 5 ∨ j = 6 ∨ j = 7 := by omega
      rcases this with rfl | rfl | rfl | rfl | rfl | rfl | rfl | rfl <;>
        simp only [Nat.reducePow, Nat.reduceSub] <;> omega
    · have : (256 : Nat) = 2 ^ j * 2 ^ (8 - j) := by
        have h8 : j + (8 - j) = 8 := by omega
        rw [← Nat.pow_add, h8]
      rw [Nat.div_lt_iff_lt_mul (Nat.two_pow_pos j), Nat.mul_comm, ← this]
      exact hx
  · rename_i h1
    rw [List.drop_eq_nil_of_le (by omega)]
    rw [goShr_toNat]
    simp

/-- The value of the numeral given by digits, most significant first, via the model's alphabet. -/
def numeralValue : Bytes → Option Nat
  | [] => some 0
  | c :: rest =>
    match indexAlphabet c, numeralValue rest with
    | some d, some v => some (d * 32 ^ rest.length + v)
    | _, _ => none

theorem encodeLoop_length (src : Bytes) (n : Nat) : (encodeLoop src n).length = n := by
  induction n with
  | zero => rfl
  | succ n ih => simp [encodeLoop, ih]

theorem encodeLoop_numeral (src : Bytes) (n : Nat) (h : n ≤ encodedLen src.length) :
    numeralValue (encodeLoop src n) = some (leValue src % 32 ^ n) := by
  induction n with
  | zero => simp [encodeLoop, numeralValue, Nat.mod_one]
  | succ n ih =>
    have hd : n * 5 / 8 < src.length := by unfold encodedLen at h; omega
    simp only [encodeLoop, numeralValue]
    rw [ih (by omega), encodeChar_eq _ _ hd, indexAlphabet_getD (Nat.mod_lt _ (by decide))]
    simp only [encodeLoop_length, Option.some.injEq]
    rw [Nat.pow_succ, Nat.mod_mul, Nat.add_comm, Nat.mul_comm]

theorem pow_encodedLen (k : Nat) : 256 ^ k ≤ 32 ^ encodedLen k := by
  have h32 : (32 : Nat) = 2 ^ 5 := rfl
  have h256 : (256 : Nat) = 2 ^ 8 := rfl
  rw [h32, h256, ← Nat.pow_mul, ← Nat.pow_mul]
  apply Nat.pow_le_pow_right (by decide)
  unfold encodedLen; omega

theorem numeralValue_encode (src : Bytes) :
    numeralValue (encodeToString src) = some (leValue src) := by
  unfold encodeToString
  rw [encodeLoop_numeral _ _ (Nat.le_refl _), Nat.mod_eq_of_lt]
  exact Nat.lt_of_lt_of_le (leValue_lt src) (pow_encodedLen _)

theorem encodeToString_length (src : Bytes) :
    (encodeToString src).length = encodedLen src.length := encodeLoop_length _ _

theorem numeralValue_lt {s : Bytes} {v : Nat} (h : numeralValue s = some v) :
    v < 32 ^ s.length := by
  induction s generalizing v with
  | nil => simp [numeralValue] at h; subst h; simp
  | cons c rest ih =>
    simp only [numeralValue] at h
    split at h
    · rename_i d w hd hw
      simp at h; subst h
      have := ih hw
      have hd := indexAlphabet_lt hd
      simp only [List.length_cons, Nat.pow_succ]
      have : d * 32 ^ rest.length ≤ 31 * 32 ^ rest.length := Nat.mul_le_mul_right _ (by omega)
      omega
    · simp at h

theorem numeralValue_inj {s t : Bytes} {v : Nat} (hl : s.length = t.length)
    (hs : numeralValue s = some v) (ht : numeralValue t = some v) : s = t := by
  induction s generalizing t v with
  | nil => cases t <;> simp_all
  | cons c s ih =>
    cases t with
    | nil => simp at hl
    | cons c' t =>
      simp only [numeralValue] at hs ht
      split at hs
      next d w hd hw =>
        split at ht
        next d' w' hd' hw' =>
          simp at hs ht hl
          have h1 := numeralValue_lt hw
          have h2 := numeralValue_lt hw'
          rw [hl] at h1 hs
          have hpos : 0 < 32 ^ t.length := Nat.pow_pos (by decide)
          have e1 : d = d' := by
            have a1 : (d * 32 ^ t.length + w) / 32 ^ t.length = d := by
              rw [Nat.mul_comm, Nat.mul_add_div hpos, Nat.div_eq_of_lt h1]; simp
            have a2 : (d' * 32 ^ t.length + w') / 32 ^ t.length = d' := by
              rw [Nat.mul_comm, Nat.mul_add_div hpos, Nat.div_eq_of_lt h2]; simp
            rw [← a1, ← a2, hs, ht]
          subst e1
          have e2 : w = w' := by omega
          subst e2
          rw [indexAlphabet_eq_some] at hd hd'
          rw [hd] at hd'
          simp at hd'
          rw [hd', ih hl hw hw']
        next => simp at ht
      next => simp at hs

theorem isNumeral32_append {s t : Bytes} {u v : Nat} (hs : IsNumeral32 s u)
    (ht : IsNumeral32 t v) : IsNumeral32 (s ++ t) (u * 32 ^ t.length + v) := by
  induction ht with
  | nil => simpa using hs
  | @snoc t w d c ht hd ih =>
    have := IsNumeral32.snoc ih hd
    rw [List.append_assoc] at this
    have e : 32 * (u * 32 ^ t.length + w) + d = u * 32 ^ (t ++ [c]).length + (32 * w + d) := by
      simp only [List.length_append, List.length_cons, List.length_nil, Nat.pow_succ,
        Nat.zero_add, Nat.mul_add]
      have : 32 * (u * 32 ^ t.length) = u * (32 ^ t.length * 32) := by ac_rfl
      omega
    rwa [e] at this

theorem isNumeral32_of_numeralValue {s : Bytes} {v : Nat} (h : numeralValue s = some v) :
    IsNumeral32 s v := by
  induction s generalizing v with
  | nil => simp [numeralValue] at h; subst h; exact .nil
  | cons c s ih =>
    simp only [numeralValue] at h
    split at h
    next d w hd hw =>
      simp at h; subst h
      have h1 : IsNumeral32 [c] (32 * 0 + d) := by
        have := IsNumeral32.snoc (c := c) (d := d) .nil (by
          rw [← alphabet_eq]; exact indexAlphabet_eq_some.mp hd)
        simpa using this
      simpa using isNumeral32_append h1 (ih hw)
    next => simp at h

end Nixbase32
end Verif

namespace Verif.Nixbase32
open Spec

/-- Value of digits given least significant first. -/
def revValue : Bytes → Option Nat
  | [] => some 0
  | c :: rest =>
    match indexAlphabet c, revValue rest with
    | some d, some v => some (d + 32 * v)
    | _, _ => none

theorem revValue_append {s : Bytes} {c : UInt8} :
    revValue (s ++ [c]) = match indexAlphabet c, revValue s with
      | some d, some v => some (d * 32 ^ s.length + v)
      | _, _ => none := by
  induction s with
  | nil => simp [revValue]; cases indexAlphabet c <;> simp
  | cons x s ih =>
    simp only [List.cons_append, revValue, ih]
    cases indexAlphabet c <;> cases indexAlphabet x <;> cases revValue s <;>
      simp [Nat.pow_succ]
    rename_i a b c
    have : 32 * (a * 32 ^ s.length + c) = a * (32 ^ s.length * 32) + 32 * c := by
      rw [Nat.mul_add]; congr 1; ac_rfl
    omega

theorem revValue_reverse (s : Bytes) : revValue s.reverse = numeralValue s := by
  induction s with
  | nil => rfl
  | cons c s ih =>
    rw [List.reverse_cons, revValue_append, ih]
    simp only [numeralValue, List.length_reverse]

theorem pow32_split (n : Nat) : (32 : Nat) ^ n = 256 ^ (n * 5 / 8) * 2 ^ (n * 5 % 8) := by
  have h32 : (32 : Nat) = 2 ^ 5 := rfl
  have h256 : (256 : Nat) = 2 ^ 8 := rfl
  rw [h32, h256, ← Nat.pow_mul, ← Nat.pow_mul, ← Nat.pow_add]
  congr 1; omega

theorem getD_eq_leValue (xs : Bytes) (i : Nat) :
    (xs.getD i 0).toNat = leValue xs / 256 ^ i % 256 := by
  rw [← leValue_drop]
  by_cases h : i < xs.length
  · rw [drop_eq_getD_cons h, leValue_cons]
    have := (xs.getD i 0).toNat_lt
    omega
  · rw [List.drop_eq_nil_of_le (by omega)]
    simp [List.getD, List.getElem?_eq_none (by omega : xs.length ≤ i)]

/-- The value is unchanged or grows by the digit at its place when the two bytes are ORed in. -/
theorem step_main (dst : Bytes) (n d : Nat) (hV : leValue dst < 32 ^ n) (hd : d < 32)
    (hi : n * 5 / 8 < dst.length) :
    leValue (dst.set (n * 5 / 8) (dst.getD (n * 5 / 8) 0 ||| goShl (UInt8.ofNat d) (n * 5 % 8))) =
      leValue dst + 256 ^ (n * 5 / 8) * (d * 2 ^ (n * 5 % 8) % 256) := by
  have hs := leValue_set dst (n * 5 / 8)
    (dst.getD (n * 5 / 8) 0 ||| goShl (UInt8.ofNat d) (n * 5 % 8)) hi
  have hg := getD_eq_leValue dst (n * 5 / 8)
  have hlt : leValue dst / 256 ^ (n * 5 / 8) < 2 ^ (n * 5 % 8) := by
    rw [Nat.div_lt_iff_lt_mul (Nat.pow_pos (by decide)), Nat.mul_comm, ← pow32_split]
    exact hV
  have hj : n * 5 % 8 < 8 := Nat.mod_lt _ (by decide)
  generalize n * 5 / 8 = i at *
  generalize n * 5 % 8 = j at *
  have hor : (dst.getD i 0 ||| goShl (UInt8.ofNat d) j).toNat
      = (dst.getD i 0).toNat + d * 2 ^ j % 256 := by
    rw [UInt8.toNat_or, goShl_toNat]
    have hdd : (UInt8.ofNat d).toNat = d := by simp; omega
    rw [hdd]
    have h8 : j + (8 - j) = 8 := by omega
    have h256 : (256 : Nat) = 2 ^ (8 - j) * 2 ^ j := by
      rw [← Nat.pow_add, Nat.add_comm, h8]
    have e : d * 2 ^ j % 256 = (d % 2 ^ (8 - j)) * 2 ^ j := by
      rw [h256, Nat.mul_mod_mul_right]
    rw [e, or_eq_add]
    rw [hg]
    exact Nat.lt_of_le_of_lt (Nat.mod_le _ _) hlt
  rw [hor, Nat.mul_add] at hs
  omega

theorem step_carry (dst : Bytes) (i c : Nat) (hV : leValue dst < 256 ^ (i + 1)) (hc : c < 256)
    (hi : i + 1 < dst.length) :
    leValue (dst.set (i + 1) (dst.getD (i + 1) 0 ||| UInt8.ofNat c)) =
      leValue dst + 256 ^ (i + 1) * c := by
  have hg := getD_eq_leValue dst (i + 1)
  rw [Nat.div_eq_of_lt hV] at hg
  have hz : dst.getD (i + 1) 0 = 0 := UInt8.toNat_inj.mp (by simpa using hg)
  have hs := leValue_set dst (i + 1) (dst.getD (i + 1) 0 ||| UInt8.ofNat c) hi
  rw [hz] at hs ⊢
  have hcc : ((0 : UInt8) ||| UInt8.ofNat c).toNat = c := by simp; omega
  rw [hcc] at hs
  simpa using hs

/-- One iteration adds the digit at its position. -/
theorem step_total (n d : Nat) :
    256 ^ (n * 5 / 8) * (d * 2 ^ (n * 5 % 8) % 256)
      + 256 ^ (n * 5 / 8 + 1) * (d / 2 ^ (8 - n * 5 % 8)) = 32 ^ n * d := by
  rw [pow32_split]
  have hj : n * 5 % 8 < 8 := Nat.mod_lt _ (by decide)
  generalize n * 5 / 8 = i at *
  generalize n * 5 % 8 = j at *
  have e : d / 2 ^ (8 - j) = d * 2 ^ j / 256 := by
    have h8 : j + (8 - j) = 8 := by omega
    have h256 : (256 : Nat) = 2 ^ j * 2 ^ (8 - j) := by rw [← Nat.pow_add, h8]
    rw [h256, Nat.mul_comm d, Nat.mul_div_mul_left _ _ (Nat.two_pow_pos j)]
  rw [e, Nat.pow_succ, Nat.mul_assoc, ← Nat.mul_add, Nat.mod_add_div, Nat.mul_assoc]
  congr 1
  rw [Nat.mul_comm]

theorem carry_eq (n d : Nat) (hd : d < 32) :
    goShr (UInt8.ofNat d) (8 - n * 5 % 8) = UInt8.ofNat (d / 2 ^ (8 - n * 5 % 8)) := by
  apply UInt8.toNat_inj.mp
  have : d / 2 ^ (8 - n * 5 % 8) ≤ d := Nat.div_le_self _ _
  rw [goShr_toNat]
  simp only [UInt8.toNat_ofNat']
  rw [Nat.mod_eq_of_lt (by omega : d < 2 ^ 8)]
  generalize d / 2 ^ (8 - n * 5 % 8) = q at *
  omega

/-- A successful iteration. -/
theorem decodeLoop_step (m n d : Nat) (c : UInt8) (rest dst : Bytes)
    (hV : leValue dst < 32 ^ n) (hd : indexAlphabet c = some d) (hi : n * 5 / 8 < dst.length)
    (h1 : n * 5 / 8 + 1 < m → n * 5 / 8 + 1 < dst.length)
    (h2 : ¬ n * 5 / 8 + 1 < m → d / 2 ^ (8 - n * 5 % 8) = 0) :
    ∃ dst1, decodeLoop m n (c :: rest) dst = decodeLoop m (n + 1) rest dst1 ∧
      leValue dst1 = leValue dst + 32 ^ n * d ∧ dst1.length = dst.length := by
  have hd32 := indexAlphabet_lt hd
  have hm := step_main dst n d hV hd32 hi
  have ht := step_total n d
  have hcar := carry_eq n d hd32
  have hc : d / 2 ^ (8 - n * 5 % 8) < 256 :=
    Nat.lt_of_le_of_lt (Nat.div_le_self _ _) (by omega)
  simp only [decodeLoop, hd]
  rw [if_neg (by omega), hcar]
  by_cases him : n * 5 / 8 + 1 < m
  · have hl := h1 him
    rw [if_pos him, if_neg (by simp; omega)]
    refine ⟨_, rfl, ?_, by simp⟩
    rw [step_carry _ _ _ ?_ hc (by simp; omega), hm, Nat.add_assoc, ht]
    have hj : n * 5 % 8 < 8 := Nat.mod_lt _ (by decide)
    have h3 : leValue dst < 256 ^ (n * 5 / 8 + 1) := by
      rw [Nat.pow_succ]
      refine Nat.lt_of_lt_of_le (by rw [pow32_split] at hV; exact hV) (Nat.mul_le_mul_left _ ?_)
      exact Nat.pow_le_pow_right (show 2 > 0 by decide) (show n * 5 % 8 ≤ 8 by omega)
    have := leValue_drop (dst.set (n * 5 / 8) (dst.getD (n * 5 / 8) 0 |||
        goShl (UInt8.ofNat d) (n * 5 % 8))) (n * 5 / 8 + 1)
    rw [List.drop_set_of_lt (by omega), leValue_drop, Nat.div_eq_of_lt h3] at this
    exact (Nat.div_eq_zero_iff_lt (Nat.pow_pos (by decide))).mp this.symm
  · rw [if_neg him, h2 him, if_neg (by decide)]
    refine ⟨_, rfl, ?_, by simp⟩
    rw [hm, ← ht, h2 him, Nat.mul_zero, Nat.add_zero]

/-- If the loop succeeds, the first iteration passed all its checks. -/
theorem decodeLoop_ok (m n : Nat) (c : UInt8) (rest dst dst' : Bytes) (k : Nat)
    (h : decodeLoop m n (c :: rest) dst = .done k none dst') :
    ∃ d, indexAlphabet c = some d ∧ n * 5 / 8 < dst.length ∧
      (n * 5 / 8 + 1 < m → n * 5 / 8 + 1 < dst.length) ∧
      (¬ n * 5 / 8 + 1 < m → d / 2 ^ (8 - n * 5 % 8) = 0) := by
  simp only [decodeLoop] at h
  split at h
  · simp at h
  rename_i d hd
  have hd32 := indexAlphabet_lt hd
  split at h
  · simp at h
  rename_i hi
  rw [carry_eq n d hd32] at h
  refine ⟨d, hd, by omega, ?_, ?_⟩
  · intro him
    rw [if_pos him] at h
    split at h
    · simp at h
    · rename_i hl; simp at hl; omega
  · intro him
    rw [if_neg him] at h
    split at h
    · simp at h
    · rename_i hne
      have hne : UInt8.ofNat (d / 2 ^ (8 - n * 5 % 8)) = 0 := by simpa using hne
      have := congrArg UInt8.toNat hne
      have hle : d / 2 ^ (8 - n * 5 % 8) ≤ d := Nat.div_le_self _ _
      simp only [UInt8.toNat_ofNat'] at this
      rw [Nat.mod_eq_of_lt (by omega)] at this
      simpa using this

theorem pow_succ_lt (V n d : Nat) (hV : V < 32 ^ n) (hd : d < 32) : V + 32 ^ n * d < 32 ^ (n + 1) := by
  have : 32 ^ n * d ≤ 32 ^ n * 31 := Nat.mul_le_mul_left _ (by omega)
  rw [Nat.pow_succ]; omega

/-- Soundness of the loop. -/
theorem decodeLoop_sound (m : Nat) (rest : Bytes) (n : Nat) (dst dst' : Bytes) (k : Nat)
    (hV : leValue dst < 32 ^ n)
    (h : decodeLoop m n rest dst = .done k none dst') :
    ∃ v, revValue rest = some v ∧ k = m ∧ leValue dst' = leValue dst + 32 ^ n * v ∧
      dst'.length = dst.length ∧
      (rest ≠ [] → (n + rest.length - 1) * 5 / 8 < dst.length ∧
        ((n + rest.length - 1) * 5 / 8 + 1 < m → (n + rest.length - 1) * 5 / 8 + 1 < dst.length)) := by
  induction rest generalizing n dst with
  | nil => simp [decodeLoop] at h; obtain ⟨rfl, rfl⟩ := h; exact ⟨0, rfl, rfl, by simp, rfl, by simp⟩
  | cons c rest ih =>
    obtain ⟨d, hd, hi, h1, h2⟩ := decodeLoop_ok m n c rest dst dst' k h
    obtain ⟨dst1, he, hv1, hl1⟩ := decodeLoop_step m n d c rest dst hV hd hi h1 h2
    rw [he] at h
    obtain ⟨v, hv, hk, hval, hlen, hne⟩ :=
      ih (n + 1) dst1 (by rw [hv1]; exact pow_succ_lt _ _ _ hV (indexAlphabet_lt hd)) h
    refine ⟨d + 32 * v, by simp [revValue, hd, hv], hk, ?_, by omega, ?_⟩
    · rw [hval, hv1, Nat.pow_succ, Nat.mul_add, Nat.mul_assoc]; omega
    · intro _
      by_cases hr : rest = []
      · subst hr; simpa using ⟨hi, h1⟩
      · have e : n + (c :: rest).length - 1 = n + 1 + rest.length - 1 := by simp
        rw [e, ← hl1]; exact hne hr

/-- Completeness of the loop: enough room for every digit, and the value fits. -/
theorem decodeLoop_complete (m : Nat) (rest : Bytes) (n : Nat) (dst : Bytes) (v : Nat)
    (hV : leValue dst < 32 ^ n) (hv : revValue rest = some v)
    (hroom : ∀ k, k < n + rest.length → k * 5 / 8 < dst.length) (hm : m ≤ dst.length)
    (hfit : leValue dst + 32 ^ n * v < 256 ^ m) (hcov : ∀ k, k < n + rest.length → k * 5 / 8 < m) :
    ∃ dst', decodeLoop m n rest dst = .done m none dst' ∧
      leValue dst' = leValue dst + 32 ^ n * v ∧ dst'.length = dst.length := by
  induction rest generalizing n dst v with
  | nil => simp [revValue] at hv; subst hv; exact ⟨dst, rfl, by simp, rfl⟩
  | cons c rest ih =>
    simp only [revValue] at hv
    split at hv
    case h_2 => simp at hv
    rename_i d w hd hw
    simp at hv; subst hv
    have e0 : 32 ^ n * (d + 32 * w) = 32 ^ n * d + 32 ^ (n + 1) * w := by
      rw [Nat.pow_succ, Nat.mul_add, Nat.mul_assoc]
    have hi := hroom n (by simp)
    obtain ⟨dst1, he, hv1, hl1⟩ := decodeLoop_step m n d c rest dst hV hd hi (by omega) (by
      intro hnm
      have hi' := hcov n (by simp)
      have em : n * 5 / 8 + 1 = m := by omega
      have ht := step_total n d
      rw [em] at ht
      have : 256 ^ m * (d / 2 ^ (8 - n * 5 % 8)) < 256 ^ m := by omega
      rcases Nat.eq_zero_or_pos (d / 2 ^ (8 - n * 5 % 8)) with h | h
      · exact h
      · have := Nat.mul_le_mul_left (256 ^ m) h
        omega)
    obtain ⟨dst', h1, h2, h3⟩ := ih (n + 1) dst1 w
      (by rw [hv1]; exact pow_succ_lt _ _ _ hV (indexAlphabet_lt hd)) hw
      (by intro k hk; rw [hl1]; exact hroom k (by simp; omega)) (by omega) (by omega)
      (by intro k hk; exact hcov k (by simp; omega))
    exact ⟨dst', by rw [he, h1], by rw [h2, hv1]; omega, by omega⟩

/-- `DecodeString` succeeds exactly on numerals of canonical length whose value fits. -/
theorem decodeString_iff (s b : Bytes) :
    decodeString s = .ok b ↔
      s.length = encodedLen b.length ∧ numeralValue s = some (leValue b) := by
  unfold decodeString decode
  constructor
  · intro h
    split at h
    · simp at h
    · simp at h
    rename_i k dst' hk
    simp at h
    obtain ⟨v, hv, rfl, hval, hlen, hne⟩ := decodeLoop_sound _ _ _ _ _ _
      (by simp [leValue_replicate]) hk
    rw [revValue_reverse] at hv
    simp [leValue_replicate] at hval hlen hne
    rw [List.take_of_length_le (by omega)] at h
    subst h
    refine ⟨?_, by rw [hv, hval]⟩
    rw [hlen]
    unfold encodedLen decodedLen at *
    rcases Nat.eq_zero_or_pos s.length with h0 | h0
    · rw [h0]
    · have := hne (by intro h; simp [h] at h0)
      omega
  · rintro ⟨hl, hv⟩
    have hdl : decodedLen s.length = b.length := by
      rw [hl]; unfold decodedLen encodedLen; omega
    obtain ⟨dst', h1, h2, h3⟩ := decodeLoop_complete (decodedLen s.length) s.reverse 0
      (List.replicate (decodedLen s.length) 0) (leValue b) (by simp [leValue_replicate])
      (by rw [revValue_reverse, hv])
      (by intro k hk; simp at hk ⊢; rw [hdl]; unfold encodedLen at hl; omega)
      (by simp) (by simp [leValue_replicate, hdl]; exact leValue_lt b)
      (by intro k hk; simp at hk ⊢; rw [hdl]; unfold encodedLen at hl; omega)
    rw [h1]
    simp only [Res.ok.injEq]
    rw [List.take_of_length_le (by simp [h3])]
    apply leValue_inj
    · rw [h3]; simp [hdl]
    · simpa [leValue_replicate] using h2

/-- ORing a fixed background into the buffer commutes with the loop. -/
def orBytes (a b : Bytes) : Bytes := List.zipWith (· ||| ·) a b

theorem orBytes_length {a b : Bytes} (h : a.length = b.length) : (orBytes a b).length = b.length := by
  simp [orBytes, h]

theorem orBytes_set (a b : Bytes) (i : Nat) (x : UInt8) (h : a.length = b.length) :
    (orBytes a b).set i ((orBytes a b).getD i 0 ||| x) = orBytes a (b.set i (b.getD i 0 ||| x)) := by
  induction a generalizing b i with
  | nil => simp [orBytes]
  | cons y a ih =>
    cases b with
    | nil => simp at h
    | cons z b =>
      cases i with
      | zero => simp [orBytes]; exact UInt8.or_assoc y z x
      | succ i =>
        have := ih b i (by simpa using h)
        simp [orBytes] at this ⊢
        exact this

def DecodeOut.map (f : Bytes → Bytes) : DecodeOut → DecodeOut
  | .done n e dst => .done n e (f dst)
  | .panic => .panic

theorem decodeLoop_or (m : Nat) (rest : Bytes) (n : Nat) (a dst : Bytes) (h : a.length = dst.length) :
    decodeLoop m n rest (orBytes a dst) = (decodeLoop m n rest dst).map (orBytes a) := by
  induction rest generalizing n dst with
  | nil => simp [decodeLoop, DecodeOut.map]
  | cons c rest ih =>
    simp only [decodeLoop]
    cases indexAlphabet c with
    | none => simp [DecodeOut.map]
    | some d =>
      simp only [orBytes_length h]
      split
      · simp [DecodeOut.map]
      rw [orBytes_set _ _ _ _ h]
      have hl : a.length = (dst.set (n * 5 / 8)
        (dst.getD (n * 5 / 8) 0 ||| goShl (UInt8.ofNat d) (n * 5 % 8))).length := by simp [h]
      rw [orBytes_length hl]
      split
      · split
        · simp [DecodeOut.map]
        · rw [orBytes_set _ _ _ _ hl, ih]
          simp [h]
      · split
        · simp [DecodeOut.map]
        · rw [ih _ _ hl]

/-- Frame: positions at or above both `m` and the last digit's byte are untouched; everything the
loop does on `dst ++ ext` it does on `dst`, when `dst` has room for all digits. -/
theorem decodeLoop_append (m : Nat) (rest : Bytes) (n : Nat) (dst ext : Bytes)
    (hroom : ∀ k, k < n + rest.length → k * 5 / 8 < dst.length) (hm : m ≤ dst.length) :
    decodeLoop m n rest (dst ++ ext) = (decodeLoop m n rest dst).map (· ++ ext) := by
  induction rest generalizing n dst with
  | nil => simp [decodeLoop, DecodeOut.map]
  | cons c rest ih =>
    simp only [decodeLoop]
    have hi := hroom n (by simp)
    cases indexAlphabet c with
    | none => simp [DecodeOut.map]
    | some d =>
      simp only []
      have hset : ∀ (l : Bytes) (i : Nat) (x : UInt8), i < l.length →
          (l ++ ext).set i ((l ++ ext).getD i 0 ||| x) = l.set i (l.getD i 0 ||| x) ++ ext := by
        intro l i x hl
        rw [List.set_append_left _ _ hl]
        simp [List.getD, List.getElem?_append_left hl]
      rw [if_neg (show ¬ (dst ++ ext).length ≤ n * 5 / 8 by simp; omega),
        if_neg (show ¬ dst.length ≤ n * 5 / 8 by omega), hset _ _ _ hi]
      have hr : ∀ k, k < n + 1 + rest.length → k * 5 / 8 < dst.length :=
        fun k hk => hroom k (by simp; omega)
      by_cases him : n * 5 / 8 + 1 < m
      · rw [if_pos him, if_pos him, if_neg (by simp; omega), if_neg (by simp; omega),
          hset _ _ _ (by simp; omega)]
        exact ih _ _ (by simpa using hr) (by simpa using hm)
      · rw [if_neg him, if_neg him]
        split
        · simp [DecodeOut.map]
        · exact ih _ _ (by simpa using hr) (by simpa using hm)

theorem decodeLoop_ne_panic (m : Nat) (rest : Bytes) (n : Nat) (dst : Bytes) (hm : m ≤ dst.length) :
    decodeLoop m n rest dst ≠ .panic := by
  induction rest generalizing n dst with
  | nil => simp [decodeLoop]
  | cons c rest ih =>
    simp only [decodeLoop]
    split
    · simp
    split
    · simp
    split
    · split
      · rename_i h1 h2; simp at h2; omega
      · exact ih _ _ (by simpa using hm)
    · split
      · simp
      · exact ih _ _ (by simpa using hm)

/-- The validation loop makes the checks of the decoding loop other than those on buffer room. -/
theorem validateLoop_iff (m : Nat) (rest : Bytes) (n : Nat) (dst : Bytes)
    (hroom : ∀ k, k < n + rest.length → k * 5 / 8 < dst.length) (hm : m ≤ dst.length) :
    (validateLoop m n rest = .ok () ↔ ∃ dst', decodeLoop m n rest dst = .done m none dst') := by
  induction rest generalizing n dst with
  | nil => simp [decodeLoop, validateLoop]
  | cons c rest ih =>
    simp only [decodeLoop, validateLoop]
    have hi := hroom n (by simp)
    cases indexAlphabet c with
    | none => simp
    | some d =>
      simp only []
      rw [if_neg (show ¬ dst.length ≤ n * 5 / 8 by omega)]
      have hr : ∀ k, k < n + 1 + rest.length → k * 5 / 8 < dst.length :=
        fun k hk => hroom k (by simp; omega)
      by_cases him : n * 5 / 8 + 1 < m
      · rw [if_neg (show ¬ m ≤ n * 5 / 8 + 1 by omega), if_pos him, if_neg (by simp; omega)]
        exact ih _ _ (by simpa using hr) (by simpa using hm)
      · rw [if_pos (show m ≤ n * 5 / 8 + 1 by omega), if_neg him]
        split
        · simp
        · exact ih _ _ (by simpa using hr) (by simpa using hm)

end Verif.Nixbase32
