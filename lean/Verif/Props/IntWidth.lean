import Verif.Model.IntWidth
import Verif.Lemmas.Wire
import Verif.Props.Nixbase32

/-!
# `int` of 32 and 64 bits (C160)
-/

namespace Verif.Props
open Verif.GoLib Verif.Spec Verif.Nixbase32 Verif.Wire Verif.IntWidth

theorem toInt_id {w : Nat} {x : Int} (hw : 0 < w) (h0 : 0 ≤ x) (h : x < 2 ^ (w - 1)) : toInt w x = x := by
  unfold toInt
  obtain ⟨v, rfl⟩ : ∃ v, w = v + 1 := ⟨w - 1, by omega⟩
  simp only [Nat.add_sub_cancel] at h ⊢
  have e : (2 : Int) ^ (v + 1) = 2 ^ v * 2 := Int.pow_succ _ _
  rw [e]
  generalize (2 : Int) ^ v = p at h ⊢
  rw [Int.emod_eq_of_lt (by omega) (by omega)]
  omega

theorem encodedLenW_eq {w n : Nat} (hw : 4 ≤ w) (h : 8 * n + 4 < 2 ^ (w - 1)) : encodedLenW w n = encodedLen n := by
  have hp : ((2 ^ (w - 1) : Nat) : Int) = 2 ^ (w - 1) := by simp
  unfold encodedLenW encodedLen
  rw [toInt_id (x := n * 8) (by omega) (by omega) (by omega), toInt_id (by omega) (by omega) (by omega)]
  rw [Int.tdiv_eq_ediv_of_nonneg (by omega)]
  omega

theorem decodedLenW_eq {w n : Nat} (hw : 4 ≤ w) (h : 5 * n < 2 ^ (w - 1)) : decodedLenW w n = decodedLen n := by
  have hp : ((2 ^ (w - 1) : Nat) : Int) = 2 ^ (w - 1) := by simp
  unfold decodedLenW decodedLen
  rw [toInt_id (by omega) (by omega) (by omega), Int.tdiv_eq_ediv_of_nonneg (by omega)]
  omega

/-- C160, for every width: as long as eight times the length (five times for decoding) fits into an `int`, the functions
do what the other theorems say about them. -/
theorem C160_width_partial (w : Nat) (hw : 4 ≤ w) (dst s : Bytes) :
    (8 * s.length + 4 < 2 ^ (w - 1) → encodeToStringW w s = .ok (encodeToString s) ∧ encodeW w dst s = encode dst s) ∧
    (5 * s.length < 2 ^ (w - 1) → decodeStringW w s = decodeString s ∧ validateStringW w s = validateString s) := by
  refine ⟨fun h => ⟨?_, ?_⟩, fun h => ⟨?_, ?_⟩⟩
  · unfold encodeToStringW encodeToString
    rw [encodedLenW_eq hw h, if_neg (by omega), Int.toNat_natCast]
  · unfold encodeW encode
    rw [encodedLenW_eq hw h, Int.toNat_natCast]
    simp only []
    by_cases hd : dst.length < encodedLen s.length
    · rw [if_pos (by omega), if_pos hd]
    · rw [if_neg (by omega), if_neg hd]
  · unfold decodeStringW decodeString decode
    rw [decodedLenW_eq hw h, if_neg (by omega), Int.toNat_natCast]
    cases decodeLoop (decodedLen s.length) 0 s.reverse (List.replicate (decodedLen s.length) 0) with
    | panic => rfl
    | done n e dst => cases e <;> rfl
  · unfold validateStringW validateString
    rw [decodedLenW_eq hw h, Int.toNat_natCast]

/-- C160, with an `int` of 64 bits: for all slices of less than 2^60 bytes, that is, for all that fit into the memory of any
machine. -/
theorem C160_64 (dst s : Bytes) (h : s.length < 2 ^ 60) :
    encodeToStringW 64 s = .ok (encodeToString s) ∧ encodeW 64 dst s = encode dst s ∧
    decodeStringW 64 s = decodeString s ∧ validateStringW 64 s = validateString s := by
  obtain ⟨h1, h2⟩ := C160_width_partial 64 (by decide) dst s
  obtain ⟨a, b⟩ := h1 (by omega)
  obtain ⟨c, d⟩ := h2 (by omega)
  exact ⟨a, b, c, d⟩

/-- C160 is false with an `int` of 32 bits: 256 MiB cannot be encoded (a panic), 512 MiB are encoded as the empty text, and 512 MiB of
text cannot be decoded. -/
theorem C160_refuted (s : Bytes) :
    (s.length = 2 ^ 28 → encodeToStringW 32 s = .panic) ∧
    (s.length = 2 ^ 29 → encodeToStringW 32 s = .ok [] ∧ decodeStringW 32 s = .panic) := by
  refine ⟨fun h => ?_, fun h => ⟨?_, ?_⟩⟩
  · unfold encodeToStringW
    have : encodedLenW 32 s.length < 0 := by rw [h]; decide
    rw [if_pos this]
  · unfold encodeToStringW
    have : encodedLenW 32 s.length = 0 := by rw [h]; decide
    rw [this]
    rfl
  · unfold decodeStringW
    have : decodedLenW 32 s.length < 0 := by rw [h]; decide
    rw [if_pos this]

/-- C160: exactly when `EncodeToString` gives the right answer: for the lengths for which `EncodedLen` is right, that is, those that do not overflow. -/
theorem C160_exact (w : Nat) (hw : 4 ≤ w) (s : Bytes) (hs : s.length < 2 ^ (w - 1)) :
    encodeToStringW w s = .ok (encodeToString s) ↔ 8 * s.length + 4 < 2 ^ (w - 1) := by
  refine ⟨fun h => ?_, fun h => ((C160_width_partial w hw [] s).1 h).1⟩
  refine Decidable.byContradiction fun hn => ?_
  unfold encodeToStringW at h
  split at h
  · cases h
  · rename_i h0
    have hlen : ∀ (src : Bytes) n, (encodeLoop src n).length = n := by
      intro src n
      induction n with
      | zero => rfl
      | succ n ih => unfold encodeLoop; rw [List.length_cons, ih]
    have h1 := congrArg List.length (Res.ok.inj h)
    unfold encodeToString at h1
    rw [hlen, hlen] at h1
    -- the wrapped value is below 2^(w-1)
    obtain ⟨v, rfl⟩ : ∃ v, w = v + 1 := ⟨w - 1, by omega⟩
    simp only [Nat.add_sub_cancel] at *
    have hp : ((2 ^ v : Nat) : Int) = 2 ^ v := by simp
    have e : (2 : Int) ^ (v + 1) = 2 ^ v * 2 := Int.pow_succ _ _
    have hb : toInt (v + 1) (toInt (v + 1) (s.length * 8) + 4) < 2 ^ v := by
      unfold toInt
      simp only [Nat.add_sub_cancel, e]
      generalize hP : (2 : Int) ^ v = P at *
      have hP0 : 0 < P := by rw [← hP]; exact Int.pow_pos (by decide)
      have := Int.emod_lt_of_pos (((s.length * 8 : Int) + P) % (P * 2) - P + 4 + P) (show 0 < P * 2 by omega)
      omega
    have hdiv : encodedLenW (v + 1) s.length * 5 < 2 ^ v := by
      unfold encodedLenW at h0 ⊢
      generalize toInt (v + 1) (toInt (v + 1) (s.length * 8) + 4) = x at *
      by_cases hx : 0 ≤ x
      · rw [Int.tdiv_eq_ediv_of_nonneg hx]; omega
      · have hle : x.tdiv 5 ≤ 0 := by
          have hy : x = -(-x) := by omega
          rw [hy, Int.neg_tdiv, Int.tdiv_eq_ediv_of_nonneg (by omega)]
          omega
        have : (0 : Int) < 2 ^ v := Int.pow_pos (by decide)
        omega
    unfold encodedLen at h1
    obtain ⟨u, rfl⟩ : ∃ u, v = u + 3 := ⟨v - 3, by omega⟩
    have e8 : 2 ^ (u + 3) = 2 ^ u * 8 := Nat.pow_add 2 u 3
    have hge : 2 ^ (u + 3) ≤ 8 * s.length + 4 := Nat.le_of_not_lt hn
    rw [← hp] at hdiv
    clear hp hb hn hs e
    rw [e8] at hdiv hge
    generalize encodedLenW (u + 3 + 1) s.length = y at *
    generalize 2 ^ u = P at *
    omega

/-- C160: reading a packet. A limit below 2^31 (all limits of the package nar are) gives the same on all machines; with a larger
one a machine of 32 bits panics when told a length of 2^31 bytes, which is an error on one of 64 bits. -/
theorem C160_read (maxBytes : Nat) (s : Stream) :
    (maxBytes < 2 ^ 31 → readBytesFullW 32 maxBytes s = readBytesFull maxBytes s ∧ readBytesFullW 64 maxBytes s = readBytesFull maxBytes s) ∧
    (2 ^ 31 ≤ maxBytes → (readBytesFullW 32 maxBytes ⟨[0, 0, 0, 128, 0, 0, 0, 0], .eof⟩).1 = .panic ∧
      (readBytesFull maxBytes ⟨[0, 0, 0, 128, 0, 0, 0, 0], .eof⟩).1 = .err .eof) := by
  constructor
  · intro h
    have key : ∀ w, 32 ≤ w → w ≤ 64 → readBytesFullW w maxBytes s = readBytesFull maxBytes s := by
      intro w h1 h2
      unfold readBytesFullW readBytesFull
      rw [M.bind_apply, M.bind_apply]
      have hp : 2 ^ 31 ≤ 2 ^ (w - 1) := Nat.pow_le_pow_right (by decide) (by omega)
      have hq : 2 ^ (w - 1) ≤ 2 ^ 63 := Nat.pow_le_pow_right (by decide) (by omega)
      cases readUint64 s with
      | mk r s' =>
        cases r with
        | err e => rfl
        | panic => rfl
        | ok n =>
          simp only
          by_cases hn : n > maxBytes
          · rw [if_pos hn, if_pos hn]
          · rw [if_neg hn, if_neg hn, if_neg (by omega), if_neg (by omega)]
    exact ⟨key 32 (by decide) (by decide), key 64 (by decide) (by decide)⟩
  · intro h
    have hr : readUint64 ⟨[0, 0, 0, 128, 0, 0, 0, 0], .eof⟩ = (.ok (2 ^ 31), ⟨[], .eof⟩) := by rfl
    constructor
    · unfold readBytesFullW
      rw [M.bind_ok hr, if_neg (by omega), if_pos (by omega)]
      rfl
    · unfold readBytesFull
      rw [M.bind_ok hr, if_neg (by omega), if_neg (by omega)]
      unfold readContent readFull
      simp only [List.length_nil]
      rw [if_neg (by omega)]
      rfl

example : ∃ s : Bytes, s.length = 2 ^ 29 := ⟨List.replicate (2 ^ 29) 0, List.length_replicate⟩
example := C160_64 (List.replicate 60 0) b!"hello" (by decide)
example := C160_width_partial 32 (by decide) (List.replicate 60 0) b!"hello"
example := C160_exact 8 (by decide) (List.replicate 100 7) (by decide)
example : encodeToStringW 8 (List.replicate 100 7) ≠ .ok (encodeToString (List.replicate 100 7)) ∧
    encodeToStringW 8 (List.replicate 15 7) = .ok (encodeToString (List.replicate 15 7)) := by decide +kernel
example := (C160_read 4095 ⟨[3, 0, 0, 0, 0, 0, 0, 0, 1, 2, 3, 0, 0, 0, 0, 0], .eof⟩).1 (by decide)
example := (C160_read (2 ^ 40) ⟨[], .eof⟩).2 (by decide)

end Verif.Props
