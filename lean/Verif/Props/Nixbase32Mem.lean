import Verif.Props.Nixbase32
import Verif.Model.Nixbase32Mem

/-!
# `Encode` and `Decode` on slices of one array (C143)
-/

namespace Verif.Props
open Verif Verif.Nixbase32 Verif.Spec

theorem slice_set {mem : Bytes} {off len i : Nat} {x : UInt8} (h : i < off ∨ off + len ≤ i) :
    slice (mem.set i x) off len = slice mem off len := by
  apply List.ext_getElem?
  intro k
  simp only [slice, List.getElem?_take, List.getElem?_drop, List.getElem?_set]
  split
  · rename_i hk
    rw [if_neg (by omega)]
  · rfl

theorem decodeOut_map_congr {o : DecodeOut} {f g : Bytes → Bytes} (h : ∀ n e d, o = .done n e d → f d = g d) :
    o.map f = o.map g := by
  cases o with
  | panic => rfl
  | done n e d => simp [DecodeOut.map, h n e d rfl]

theorem encodeMemLoop_eq (soff slen doff : Nat) (n k : Nat) (mem : Bytes)
    (hd : doff + k + n ≤ mem.length) (hdis : doff + k + n ≤ soff ∨ soff + slen ≤ doff) :
    encodeMemLoop soff slen doff n k mem =
      mem.take (doff + k) ++ encodeLoop (slice mem soff slen) n ++ mem.drop (doff + k + n) := by
  induction n generalizing k mem with
  | zero => simp [encodeMemLoop, encodeLoop]
  | succ n ih =>
    have hs : slice (mem.set (doff + k) (encodeChar (slice mem soff slen) n)) soff slen = slice mem soff slen :=
      slice_set (by omega)
    rw [encodeMemLoop, ih (k + 1) _ (by simp; omega) (by omega), hs]
    have e1 : (mem.set (doff + k) (encodeChar (slice mem soff slen) n)).take (doff + (k + 1)) =
        mem.take (doff + k) ++ [encodeChar (slice mem soff slen) n] := by
      apply List.ext_getElem?
      intro i
      simp only [List.getElem?_take, List.getElem?_set, List.getElem?_append, List.length_take]
      have : min (doff + k) mem.length = doff + k := by omega
      rw [this]
      by_cases h1 : i < doff + k
      · simp [h1, show i < doff + (k + 1) by omega, show ¬ doff + k = i by omega]
      · by_cases h2 : i = doff + k
        · subst h2; simp [show doff + k < doff + (k + 1) by omega, show doff + k < mem.length by omega]
        · simp [h1, show ¬ i < doff + (k + 1) by omega]
          omega
    have e2 : (mem.set (doff + k) (encodeChar (slice mem soff slen) n)).drop (doff + (k + 1) + n) =
        mem.drop (doff + k + (n + 1)) := by
      rw [List.drop_set_of_lt (by omega)]
      congr 1; omega
    rw [e1, e2]
    simp [encodeLoop]

/-- C143, `Encode`: if the `EncodedLen` bytes from the beginning of the destination do not overlap the source,
they become the encoding of the source, and no other byte of the memory changes (in particular not the
source); the call panics exactly if the capacity is too small. -/
theorem C143_encode (mem : Bytes) (doff dcap soff slen : Nat) (hd : doff + dcap ≤ mem.length)
    (hs : soff + slen ≤ mem.length) (hdis : doff + dcap ≤ soff ∨ soff + slen ≤ doff) :
    let n := (slen * 8 + 4) / 5
    encodeMem mem doff dcap soff slen =
      if dcap < n then .panic
      else .ok (mem.take doff ++ encodeToString ((mem.drop soff).take slen) ++ mem.drop (doff + n)) := by
  have hn : encodedLen slen = (slen * 8 + 4) / 5 := rfl
  simp only
  unfold encodeMem
  simp only [hn]
  split
  · rfl
  · rename_i h
    rw [encodeMemLoop_eq _ _ _ _ _ _ (by omega) (by omega)]
    have hl : ((mem.drop soff).take slen).length = slen := by simp; omega
    unfold encodeToString
    rw [hl, hn]
    rfl

/-- C143 is false for overlapping slices: `Encode(buf, buf[:1])` of the byte 255 does not store its encoding. -/
theorem C143_encode_overlap : encodeMem [255, 0] 0 2 0 1 = .ok b!"7p" ∧ encodeToString [255] = b!"7z" := by
  decide

theorem getD_slice {mem : Bytes} {off len i : Nat} (h : i < len) :
    (slice mem off len).getD i 0 = mem.getD (off + i) 0 := by
  simp [slice, h]

theorem slice_length {mem : Bytes} {off len : Nat} (hl : off + len ≤ mem.length) :
    (slice mem off len).length = len := by
  simp [slice]; omega

/-- Put `d` back where the slice at `off` was. -/
def putBack (mem : Bytes) (off : Nat) (d : Bytes) : Bytes := mem.take off ++ d ++ mem.drop (off + d.length)

theorem putBack_slice {mem : Bytes} {off len : Nat} (hl : off + len ≤ mem.length) :
    putBack mem off (slice mem off len) = mem := by
  unfold putBack
  rw [slice_length hl]
  unfold slice
  rw [← List.drop_drop, List.append_assoc, List.take_append_drop, List.take_append_drop]

theorem slice_set_in {mem : Bytes} {off len i : Nat} {x : UInt8} (h : i < len) :
    slice (mem.set (off + i) x) off len = (slice mem off len).set i x := by
  apply List.ext_getElem?
  intro k
  simp only [slice, List.getElem?_take, List.getElem?_drop, List.getElem?_set, List.length_take, List.length_drop]
  by_cases hk : k < len
  · by_cases e : i = k
    · subst e
      simp [h]
      by_cases h1 : off + i < mem.length
      · simp [h1]; omega
      · simp [h1]; omega
    · simp [hk, e]
  · simp [hk]
    intro e; omega

theorem putBack_set {mem : Bytes} {off i : Nat} {x : UInt8} {d : Bytes} (h : i < d.length) :
    putBack (mem.set (off + i) x) off d = putBack mem off d := by
  unfold putBack
  rw [List.take_set_of_le (by omega), List.drop_set_of_lt (by omega)]

theorem decodeMemLoop_eq (soff slen doff dlen : Nat) (m n : Nat) (mem src : Bytes) (hmn : m + n = slen)
    (hs : soff + slen ≤ mem.length) (hd : doff + dlen ≤ mem.length) (hdis : doff + dlen ≤ soff ∨ soff + slen ≤ doff)
    (hsrc : slice mem soff slen = src) :
    decodeMemLoop soff slen doff dlen m n mem =
      (decodeLoop (decodedLen slen) n (src.reverse.drop n) (slice mem doff dlen)).map (putBack mem doff) := by
  have hsl : src.length = slen := by rw [← hsrc, slice_length hs]
  induction m generalizing n mem with
  | zero =>
    have : src.reverse.drop n = [] := List.drop_eq_nil_of_le (by simp; omega)
    rw [this]
    simp [decodeMemLoop, decodeLoop, DecodeOut.map, putBack_slice hd]
  | succ m ih =>
    have hlt : n < src.reverse.length := by simp; omega
    have hc : src.reverse[n] = mem.getD (soff + (slen - n - 1)) 0 := by
      rw [List.getElem_reverse, ← getD_slice (len := slen) (by omega), hsrc, List.getD_eq_getElem?_getD,
        List.getElem?_eq_getElem (by omega), Option.getD_some]
      congr 1; omega
    rw [List.drop_eq_getElem_cons hlt, hc]
    simp only [decodeMemLoop, decodeLoop, slice_length hd]
    cases indexAlphabet (mem.getD (soff + (slen - n - 1)) 0) with
    | none => simp [DecodeOut.map, putBack_slice hd]
    | some digit =>
      by_cases h1 : dlen ≤ n * 5 / 8
      · simp [h1, DecodeOut.map, putBack_slice hd]
      · simp only [h1, if_false, List.length_set, slice_length hd]
        have hi : n * 5 / 8 < dlen := by omega
        rw [getD_slice hi]
        generalize hx : (mem.getD (doff + n * 5 / 8) 0 ||| goShl (UInt8.ofNat digit) (n * 5 % 8)) = x
        have hs1 : slice (mem.set (doff + n * 5 / 8) x) soff slen = src := by
          rw [slice_set (by omega), hsrc]
        have hd1 : slice (mem.set (doff + n * 5 / 8) x) doff dlen = (slice mem doff dlen).set (n * 5 / 8) x :=
          slice_set_in hi
        have hp : ∀ d : Bytes, d.length = dlen → putBack (mem.set (doff + n * 5 / 8) x) doff d = putBack mem doff d :=
          fun d h => putBack_set (by omega)
        by_cases h2 : n * 5 / 8 + 1 < decodedLen slen
        · simp only [h2, if_true]
          by_cases h3 : dlen ≤ n * 5 / 8 + 1
          · simp [h3, DecodeOut.map]
          · simp only [h3, if_false]
            have hi2 : n * 5 / 8 + 1 < dlen := by omega
            rw [← hd1, getD_slice hi2, ← slice_set_in hi2]
            generalize ((mem.set (doff + n * 5 / 8) x).getD (doff + (n * 5 / 8 + 1)) 0 |||
              goShr (UInt8.ofNat digit) (8 - n * 5 % 8)) = y
            rw [ih (n + 1) _ (by omega) (by simpa using hs) (by simpa using hd) (by rw [slice_set (by omega), hs1])]
            apply decodeOut_map_congr
            intro k e d hh
            have hlen := decodeLoop_length _ _ _ _ _ _ _ hh
            rw [slice_length (by simpa using hd)] at hlen
            rw [putBack_set (by omega), putBack_set (by omega)]
        · simp only [h2, if_false]
          by_cases h4 : goShr (UInt8.ofNat digit) (8 - n * 5 % 8) = 0
          · simp only [h4, ne_eq, not_true_eq_false, if_false]
            rw [ih (n + 1) _ (by omega) (by simpa using hs) (by simpa using hd) hs1, ← hd1]
            apply decodeOut_map_congr
            intro k e d hh
            have hlen := decodeLoop_length _ _ _ _ _ _ _ hh
            rw [slice_length (by simpa using hd)] at hlen
            rw [putBack_set (by omega)]
          · simp only [h4, ne_eq, not_false_eq_true, if_true, DecodeOut.map, ← hd1]
            rw [← hp _ (slice_length (by simpa using hd)), putBack_slice (by simpa using hd)]

/-- C143, `Decode`: if destination and source do not overlap, the call returns what it returns for separate
buffers, the destination ends up as it does there (C05), and no other byte of the memory changes. -/
theorem C143_decode (mem : Bytes) (doff dlen soff slen : Nat) (hd : doff + dlen ≤ mem.length)
    (hs : soff + slen ≤ mem.length) (hdis : doff + dlen ≤ soff ∨ soff + slen ≤ doff) :
    decodeMem mem doff dlen soff slen =
      match decode ((mem.drop doff).take dlen) ((mem.drop soff).take slen) with
      | .panic => .panic
      | .done n e d => .done n e (mem.take doff ++ d ++ mem.drop (doff + dlen)) := by
  unfold decodeMem
  rw [decodeMemLoop_eq soff slen doff dlen slen 0 mem _ rfl hs hd hdis rfl]
  unfold decode
  have hl : ((mem.drop soff).take slen).length = slen := slice_length hs
  rw [hl]
  change DecodeOut.map _ (decodeLoop _ _ (((mem.drop soff).take slen).reverse.drop 0) ((mem.drop doff).take dlen)) = _
  rw [List.drop_zero]
  rcases h : decodeLoop (decodedLen slen) 0 ((mem.drop soff).take slen).reverse ((mem.drop doff).take dlen) with ⟨n, e, d⟩ | _
  · have hlen := decodeLoop_length _ _ _ _ _ _ _ h
    have h2 : ((mem.drop doff).take dlen).length = dlen := slice_length hd
    simp [DecodeOut.map, putBack, hlen.trans h2]
  · rfl

/-- C143 is false for overlapping slices: decoding "7z" in place, `Decode(buf[:1], buf)`, is refused. -/
theorem C143_decode_overlap : decodeMem b!"7z" 0 1 0 2 = .done 0 (some (.msg "char not in alphabet")) [63, 122] ∧
    decodeString b!"7z" = .ok [0xff] := by
  decide

theorem decodeLoop_count (rest : Bytes) (mm n : Nat) (d : Bytes) (k : Nat) (e : Option Err) (d' : Bytes)
    (hmm : (n + rest.length) * 5 / 8 ≤ mm) (h : decodeLoop mm n rest d = .done k e d') : k ≤ mm := by
  induction rest generalizing n d with
  | nil => simp [decodeLoop] at h; omega
  | cons c rest ih =>
    simp only [List.length_cons] at hmm
    have hr := ih (n + 1) (hmm := by rw [show n + 1 + rest.length = n + (rest.length + 1) by omega]; exact hmm)
    simp only [decodeLoop] at h
    split at h
    · simp at h; omega
    split at h
    · simp at h; omega
    split at h
    · split at h
      · simp at h
      · exact hr _ h
    · split at h
      · simp at h; omega
      · exact hr _ h

/-- C05, `DecodeString` with the data it returns beside an error: it never panics (the slice expression
`dst[:n]` is always within bounds), it never returns more than `DecodedLen` bytes, and the error is nil exactly
if the text is the encoding of what is returned. -/
theorem C05_string (s : Bytes) : ∃ d e, decodeStringFull s = .ok (d, e) ∧ d.length ≤ s.length * 5 / 8 ∧
    (e = none ↔ s = encodeToString d) := by
  have hnp : decode (List.replicate (decodedLen s.length) 0) s ≠ .panic := C05_no_panic _ _ (by simp)
  have hde := C02_decode_iff_encode s
  unfold decodeString at hde
  unfold decodeStringFull
  cases h : decode (List.replicate (decodedLen s.length) 0) s with
  | panic => exact absurd h hnp
  | done n e dst =>
    have hlen := decodeLoop_length _ _ _ _ _ _ _ h
    have hn : n ≤ decodedLen s.length := decodeLoop_count _ _ _ _ _ _ _ (by simp [decodedLen]) h
    simp only [List.length_replicate] at hlen
    refine ⟨dst.take n, e, by simp only [h]; rw [if_neg (by omega)], by simp; unfold decodedLen at hn; omega, ?_⟩
    rw [← hde, h]
    cases e <;> simp

example : decodeStringFull b!"t0000000" = .ok ([0, 0, 0, 0], some (.msg "char not in alphabet")) ∧
    decodeStringFull b!"dxn6qrb8" = .ok (b!"hello", none) := by decide

/-- `Encode` from the end of an array to its beginning, and `Decode` back. -/
example : encodeMem (List.replicate 8 46 ++ b!"hello") 0 8 8 5 = .ok b!"dxn6qrb8hello" ∧
    decodeMem (b!"dxn6qrb8" ++ List.replicate 6 0) 8 5 0 8 = .done 5 none (b!"dxn6qrb8hello" ++ [0]) := by decide

end Verif.Props
