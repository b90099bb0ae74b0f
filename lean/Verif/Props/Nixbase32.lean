import Verif.Lemmas.Nixbase32

/-!
# Properties of `pkg/nixbase32` (C01 - C06)
-/

namespace Verif.Props
open Verif Verif.Nixbase32 Verif.Spec

/-- C01: decoding inverts encoding, for byte strings of every length. -/
theorem C01_decode_encode (b : Bytes) : decodeString (encodeToString b) = .ok b := by
  rw [decodeString_iff]
  exact ⟨encodeToString_length b, numeralValue_encode b⟩

/-- C02: the decoder accepts exactly the encoder's outputs. -/
theorem C02_decode_iff_encode (s b : Bytes) : decodeString s = .ok b ↔ s = encodeToString b := by
  constructor
  · intro h
    obtain ⟨hl, hv⟩ := (decodeString_iff s b).mp h
    exact numeralValue_inj (by rw [hl, encodeToString_length]) hv (numeralValue_encode b)
  · rintro rfl; exact C01_decode_encode b

/-- C02, consequences: two accepted strings with the same bytes are equal; the encoder is
injective. -/
theorem C02_unique (s t b : Bytes) (hs : decodeString s = .ok b) (ht : decodeString t = .ok b) :
    s = t := by
  rw [C02_decode_iff_encode] at hs ht
  rw [hs, ht]

theorem C02_encode_injective (a b : Bytes) (h : encodeToString a = encodeToString b) : a = b := by
  have := C01_decode_encode a
  rw [h, C01_decode_encode b] at this
  exact (Res.ok.inj this).symm

/-- a non-trivial accepted string, and a rejected one (non-zero padding bits). -/
example : decodeString b!"003" = .err (.msg "ErrInvalidHash") ∧
    decodeString b!"7z" = .ok [0xff] ∧ encodeToString [0xff] = b!"7z" ∧
    decodeString b!"zz" = .err (.msg "non-zero padding") := by decide

/-- C03: the encoding is the fixed-length base-32 numeral (most significant digit first) of the
number whose base-256 digits, least significant first, are the bytes. -/
theorem C03_encode_is_numeral (b : Bytes) :
    (encodeToString b).length = (b.length * 8 + 4) / 5 ∧
      (∀ c ∈ encodeToString b, c ∈ nixDigits) ∧ IsNumeral32 (encodeToString b) (leValue b) := by
  have h : IsNumeral32 (encodeToString b) (leValue b) :=
    isNumeral32_of_numeralValue (numeralValue_encode b)
  refine ⟨encodeToString_length b, ?_, h⟩
  generalize encodeToString b = s at h
  generalize leValue b = v at h
  induction h with
  | nil => simp
  | snoc _ hd ih =>
    intro c hc
    rcases List.mem_append.mp hc with h | h
    · exact ih c h
    · rw [List.mem_singleton.mp h]; exact List.mem_of_getElem? hd

/-- C03, `Encode` into a buffer: panics iff the buffer's capacity is below `EncodedLen`; otherwise
writes the characters of `EncodeToString` to the front and nothing else. -/
theorem C03_encode_buffer (dst b : Bytes) :
    encode dst b = if dst.length < (b.length * 8 + 4) / 5 then .panic
      else .ok (encodeToString b ++ dst.drop ((b.length * 8 + 4) / 5)) := rfl

example : encodeToString b!"hello" = b!"dxn6qrb8" ∧ leValue b!"hello" = 478560413032 := by decide

/-- C04 is false: `ValidateString` accepts strings that `DecodeString` rejects. -/
theorem C04_refuted :
    ¬ ∀ s : Bytes, validateString s = .ok () ↔ ∃ b, decodeString s = .ok b := by
  intro h
  have h1 := (h b!"z").mp (by decide)
  obtain ⟨b, hb⟩ := h1
  have h2 : decodeString b!"z" = .err (.msg "ErrInvalidHash") := by decide
  rw [h2] at hb
  cases hb

theorem canonical_room {len : Nat} (hc : encodedLen (decodedLen len) = len) (k : Nat)
    (hk : k < len) : k * 5 / 8 < decodedLen len := by
  unfold encodedLen decodedLen at *
  omega

/-- C04, the part that holds. Every string `DecodeString` accepts is valid for `ValidateString`,
and the two agree on every string whose length is an encoded length (`EncodedLen n` for some `n`;
in particular on 32 and 52 characters). On all other lengths `DecodeString` always fails. -/
theorem C04_validate_decode_partial (s : Bytes) :
    ((∃ b, decodeString s = .ok b) → validateString s = .ok ()) ∧
    (∀ n, s.length = encodedLen n →
      (validateString s = .ok () ↔ ∃ b, decodeString s = .ok b)) ∧
    ((∀ n, s.length ≠ encodedLen n) → ∀ b, decodeString s ≠ .ok b) := by
  have main : ∀ n, s.length = encodedLen n →
      (validateString s = .ok () ↔ ∃ b, decodeString s = .ok b) := by
    intro n hn
    have hc : encodedLen (decodedLen s.length) = s.length := by
      have : decodedLen (encodedLen n) = n := by unfold encodedLen decodedLen; omega
      rw [hn, this]
    unfold validateString decodeString decode
    rw [validateLoop_iff _ _ _ (List.replicate (decodedLen s.length) 0)
      (by intro k hk; simp at hk ⊢; exact canonical_room hc k hk) (by simp)]
    constructor
    · rintro ⟨dst', h⟩; rw [h]; exact ⟨_, rfl⟩
    · rintro ⟨b, h⟩
      split at h
      · simp at h
      · simp at h
      · rename_i k dst' hk
        obtain ⟨_, _, rfl, _⟩ := decodeLoop_sound _ _ _ _ _ _ (by simp [leValue_replicate]) hk
        exact ⟨dst', hk⟩
  refine ⟨?_, main, ?_⟩
  · rintro ⟨b, hb⟩
    exact (main b.length ((decodeString_iff s b).mp hb).1).mpr ⟨b, hb⟩
  · intro hno b hb
    exact hno b.length ((decodeString_iff s b).mp hb).1

example : (b!"7z").length = encodedLen 1 ∧ validateString b!"7z" = .ok () := by decide

theorem validateLoop_append (maxDst : Nat) (a b : Bytes) (n : Nat) :
    validateLoop maxDst n (a ++ b) = match validateLoop maxDst n a with
      | .ok () => validateLoop maxDst (n + a.length) b
      | r => r := by
  induction a generalizing n with
  | nil => simp [validateLoop]
  | cons c a ih =>
    simp only [List.cons_append, validateLoop]
    have e : n + (c :: a).length = n + 1 + a.length := by simp; omega
    rw [e]
    split
    · rfl
    · split
      · split
        · rfl
        · exact ih (n + 1)
      · exact ih (n + 1)

/-- C04, exactly: `ValidateString` accepts the strings `DecodeString` accepts, and those with one more
character of the alphabet in front whose length is then not an encoded length; nothing else. -/
theorem C04_exact (s : Bytes) : validateString s = .ok () ↔
    (∃ b, decodeString s = .ok b) ∨
      ∃ c s', s = c :: s' ∧ c ∈ nixDigits ∧ (∃ b, decodeString s' = .ok b) ∧ ∀ n, s.length ≠ encodedLen n := by
  obtain ⟨h1, h2, h3⟩ := C04_validate_decode_partial s
  by_cases hn : ∃ n, s.length = encodedLen n
  · obtain ⟨n, hn⟩ := hn
    rw [h2 n hn]
    constructor
    · exact .inl
    · rintro (h | ⟨_, _, _, _, _, hno⟩)
      · exact h
      · exact absurd hn (hno n)
  · have hno : ∀ n, s.length ≠ encodedLen n := fun n h => hn ⟨n, h⟩
    cases s with
    | nil => exact absurd rfl (hno 0)
    | cons c s' =>
      have hL : (c :: s').length = s'.length + 1 := rfl
      generalize hl : s'.length = l at *
      -- the length is 1, 3 or 6 modulo 8
      have hmod : (l + 1) % 8 = 1 ∨ (l + 1) % 8 = 3 ∨ (l + 1) % 8 = 6 := by
        have key := hno (decodedLen (l + 1))
        rw [hL] at key
        unfold encodedLen decodedLen at key
        have hq : l + 1 = 8 * ((l + 1) / 8) + (l + 1) % 8 := by omega
        have hlt : (l + 1) % 8 < 8 := Nat.mod_lt _ (by decide)
        generalize (l + 1) / 8 = q at hq
        generalize (l + 1) % 8 = r at hq hlt ⊢
        have hr : r = 0 ∨ r = 1 ∨ r = 2 ∨ r = 3 ∨ r = 4 ∨ r = 5 ∨ r = 6 ∨ r = 7 := by omega
        rw [hq] at key
        rcases hr with h | h | h | h | h | h | h | h <;> subst h <;> omega
      have hd : decodedLen (l + 1) = decodedLen l := by unfold decodedLen; omega
      have hc : l = encodedLen (decodedLen l) := by unfold encodedLen decodedLen; omega
      have hs' := (C04_validate_decode_partial s').2.1 (decodedLen l) (by rw [hl]; exact hc)
      have hlast : validateLoop (decodedLen l) l [c] = .ok () ↔ c ∈ nixDigits := by
        simp only [validateLoop]
        have hm := @indexAlphabet_eq_none c
        rw [alphabet_eq] at hm
        cases hi : indexAlphabet c with
        | none => simp [hm.mp hi]
        | some digit =>
          have hmem : c ∈ nixDigits := by
            apply Classical.byContradiction
            intro hne
            rw [hm.mpr hne] at hi; cases hi
          have hlt := indexAlphabet_lt hi
          have hz : goShr (UInt8.ofNat digit) (8 - l * 5 % 8) = 0 := by
            apply UInt8.toNat_inj.mp
            rw [goShr_toNat]
            have e1 : (UInt8.ofNat digit).toNat = digit := by simp; omega
            rw [e1]
            have hj : l * 5 % 8 = 0 ∨ l * 5 % 8 = 1 ∨ l * 5 % 8 = 2 := by omega
            apply Nat.div_eq_of_lt
            rcases hj with h | h | h <;> rw [h] <;> simp <;> omega
          simp [hz, hmem]
      have hval : validateString (c :: s') = .ok () ↔ validateString s' = .ok () ∧ c ∈ nixDigits := by
        unfold validateString
        rw [List.reverse_cons, validateLoop_append, List.length_reverse, hL, hl, hd, Nat.zero_add]
        cases hv : validateLoop (decodedLen l) 0 s'.reverse with
        | ok u => cases u; simp [hlast]
        | err e => simp
        | panic => simp
      rw [hval, hs']
      constructor
      · rintro ⟨hb, hc'⟩
        exact .inr ⟨c, s', rfl, hc', hb, hno⟩
      · rintro (⟨b, hb⟩ | ⟨_, _, e, hc', hb, _⟩)
        · exact absurd hb (h3 hno b)
        · cases e; exact ⟨hb, hc'⟩

example : validateString b!"z7z" = .ok () ∧ decodeString b!"z7z" = .err (.msg "ErrInvalidHash") ∧
    decodeString b!"7z" = .ok [0xff] := by decide

/-- C05: no panic when the buffer holds `DecodedLen` bytes. -/
theorem C05_no_panic (dst src : Bytes) (h : decodedLen src.length ≤ dst.length) :
    decode dst src ≠ .panic := decodeLoop_ne_panic _ _ _ _ h

/-- C05: on a valid encoding of `b`, `Decode` succeeds, returns `len(b)`, ORs `b` onto the first
`len(b)` bytes of `dst` and leaves the rest alone. -/
theorem C05_decode_valid (dst b : Bytes) (h : b.length ≤ dst.length) :
    decode dst (encodeToString b) = .done b.length none
      (List.zipWith (· ||| ·) (dst.take b.length) b ++ dst.drop b.length) := by
  have hdl : decodedLen (encodeToString b).length = b.length := by
    rw [encodeToString_length]; unfold decodedLen encodedLen; omega
  have h0 := C01_decode_encode b
  unfold decodeString at h0
  have hc : encodedLen (decodedLen (encodeToString b).length) = (encodeToString b).length := by
    rw [hdl, encodeToString_length]
  -- split the buffer
  have hsplit : dst = orBytes (dst.take b.length) (List.replicate b.length 0) ++ dst.drop b.length := by
    have : orBytes (dst.take b.length) (List.replicate b.length 0) = dst.take b.length := by
      apply List.ext_getElem
      · simp [orBytes]
      · intro i h1 h2; simp [orBytes]
    rw [this, List.take_append_drop]
  have hz : decode (List.replicate b.length 0) (encodeToString b) = .done b.length none b := by
    rw [hdl] at h0
    split at h0
    · simp at h0
    · simp at h0
    rename_i k dst' hk
    have hk' := hk
    unfold decode at hk
    obtain ⟨_, _, rfl, _, hlen, _⟩ := decodeLoop_sound _ _ _ _ _ _ (by simp [leValue_replicate]) hk
    rw [hk', hdl]
    simp [hdl] at h0 hlen
    rw [List.take_of_length_le (by omega)] at h0
    rw [h0]
  have e : decode dst (encodeToString b)
      = decode (orBytes (dst.take b.length) (List.replicate b.length 0) ++ dst.drop b.length)
          (encodeToString b) := by rw [← hsplit]
  rw [e]
  unfold decode at hz ⊢
  rw [decodeLoop_append, decodeLoop_or, hz]
  · simp [DecodeOut.map, orBytes]
  · simp; omega
  · intro k hk
    rw [orBytes_length (by simp; omega)]
    simp at hk ⊢
    have := canonical_room hc k hk
    omega
  · rw [orBytes_length (by simp; omega)]; simp [hdl]

/-- C05: into a zeroed buffer the decoded bytes are written. -/
theorem C05_decode_zeroed (b rest : Bytes) :
    decode (List.replicate b.length 0 ++ rest) (encodeToString b) = .done b.length none (b ++ rest) := by
  rw [C05_decode_valid _ _ (by simp)]
  congr 1
  have : List.zipWith (· ||| ·) (List.replicate b.length 0) b = b := by
    apply List.ext_getElem
    · simp
    · intro i h1 h2; simp
  simp [this]

/-- C05: success reports `DecodedLen` bytes, and the buffer was large enough for them. -/
theorem C05_success_length (dst src dst' : Bytes) (n : Nat)
    (h : decode dst src = .done n none dst') :
    n = decodedLen src.length ∧ n ≤ dst.length ∧ dst'.length = dst.length := by
  have hor : dst = orBytes dst (List.replicate dst.length 0) := by
    apply List.ext_getElem
    · simp [orBytes]
    · intro i h1 h2; simp [orBytes]
  unfold decode at h
  rw [hor, decodeLoop_or _ _ _ _ _ (by simp)] at h
  cases hr : decodeLoop (decodedLen src.length) 0 src.reverse (List.replicate dst.length 0) with
  | panic => rw [hr] at h; simp [DecodeOut.map] at h
  | done n' e' d' =>
    rw [hr] at h
    simp only [DecodeOut.map, DecodeOut.done.injEq] at h
    obtain ⟨rfl, rfl, rfl⟩ := h
    obtain ⟨_, _, rfl, _, hlen, hne⟩ := decodeLoop_sound _ _ _ _ _ _
      (by rw [leValue_replicate]; simp) hr
    simp only [List.length_replicate] at hlen hne
    refine ⟨rfl, ?_, by simp [orBytes, hlen]⟩
    by_cases h0 : src = []
    · subst h0; simp [decodedLen]
    · have := hne (by simpa using h0)
      have hp : 0 < src.length := List.length_pos_iff.mpr h0
      simp at this
      unfold decodedLen at *
      omega

/-- C05, framing: for a source of canonical length, bytes beyond `DecodedLen` are never touched,
also when an error is returned. -/
theorem C05_frame_partial (dst src dst' : Bytes) (n m : Nat) (e : Option Err)
    (hlen : src.length = encodedLen m) (hroom : m ≤ dst.length)
    (h : decode dst src = .done n e dst') :
    dst'.drop m = dst.drop m := by
  have hdl : decodedLen src.length = m := by rw [hlen]; unfold decodedLen encodedLen; omega
  have hc : encodedLen (decodedLen src.length) = src.length := by rw [hdl, hlen]
  have hl : ∀ (mm : Nat) (rest : Bytes) (k : Nat) (d : Bytes) n e d',
      decodeLoop mm k rest d = .done n e d' → d'.length = d.length := by
    intro mm rest
    induction rest with
    | nil => intro k d n e d' h; simp [decodeLoop] at h; rw [h.2.2]
    | cons c rest ih =>
      intro k d n e d' h
      simp only [decodeLoop] at h
      split at h
      · simp at h; rw [h.2.2]
      split at h
      · simp at h; rw [h.2.2]
      split at h
      · split at h
        · simp at h
        · have := ih _ _ _ _ _ h; simpa using this
      · split at h
        · simp at h; rw [← h.2.2]; simp
        · have := ih _ _ _ _ _ h; simpa using this
  unfold decode at h
  rw [← List.take_append_drop m dst, decodeLoop_append] at h
  · cases hr : decodeLoop (decodedLen src.length) 0 src.reverse (dst.take m) with
    | panic => rw [hr] at h; simp [DecodeOut.map] at h
    | done n' e' d' =>
      rw [hr] at h
      simp [DecodeOut.map] at h
      have := hl _ _ _ _ _ _ _ hr
      simp at this
      rw [← h.2.2, List.drop_append_of_le_length (by omega)]
      rw [List.drop_eq_nil_of_le (by omega)]
      simp
  · intro k hk
    simp at hk ⊢
    have := canonical_room hc k hk
    omega
  · simp [hdl]; omega

theorem decodeLoop_length : ∀ (mm : Nat) (rest : Bytes) (k : Nat) (d : Bytes) (n : Nat) (e : Option Err) (d' : Bytes),
    decodeLoop mm k rest d = .done n e d' → d'.length = d.length := by
  intro mm rest
  induction rest with
  | nil => intro k d n e d' h; simp [decodeLoop] at h; rw [h.2.2]
  | cons c rest ih =>
    intro k d n e d' h
    simp only [decodeLoop] at h
    split at h
    · simp at h; rw [h.2.2]
    split at h
    · simp at h; rw [h.2.2]
    split at h
    · split at h
      · simp at h
      · have := ih _ _ _ _ _ h; simpa using this
    · split at h
      · simp at h; rw [← h.2.2]; simp
      · have := ih _ _ _ _ _ h; simpa using this

/-- C05, framing for every source: no byte is touched beyond the one that follows the first `DecodedLen`
bytes, and that one only when the length of the source is not an encoded length. -/
theorem C05_frame_exact (dst src dst' : Bytes) (n : Nat) (e : Option Err)
    (hroom : decodedLen src.length ≤ dst.length) (h : decode dst src = .done n e dst') :
    dst'.length = dst.length ∧ dst'.drop (decodedLen src.length + 1) = dst.drop (decodedLen src.length + 1) ∧
    (dst'.drop (decodedLen src.length) ≠ dst.drop (decodedLen src.length) → ∀ m, src.length ≠ encodedLen m) := by
  have hlen := decodeLoop_length _ _ _ _ _ _ _ h
  refine ⟨hlen, ?_, ?_⟩
  · by_cases hfull : dst.length = decodedLen src.length
    · rw [List.drop_eq_nil_of_le (by omega), List.drop_eq_nil_of_le (by omega)]
    · unfold decode at h
      rw [← List.take_append_drop (decodedLen src.length + 1) dst, decodeLoop_append] at h
      · cases hr : decodeLoop (decodedLen src.length) 0 src.reverse (dst.take (decodedLen src.length + 1)) with
        | panic => rw [hr] at h; simp [DecodeOut.map] at h
        | done n' e' d' =>
          rw [hr] at h
          simp [DecodeOut.map] at h
          have := decodeLoop_length _ _ _ _ _ _ _ hr
          simp at this
          rw [← h.2.2, List.drop_append_of_le_length (by omega)]
          rw [List.drop_eq_nil_of_le (by omega)]
          simp
      · intro k hk
        simp at hk ⊢
        unfold decodedLen at *
        omega
      · simp; omega
  · intro hne m hm
    have hdl : decodedLen src.length = m := by rw [hm]; unfold decodedLen encodedLen; omega
    rw [hdl] at hne hroom
    exact hne (C05_frame_partial dst src dst' n m e hm hroom h)

example : decode [0xf0, 7] b!"z7z" = .done 1 none [0xff, 0x7f] := by decide

/-- C05 as stated ("touches only the first DecodedLen bytes") is false for sources of
non-canonical length: the extra digit is ORed in past the end, and success is reported. -/
theorem C05_frame_refuted :
    ¬ ∀ (dst src dst' : Bytes) (n : Nat) (e : Option Err), decodedLen src.length ≤ dst.length →
      decode dst src = .done n e dst' →
        dst'.drop (decodedLen src.length) = dst.drop (decodedLen src.length) := by
  intro h
  have := h [0] b!"z" [31] 0 none (by decide) (by decide)
  exact absurd this (by decide)

/-- With a dirty buffer and a short buffer: OR, error and panic cases are all reachable. -/
example : decode [0xf0, 7] b!"0z" = .done 1 none [0xff, 7] ∧
    decode [] b!"0z" = .done 0 (some (.msg "ErrInvalidHash")) [] ∧
    decode [0] b!"zzzz" = .panic := by decide

/-- C06: `Is` is membership in the alphabet. -/
theorem C06_is_iff (c : UInt8) : Nixbase32.is c = true ↔ c ∈ nixDigits := by
  have key : ∀ n : Fin 256, (Nixbase32.is (UInt8.ofNat n) = true ↔ UInt8.ofNat n ∈ nixDigits) := by
    decide +kernel
  have := key ⟨c.toNat, c.toNat_lt⟩
  simpa using this

end Verif.Props
