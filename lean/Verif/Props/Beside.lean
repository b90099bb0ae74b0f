import Verif.Model.Beside
import Verif.Props.HashText
import Verif.Props.Nixbase32Mem
import Verif.Props.DrvGrammar

/-!
# C145: what is returned beside an error
-/

namespace Verif.Props
open Verif.GoLib Verif.Wire Verif.Derivation Verif.Nixhash Verif.Spec

/-- C145, `ReadDerivation`: the error is nil exactly if the call succeeds in the sense of the other theorems (C99),
and then the pointer is the derivation. Beside an error there is a derivation exactly if the text could be parsed
but the derivation is refused by `Validate`; then the error is that of `Validate`. -/
theorem C145_read (jsonName : Bytes → Res (Option Bytes)) (s : Stream) :
    (∀ d, readDerivationPair jsonName s = .ok (some d, none) ↔ readDerivation jsonName s = .ok d) ∧
    (readDerivationPair jsonName s ≠ .ok (none, none)) ∧
    (∀ e, (∃ v, readDerivationPair jsonName s = .ok (v, some e)) ↔ readDerivation jsonName s = .err e) ∧
    (∀ d e, readDerivationPair jsonName s = .ok (some d, some e) ↔
      s.term = .eof ∧ parseDerivation jsonName s.data = .ok d ∧ d.validate = .err e) ∧
    (∀ e, readDerivationPair jsonName s ≠ .err e) ∧
    (readDerivationPair jsonName s = .panic ↔ readDerivation jsonName s = .panic) := by
  unfold readDerivationPair readDerivation
  by_cases ht : s.term = .eof
  · rw [if_neg (by simp [ht]), if_neg (by simp [ht])]
    cases hp : parseDerivation jsonName s.data with
    | err e => simp [Res.bind_err]
    | panic => simp [Res.bind_panic]
    | ok d =>
      cases hv : d.validate with
      | ok u => simp [Res.bind_ok, ht, hv]; intro d' e h1 h2; subst h1; rw [hv] at h2; simp at h2
      | err e =>
        simp only [Res.bind_ok, hv, Res.bind_err]
        refine ⟨by simp, by simp, by simp, ?_, by simp, by simp⟩
        intro d' e'
        simp only [Res.ok.injEq, Prod.mk.injEq, Option.some.injEq]
        constructor
        · rintro ⟨rfl, rfl⟩; exact ⟨ht, rfl, hv⟩
        · rintro ⟨_, rfl, h⟩; rw [hv] at h; exact ⟨rfl, by simpa using h⟩
      | panic =>
        simp only [Res.bind_ok, hv, Res.bind_panic]
        refine ⟨by simp, by simp, by simp, ?_, by simp, by simp⟩
        intro d' e'
        simp only [reduceCtorEq, false_iff, Res.ok.injEq]
        rintro ⟨_, rfl, h⟩
        rw [hv] at h
        simp at h
  · simp [ht]

/-- C145: `ReadDerivation` does return derivations beside an error, here one without a builder. -/
theorem C145_refuted : ∃ d e, readDerivationPair (fun _ => .panic)
    ⟨b!"Derive([(\"out\",\"/nix/store/" ++ dHash ++ b!"-a\",\"\",\"\")],[],[],\"x\",\"\",[],[(\"name\",\"a\")])", .eof⟩ =
      .ok (some d, some e) ∧ d.validate = .err e := by
  refine ⟨{ laxDrv with builder := [] }, .msg "required attribute 'builder' missing", ?_, ?_⟩ <;> decide +kernel

theorem decodeString_of_full {s d : Bytes} {e : Err} (h : Nixbase32.decodeStringFull s = .ok (d, some e)) :
    Nixbase32.decodeString s = .err e := by
  unfold Nixbase32.decodeStringFull at h
  unfold Nixbase32.decodeString
  cases hd : Nixbase32.decode (List.replicate (Nixbase32.decodedLen s.length) 0) s with
  | panic => simp [hd] at h
  | done n er dst =>
    simp only [hd] at h
    split at h
    · simp at h
    · simp only [Res.ok.injEq, Prod.mk.injEq] at h
      rw [h.2]

/-- What hexadecimal decoding leaves: the bytes of the longest beginning of whole pairs that can be decoded. -/
theorem hexPrefix_spec : ∀ s : Bytes, hexDecode (s.take (2 * (hexPrefix s).length)) = .ok (hexPrefix s) ∧
    ∀ m, (hexPrefix s).length < m → 2 * m ≤ s.length → ∃ e, hexDecode (s.take (2 * m)) = .err e := by
  intro s
  induction s using hexPrefix.induct with
  | case1 a b rest d hd ih =>
    have hx : ∃ x y, hexVal a = some x ∧ hexVal b = some y ∧ d = [UInt8.ofNat (x * 16 + y)] := by
      simp only [hexDecode] at hd
      split at hd
      · rename_i x y hx hy
        simp only [hexDecode, Res.bind_ok, Res.ok.injEq] at hd
        exact ⟨x, y, hx, hy, hd.symm⟩
      · simp at hd
    obtain ⟨x, y, hx, hy, rfl⟩ := hx
    have hp : hexPrefix (a :: b :: rest) = UInt8.ofNat (x * 16 + y) :: hexPrefix rest := by
      rw [hexPrefix]; simp [hd]
    rw [hp]
    refine ⟨?_, ?_⟩
    · rw [show 2 * (UInt8.ofNat (x * 16 + y) :: hexPrefix rest).length = 2 * (hexPrefix rest).length + 1 + 1 by simp; omega]
      simp only [List.take_succ_cons, hexDecode, hx, hy, ih.1, Res.bind_ok]
    · intro m hm hl
      obtain ⟨m, rfl⟩ : ∃ m', m = m' + 1 := ⟨m - 1, by simp at hm; omega⟩
      simp at hm hl
      obtain ⟨e, he⟩ := ih.2 m (by omega) (by omega)
      refine ⟨e, ?_⟩
      rw [show 2 * (m + 1) = 2 * m + 1 + 1 by omega]
      simp only [List.take_succ_cons, hexDecode, hx, hy, he, Res.bind_err]
  | case2 a b rest hd =>
    have hp : hexPrefix (a :: b :: rest) = [] := by
      rw [hexPrefix]; split
      · rename_i d h; exact absurd h (hd d)
      · rfl
    rw [hp]
    refine ⟨by simp [hexDecode], ?_⟩
    intro m hm hl
    obtain ⟨m, rfl⟩ : ∃ m', m = m' + 1 := ⟨m - 1, by simp at hm; omega⟩
    rw [show 2 * (m + 1) = 2 * m + 1 + 1 by omega]
    simp only [List.take_succ_cons, hexDecode]
    split
    · rename_i x y hx hy
      exact absurd (by simp [hexDecode, hx, hy]) (hd [UInt8.ofNat (x * 16 + y)])
    · exact ⟨_, rfl⟩
  | case3 t ht =>
    have hp : hexPrefix t = [] := by
      rw [hexPrefix]
      intro a b rest h
      exact ht a b rest h
    rw [hp]
    refine ⟨by simp [hexDecode], ?_⟩
    intro m hm hl
    match t, ht with
    | [], _ => simp at hl hm; omega
    | [_], _ => simp at hl hm; omega
    | a :: b :: r, ht => exact absurd rfl (ht a b r)

/-- What decoding leaves in the hash: everything if it succeeds. In hexadecimal the bytes of the longest beginning of
whole pairs of digits, in Nix base 32 what `DecodeString` returns (C05), in base 64 what the standard library returns. -/
def LeftOver (junk : Bytes → Bytes) (n : Nat) (s d : Bytes) : Prop :=
  (s.length = n * 2 → hexDecode (s.take (2 * d.length)) = .ok d ∧
    ∀ m, d.length < m → m ≤ n → ∃ e, hexDecode (s.take (2 * m)) = .err e) ∧
  (s.length = (n * 8 + 4) / 5 → ∃ e, Nixbase32.decodeStringFull s = .ok (d, e)) ∧
  (s.length = (n + 2) / 3 * 4 → b64Decode s = .ok d ∨ (∃ e, b64Decode s = .err e) ∧ d = junk s) ∧
  (s.length ∉ [n * 2, (n * 8 + 4) / 5, (n + 2) / 3 * 4] → d = [])

theorem decodeByLenPair_left {junk : Bytes → Bytes} {n : Nat} {s : Bytes} {enc : Encoding} {d : Bytes} {e : Option Err}
    (hn : n * 2 ≠ (n * 8 + 4) / 5 ∧ n * 2 ≠ (n + 2) / 3 * 4 ∧ (n * 8 + 4) / 5 ≠ (n + 2) / 3 * 4)
    (h : decodeByLenPair junk n s = .ok (enc, d, e)) : LeftOver junk n s d := by
  unfold decodeByLenPair at h
  unfold LeftOver
  have e1 : hexEncodedLen n = n * 2 := rfl
  have e2 : Nixbase32.encodedLen n = (n * 8 + 4) / 5 := rfl
  have e3 : b64EncodedLen n = (n + 2) / 3 * 4 := rfl
  obtain ⟨n1, n2, n3⟩ := hn
  by_cases h1 : s.length = hexEncodedLen n
  · rw [if_pos h1] at h
    refine ⟨fun _ => ?_, fun h2 => by omega, fun h2 => by omega, fun h2 => by simp [h1, e1] at h2⟩
    cases hd : hexDecode s with
    | ok b =>
      simp only [hd, Res.ok.injEq, Prod.mk.injEq] at h
      obtain ⟨-, rfl, -⟩ := h
      have hl := hexDecode_length hd
      refine ⟨?_, fun m hm hl' => by omega⟩
      rw [List.take_of_length_le (by omega)]
      exact hd
    | err e =>
      simp only [hd, Res.ok.injEq, Prod.mk.injEq] at h
      obtain ⟨-, rfl, -⟩ := h
      exact ⟨(hexPrefix_spec s).1, fun m hm hl' => (hexPrefix_spec s).2 m hm (by omega)⟩
    | panic => simp [hd] at h
  · rw [if_neg h1] at h
    by_cases h2 : s.length = Nixbase32.encodedLen n
    · rw [if_pos h2] at h
      refine ⟨fun h => by omega, fun _ => ?_, fun h => by omega, fun h3 => by simp [h2, e2] at h3⟩
      cases hd : Nixbase32.decodeStringFull s with
      | ok p =>
        obtain ⟨b, e'⟩ := p
        simp only [hd, Res.ok.injEq, Prod.mk.injEq] at h
        obtain ⟨-, rfl, rfl⟩ := h
        exact ⟨_, rfl⟩
      | err e => simp [hd] at h
      | panic => simp [hd] at h
    · rw [if_neg h2] at h
      by_cases h3 : s.length = b64EncodedLen n
      · rw [if_pos h3] at h
        refine ⟨fun h => by omega, fun h => by omega, fun _ => ?_, fun h4 => by simp [h3, e3] at h4⟩
        cases hd : b64Decode s with
        | ok b =>
          simp only [hd, Res.ok.injEq, Prod.mk.injEq] at h
          rw [h.2.1]; exact .inl rfl
        | err e =>
          simp only [hd, Res.ok.injEq, Prod.mk.injEq] at h
          exact .inr ⟨⟨e, rfl⟩, h.2.1.symm⟩
        | panic => simp [hd] at h
      · rw [if_neg h3] at h
        simp only [Res.ok.injEq, Prod.mk.injEq] at h
        refine ⟨fun h => by omega, fun h => by omega, fun h => by omega, fun _ => h.2.1.symm⟩

/-- The pair of the decoding by length, from the decoding. -/
theorem decodeByLenPair_eq (junk : Bytes → Bytes) (n : Nat) (s : Bytes) :
    (∀ enc d, decodeByLenPair junk n s = .ok (enc, d, none) ↔ decodeByLen n s = .ok (enc, d)) ∧
    ((∃ enc d e, decodeByLenPair junk n s = .ok (enc, d, some e)) ↔ ∃ e, decodeByLen n s = .err e) ∧
    (∃ enc d e, decodeByLenPair junk n s = .ok (enc, d, e) ∧
      (enc = 0 ↔ s.length ≠ hexEncodedLen n ∧ s.length ≠ Nixbase32.encodedLen n ∧ s.length ≠ b64EncodedLen n) ∧
      (enc = 0 ∨ enc = Base16 ∨ enc = NixBase32 ∨ enc = Base64)) := by
  unfold decodeByLenPair decodeByLen
  split
  next h =>
    cases hd : hexDecode s with
    | ok d => simp [h]; decide
    | err e => simp [h]; decide
    | panic => exact absurd hd (hexDecode_ne_panic _)
  next h =>
    split
    next h2 =>
      obtain ⟨d, e, hd, -, he⟩ := C05_string s
      cases e with
      | none =>
        have := (C02_decode_iff_encode s d).2 (he.1 rfl)
        rw [hd, this]
        simp [h2]
        decide
      | some e =>
        rw [decodeString_of_full hd, hd]
        simp [h2]
        decide
    next h2 =>
      split
      next h3 =>
        cases hd : b64Decode s with
        | ok d => simp [h3]; decide
        | err e => simp [h3]; decide
        | panic => exact absurd hd (b64Decode_ne_panic _)
      next h3 => simp [h, h2, h3]

theorem funcSize_ne_err (a : Algorithm) (e : Err) : funcSize a ≠ .err e := by
  unfold funcSize
  intro h
  split at h
  · simp at h
  split at h
  · simp at h
  split at h
  · simp at h
  split at h <;> simp at h

theorem string_panic {h : HashWithEncoding} {name : Bytes} {n : Nat} (hr : (h.hash.algo, name, n) ∈ hashAlgos)
    (he : h.encoding = 0 ∨ h.encoding = Base16 ∨ h.encoding = NixBase32 ∨ h.encoding = Base64) :
    h.string = .panic ↔ h.encoding = 0 := by
  have ha := (row_of_mem hr).str
  obtain ⟨⟨algo, d⟩, enc, incl⟩ := h
  simp only at hr he ha ⊢
  simp only [HashWithEncoding.string, Hash.format, ha]
  rcases he with rfl | rfl | rfl | rfl <;> cases incl <;> simp [SRI, Base16, NixBase32, Base64]

/-- C145, `ParseAny`: the error is nil exactly if the call succeeds in the sense of the other theorems (C102), and then
the pointer is the hash. Beside an error there may be a hash that is only filled in partly: its algorithm is the one
that the text names, or the expected one; its `String` panics exactly if the length of the text after the name is that
of no encoding of a digest of that algorithm; its digest is what decoding left (`LeftOver`). -/
theorem C145_hash (junk : Bytes → Bytes) (s : Bytes) (known : Option Algorithm) :
    (∀ h, parseAnyPair junk s known = .ok (some h, none) ↔ parseAny s known = .ok h) ∧
    (parseAnyPair junk s known ≠ .ok (none, none)) ∧
    ((∃ v e, parseAnyPair junk s known = .ok (v, some e)) ↔ ∃ e, parseAny s known = .err e) ∧
    (∀ h e, parseAnyPair junk s known = .ok (some h, some e) → ∃ name n rest, (h.hash.algo, name, n) ∈ hashAlgos ∧
      (∀ a, known = some a → h.hash.algo = a) ∧
      ((known ≠ none ∧ s = rest) ∨ s = name ++ b!":" ++ rest ∨ s = name ++ b!"-" ++ rest) ∧
      (h.string = .panic ↔ rest.length ∉ [n * 2, (n * 8 + 4) / 5, (n + 2) / 3 * 4]) ∧
      LeftOver junk n rest h.hash.digest) ∧
    (parseAnyPair junk s known = .panic ↔ parseAny s known = .panic) ∧
    (∀ e, parseAnyPair junk s known ≠ .err e) := by
  unfold parseAnyPair parseAny
  cases hp : parsePrefix s known (findSep s).1 with
  | err e => simp
  | panic => simp
  | ok p =>
    obtain ⟨algo, incl, rest⟩ := p
    simp only [Res.bind_ok]
    cases hn : funcSize algo with
    | err e => exact absurd hn (funcSize_ne_err _ _)
    | panic => simp
    | ok n =>
      simp only [Res.bind_ok]
      have hfacts : ∃ name, (algo, name, n) ∈ hashAlgos ∧ (∀ a, known = some a → algo = a) ∧
          ((known ≠ none ∧ s = rest) ∨ s = name ++ b!":" ++ rest ∨ s = name ++ b!"-" ++ rest) := by
        rcases hs : findSep s with ⟨sep, sri⟩
        rw [hs] at hp
        simp only at hp
        cases sep with
        | none =>
          cases known with
          | none => simp [parsePrefix] at hp
          | some a =>
            simp [parsePrefix] at hp
            obtain ⟨rfl, rfl, rfl⟩ := hp
            obtain ⟨name, hrow⟩ := funcSize_ok hn
            exact ⟨name, hrow, by simp, .inl ⟨by simp, rfl⟩⟩
        | some i =>
          obtain ⟨hal, rfl, rfl, hopt⟩ := parsePrefix_some hp
          obtain ⟨sepc, hs1, hil, hsepc⟩ := findSep_some hs
          obtain ⟨n', hrow⟩ := parseAlgorithm_ok hal
          have hnn : n' = n := Res.ok.inj ((row_of_mem hrow).size.symm.trans hn)
          subst hnn
          refine ⟨_, hrow, fun a h => (hopt a h).symm, ?_⟩
          cases sri with
          | false =>
            simp only [Bool.false_eq_true, if_false] at hsepc
            subst hsepc
            exact .inr (.inl (by simpa using hs1))
          | true =>
            simp only [if_true] at hsepc
            subst hsepc
            exact .inr (.inr (by simpa using hs1))
      obtain ⟨name, hrow, hk, htext⟩ := hfacts
      obtain ⟨h1, h2, enc, d, e, h3, h4, h5⟩ := decodeByLenPair_eq junk n rest
      have hleft := decodeByLenPair_left (by
        simp only [hashAlgos, List.mem_cons, List.not_mem_nil, or_false, Prod.mk.injEq] at hrow
        rcases hrow with ⟨-, -, rfl⟩ | ⟨-, -, rfl⟩ | ⟨-, -, rfl⟩ | ⟨-, -, rfl⟩ <;> decide) h3
      have fin : ∀ h : HashWithEncoding, h.hash.algo = algo → h.encoding = enc → h.hash.digest = d →
          ∃ name n rest, (h.hash.algo, name, n) ∈ hashAlgos ∧ (∀ a, known = some a → h.hash.algo = a) ∧
          ((known ≠ none ∧ s = rest) ∨ s = name ++ b!":" ++ rest ∨ s = name ++ b!"-" ++ rest) ∧
          (h.string = .panic ↔ rest.length ∉ [n * 2, (n * 8 + 4) / 5, (n + 2) / 3 * 4]) ∧
          LeftOver junk n rest h.hash.digest := by
        rintro h rfl rfl rfl
        refine ⟨name, n, rest, hrow, hk, htext, ?_, hleft⟩
        rw [string_panic hrow h5, h4]
        simp [hexEncodedLen, Nixbase32.encodedLen, b64EncodedLen]
      cases e with
      | none =>
        rw [h3, (h1 enc d).1 h3]
        simp only [Res.bind_ok]
        split
        · split
          · simp
          · refine ⟨by simp, by simp, by simp, ?_, by simp, by simp⟩
            intro h e he
            simp only [Res.ok.injEq, Prod.mk.injEq, Option.some.injEq] at he
            rw [← he.1]
            exact fin _ rfl rfl rfl
        · simp
      | some e =>
        obtain ⟨e', he'⟩ := h2.1 ⟨_, _, _, h3⟩
        rw [h3, he']
        refine ⟨by simp, by simp, by simp, ?_, by simp, by simp⟩
        intro h e he
        simp only [Res.ok.injEq, Prod.mk.injEq, Option.some.injEq] at he
        rw [← he.1]
        exact fin _ rfl rfl rfl

/-- C145: the hash that `ParseAny` returns beside an error may panic when it is printed. -/
theorem C145_hash_refuted (junk : Bytes → Bytes) : ∃ h e, parseAnyPair junk b!"sha256:00" none = .ok (some h, some e) ∧
    h.string = .panic :=
  ⟨⟨⟨SHA256, []⟩, 0, true⟩, .msg "unknown encoding", rfl, by decide +kernel⟩

/-- A hash in base 16 with a wrong last digit: the digest beside the error is a byte short; printing it works. -/
example : ∃ h e, parseAnyPair (fun _ => []) (b!"md5:" ++ List.replicate 31 48 ++ b!"x") none = .ok (some h, some e) ∧
      h.hash.digest = List.replicate 15 0 ∧ h.string ≠ .panic :=
  ⟨⟨⟨MD5, List.replicate 15 0⟩, Base16, true⟩, _, rfl, by decide +kernel, by decide +kernel⟩

/-- A text that is read without an error. -/
example : readDerivationPair (fun _ => .panic)
    ⟨b!"Derive([(\"out\",\"/nix/store/" ++ dHash ++ b!"-a\",\"\",\"\")],[],[],\"x\",\"y\",[],[(\"name\",\"a\")])", .eof⟩ =
      .ok (some laxDrv, none) := by
  decide +kernel

end Verif.Props
