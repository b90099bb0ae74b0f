import Verif.Spec.HashLooks
import Verif.Lemmas.HashText
import Verif.Props.Nixhash
import Verif.Props.Narinfo
import Verif.Lemmas.Storepath

/-!
# C102: what `nixhash.ParseAny` accepts, exactly
-/

namespace Verif.Props
open Verif.Nixhash Verif.GoLib Verif.Spec

theorem isNumeral32_unique {s t : Bytes} {u v : Nat} (hs : IsNumeral32 s u) (ht : IsNumeral32 t v)
    (hl : s.length = t.length) (huv : u = v) : s = t := by
  induction hs generalizing t v with
  | nil => cases t with
    | nil => rfl
    | cons _ _ => simp at hl
  | @snoc s u d c hs hd ih =>
    cases ht with
    | nil => simp at hl
    | @snoc t v d' c' ht hd' =>
      have b1 := (List.getElem?_eq_some_iff.1 hd).1
      have b2 := (List.getElem?_eq_some_iff.1 hd').1
      have n : nixDigits.length = 32 := by decide
      have e1 : d = d' := by omega
      have e2 : u = v := by omega
      subst e1
      rw [hd] at hd'
      simp at hd'
      rw [ih ht (by simpa using hl) e2, hd']

theorem nix32_iff (s d : Bytes) : Nixbase32.decodeString s = .ok d ↔ Nix32Text s d := by
  rw [C02_decode_iff_encode]
  obtain ⟨h1, _, h2⟩ := C03_encode_is_numeral d
  constructor
  · rintro rfl
    exact ⟨h2, by rw [h1]; omega⟩
  · rintro ⟨h3, h4⟩
    exact isNumeral32_unique h3 h2 (by rw [h4, h1]; omega) rfl

theorem decodeByLen_iff {a name n} (hrow : (a, name, n) ∈ hashAlgos) (s d : Bytes) (e : Encoding) :
    decodeByLen n s = .ok (e, d) ↔ BodyText n e s d := by
  have hn : n = 16 ∨ n = 20 ∨ n = 32 ∨ n = 64 := by
    simp only [hashAlgos, List.mem_cons, List.not_mem_nil, or_false, Prod.mk.injEq] at hrow
    rcases hrow with ⟨_, _, rfl⟩ | ⟨_, _, rfl⟩ | ⟨_, _, rfl⟩ | ⟨_, _, rfl⟩ <;> simp
  unfold decodeByLen hexEncodedLen Nixbase32.encodedLen b64EncodedLen
  constructor
  · intro h
    split at h
    · rename_i hl
      rw [Res.bind_eq_ok] at h
      obtain ⟨r, hr, h⟩ := h
      cases h
      exact .hex ((hexDecode_iff _ _).1 hr) (by omega)
    split at h
    · rename_i hl
      rw [Res.bind_eq_ok] at h
      obtain ⟨r, hr, h⟩ := h
      cases h
      have := (nix32_iff _ _).1 hr
      exact .nix32 this (by have := this.2; omega)
    split at h
    · rename_i hl
      rw [Res.bind_eq_ok] at h
      obtain ⟨r, hr, h⟩ := h
      cases h
      exact .base64 ((b64Decode_iff _ _).1 hr) (by omega)
    · simp at h
  · intro h
    cases h with
    | hex h1 h2 =>
      rw [if_pos (by omega), (hexDecode_iff _ _).2 h1]; rfl
    | nix32 h1 h2 =>
      have := h1.2
      rw [if_neg (by omega), if_pos (by omega), (nix32_iff _ _).2 h1]; rfl
    | base64 h1 h2 =>
      rw [if_neg (by omega), if_neg (by omega), if_pos (by omega), (b64Decode_iff _ _).2 h1]; rfl

/-- hash bodies have no separators in them -/
theorem bodyText_no {n : Nat} {e : UInt8} {s d : Bytes} (h : BodyText n e s d) (c : UInt8)
    (hc : c = 58 ∨ c = 45) : c ∉ s := by
  cases h with
  | hex h hlen =>
    clear hlen
    induction h with
    | nil => simp
    | cons h1 h2 _ ih =>
      have key : ∀ {x : UInt8} {v : Nat}, HexDigit x v → c ≠ x := by
        rintro x v (h | h) rfl
        · have := List.mem_of_getElem? h
          rcases hc with rfl | rfl <;> revert this <;> decide
        · have := List.mem_of_getElem? h
          rcases hc with rfl | rfl <;> revert this <;> decide
      simp only [List.mem_cons, not_or]
      exact ⟨key h1, key h2, ih⟩
  | nix32 h _ =>
    have h' := h.1
    generalize leValue d = v at h'
    clear h
    induction h' with
    | nil => simp
    | snoc _ hd ih =>
      simp only [List.mem_append, List.mem_singleton, not_or]
      refine ⟨ih, ?_⟩
      rintro rfl
      have := List.mem_of_getElem? hd
      rcases hc with rfl | rfl <;> revert this <;> decide
  | base64 h _ =>
    obtain ⟨vs, p, _, _, h3, h4, _⟩ := h
    intro hm
    have : c ∈ s.filter (fun c => c != 13 && c != 10) := by
      rw [List.mem_filter]
      exact ⟨hm, by rcases hc with rfl | rfl <;> decide⟩
    rw [h3, List.mem_append, List.mem_map, List.mem_replicate] at this
    rcases this with ⟨v, hv, e⟩ | ⟨_, e⟩
    · have hlt := h4 v hv
      have key : ∀ v : Fin 64, base64Digits.getD v.val 0 ≠ 58 ∧ base64Digits.getD v.val 0 ≠ 45 := by decide +kernel
      have := key ⟨v, hlt⟩
      rcases hc with rfl | rfl
      · exact this.1 e
      · exact this.2 e
    · rcases hc with rfl | rfl <;> simp at e

/-- C102: `ParseAny` answers digest, algorithm, encoding and "with algorithm" exactly for the texts of
`HashText`. -/
theorem C102_parse_any (s : Bytes) (known : Option Algorithm) (a : Algorithm) (d : Bytes) (e : Encoding)
    (named : Bool) :
    parseAny s known = .ok ⟨⟨a, d⟩, e, named⟩ ↔ HashText known s a d e named := by
  constructor
  · intro hp
    obtain ⟨name, n, hrow, hk, h⟩ := parseAny_ok hp
    have hk' : known = none ∨ known = some a := by
      cases known with
      | none => exact .inl rfl
      | some x => exact .inr (congrArg some (hk x rfl))
    rcases h with ⟨h1, rest, rfl, h2⟩ | ⟨h1, h2, rest, rfl, h3⟩ | ⟨h1, h2, h3⟩
    · have := HashText.colon hrow hk' ((decodeByLen_iff hrow _ _ _).1 h2)
      simp only [List.append_assoc] at this
      simp only at h1
      rw [h1]; exact this
    · have := HashText.sri hrow hk' ((decodeByLen_iff hrow _ _ _).1 h3)
      simp only [List.append_assoc] at this
      simp only at h1 h2
      rw [h1, h2]; exact this
    · simp only at h1 h2
      rw [h1]
      exact HashText.bare hrow h2 ((decodeByLen_iff hrow _ _ _).1 h3)
  · intro h
    cases h with
    | colon hrow hk hb =>
      rw [List.append_assoc]
      exact parseAny_colon hrow (by rcases hk with rfl | rfl <;> simp) ((decodeByLen_iff hrow _ _ _).2 hb)
    | sri hrow hk hb =>
      rw [List.append_assoc]
      exact parseAny_dash hrow (by rcases hk with rfl | rfl <;> simp) (bodyText_no hb 58 (.inl rfl))
        ((decodeByLen_iff hrow _ _ _).2 hb)
    | bare hrow hk hb =>
      subst hk
      exact parseAny_bare hrow (bodyText_no hb 58 (.inl rfl)) (bodyText_no hb 45 (.inr rfl))
        ((decodeByLen_iff hrow _ _ _).2 hb)

theorem indexByte_pos {s : Bytes} {c : UInt8} :
    (∃ i, indexByte s c = some (i + 1)) ↔ c ∈ s ∧ s.head? ≠ some c := by
  constructor
  · rintro ⟨i, h⟩
    obtain ⟨h1, h2⟩ := indexByte_some.1 h
    refine ⟨List.mem_of_getElem? h2, ?_⟩
    intro h3
    cases s with
    | nil => simp at h3
    | cons x s => simp at h3; subst h3; simp at h1
  · rintro ⟨h1, h2⟩
    cases h : indexByte s c with
    | none => exact absurd h1 (indexByte_none.1 h)
    | some i =>
      cases i with
      | succ i => exact ⟨i, rfl⟩
      | zero =>
        obtain ⟨_, h4⟩ := indexByte_some.1 h
        rw [← List.head?_eq_getElem?] at h4
        exact absurd h4 h2

theorem findSep_none_iff (s : Bytes) : (findSep s).1 = none ↔ ¬ LooksNamed s := by
  unfold LooksNamed
  rw [← indexByte_pos, ← indexByte_pos]
  unfold findSep
  split
  · rename_i i h; simp [h]
  · rename_i h
    split
    · rename_i i h'; simp [h']
    · rename_i h'
      simp only [true_iff, not_or, not_exists]
      exact ⟨h, h'⟩

/-- C102: `ParseAny` panics exactly when it is given an algorithm that does not exist and a text that
does not look as if it had a name of an algorithm in front. In all other cases that are not accepted it
answers an error. -/
theorem C102_panics (s : Bytes) (known : Option Algorithm) :
    parseAny s known = .panic ↔
      ∃ a, known = some a ∧ (∀ name n, (a, name, n) ∉ hashAlgos) ∧ ¬ LooksNamed s := by
  have dec : ∀ n s, decodeByLen n s ≠ .panic := by
    intro n s
    unfold decodeByLen
    repeat' split
    · exact bind_ne_panic (hexDecode_ne_panic _) (by simp)
    · exact bind_ne_panic (Storepath.decodeString_ne_panic _) (by simp)
    · exact bind_ne_panic (b64Decode_ne_panic _) (by simp)
    · simp
  have fin : ∀ (a : Algorithm) (incl : Bool) (body : Bytes) (n : Nat), funcSize a = .ok n →
      (do let n ← funcSize a
          let ed ← decodeByLen n body
          if (findSep s).2 then
            if ed.1 = Base64 then Res.ok (⟨⟨a, ed.2⟩, SRI, incl⟩ : HashWithEncoding)
            else .err (.msg "invalid encoding for SRI")
          else .ok ⟨⟨a, ed.2⟩, ed.1, incl⟩) ≠ Res.panic := by
    intro a incl body n h
    rw [h]
    refine bind_ne_panic (by simp) fun _ _ => bind_ne_panic (dec _ _) fun _ _ => ?_
    repeat' split
    all_goals simp
  rw [← findSep_none_iff]
  cases hs : (findSep s).1 with
  | some i =>
    simp only [reduceCtorEq, and_false, exists_false, iff_false]
    unfold parseAny
    rw [hs]
    cases hp : parsePrefix s known (some i) with
    | ok p =>
      obtain ⟨al, incl, body⟩ := p
      obtain ⟨h1, _⟩ := parsePrefix_some hp
      obtain ⟨n, hrow⟩ := parseAlgorithm_ok h1
      exact fin al incl body n (row_of_mem hrow).size
    | err e => simp
    | panic =>
      exfalso
      unfold parsePrefix at hp
      simp only at hp
      split at hp
      · split at hp
        · split at hp <;> simp at hp
        · simp at hp
      · simp at hp
      · rename_i h
        unfold parseAlgorithm at h
        repeat' split at h
        all_goals simp at h
  | none =>
    cases known with
    | none => simp [parseAny, hs, parsePrefix]
    | some a =>
      simp only [Option.some.injEq, and_true, exists_eq_left']
      unfold parseAny
      rw [hs]
      simp only [parsePrefix, Res.bind_ok]
      constructor
      · intro h name n hrow
        exact fin a false s n (row_of_mem hrow).size h
      · intro h
        rw [funcSize_unknown h]; rfl

/-- C102, consequence: the answer is determined by the text (given the known algorithm). -/
theorem C102_unique {s : Bytes} {known : Option Algorithm} {a a' : Algorithm} {d d' : Bytes}
    {e e' : Encoding} {n n' : Bool} (h : HashText known s a d e n) (h' : HashText known s a' d' e' n') :
    a = a' ∧ d = d' ∧ e = e' ∧ n = n' := by
  rw [← C102_parse_any] at h h'
  rw [h] at h'
  simp at h'
  exact ⟨h'.1.1, h'.1.2, h'.2.1, h'.2.2⟩

/-- a text with digits of both cases, one with a line feed and missing padding, one that panics -/
example :
    HashText none b!"md5:AaaaaaaaaaaaaaaaaaaaaaaaaaaaaaaF" MD5 (List.replicate 15 0xaa ++ [0xaf]) Base16 true ∧
    HashText none (b!"sha256-" ++ List.replicate 40 65 ++ [10, 10, 10, 10]) SHA256 (List.replicate 30 0) SRI true ∧
    parseAny [] (some 9) = .panic ∧ ¬ LooksNamed b!":" :=
  ⟨(C102_parse_any _ _ _ _ _ _).1 (by decide +kernel), (C102_parse_any _ _ _ _ _ _).1 (by decide +kernel),
    by decide, by unfold LooksNamed; decide⟩

/-- C11: `MustParseNixBase32` returns the same hashes, and panics on every other text; `ParseNixBase32` itself never panics. -/
theorem C11_must_parse (s : Bytes) :
    (∀ h : Hash, mustParseNixBase32 s = .ok h ↔
      ∃ name n, (h.algo, name, n) ∈ hashAlgos ∧ h.digest.length = n ∧ s = name ++ b!":" ++ Nixbase32.encodeToString h.digest) ∧
    ((¬ ∃ a name n d, (a, name, n) ∈ hashAlgos ∧ d.length = n ∧ s = name ++ b!":" ++ Nixbase32.encodeToString d) →
      mustParseNixBase32 s = .panic ∧ ∃ e, parseNixBase32 s = .err e) := by
  have hp : parseNixBase32 s ≠ .panic := by
    unfold parseNixBase32
    refine bind_ne_panic (fun h => ?_) fun h _ => ?_
    · simpa using (C102_panics s none).1 h
    · split <;> simp
  constructor
  · intro h
    rw [← C11_parseNixBase32_iff s h.algo h.digest]
    unfold mustParseNixBase32
    cases hq : parseNixBase32 s with
    | ok h' => simp
    | err e => simp
    | panic => simp
  · intro hn
    unfold mustParseNixBase32
    cases hq : parseNixBase32 s with
    | ok h => exact absurd ((C11_parseNixBase32_iff s h.algo h.digest).1 hq) (fun ⟨name, n, h1, h2, h3⟩ => hn ⟨_, name, n, _, h1, h2, h3⟩)
    | err e => exact ⟨rfl, e, rfl⟩
    | panic => exact absurd hq hp

example : mustParseNixBase32 b!"md5:0" = .panic := by decide +kernel

end Verif.Props
