import Verif.Lemmas.Nixhash

/-!
# Properties of `pkg/nixhash` (C07 - C12)
-/

namespace Verif.Props
open Verif Verif.Nixhash Verif.Spec Verif.GoLib

/-- C07: printing with the algorithm prefix and parsing gives the hash back (with or without the
matching expected algorithm); so does printing without prefix and parsing with the expected
algorithm. -/
theorem C07_parse_format (a : Algorithm) (name : Bytes) (n : Nat) (d : Bytes) (e : Encoding)
    (hrow : (a, name, n) ∈ hashAlgos) (hd : d.length = n) (he : e ∈ hashEncodings) :
    (∃ s, Hash.format ⟨a, d⟩ e true = .ok s ∧
      parseAny s none = .ok ⟨⟨a, d⟩, e, true⟩ ∧ parseAny s (some a) = .ok ⟨⟨a, d⟩, e, true⟩) ∧
    (e ≠ SRI → ∃ s, Hash.format ⟨a, d⟩ e false = .ok s ∧
      parseAny s (some a) = .ok ⟨⟨a, d⟩, e, false⟩) := by
  have r := row_of_mem hrow
  have hopt : ∀ x, (none : Option Algorithm) = some x → x = a := by simp
  have hopt' : ∀ x, some a = some x → x = a := by intro x h; exact (Option.some.inj h).symm
  by_cases hs : e = SRI
  · subst hs
    refine ⟨⟨name ++ 45 :: body SRI d, by rw [format_eq hrow d _ he]; simp, ?_, ?_⟩, by simp⟩
    · exact parseAny_dash hrow hopt (body_no58 _ _)
        (decodeByLen_body r Base64 d hd (.inr (.inr rfl)))
    · exact parseAny_dash hrow hopt' (body_no58 _ _)
        (decodeByLen_body r Base64 d hd (.inr (.inr rfl)))
  · have he' : e = Base16 ∨ e = NixBase32 ∨ e = Base64 := by
      simp only [hashEncodings, List.mem_cons, List.not_mem_nil, or_false] at he
      rcases he with rfl | rfl | rfl | rfl
      · exact .inl rfl
      · exact .inr (.inr rfl)
      · exact .inr (.inl rfl)
      · exact absurd rfl hs
    have hdec := decodeByLen_body r e d hd he'
    refine ⟨⟨name ++ 58 :: body e d, by rw [format_eq hrow d _ he]; simp [hs], ?_, ?_⟩, fun _ => ?_⟩
    · exact parseAny_colon hrow hopt hdec
    · exact parseAny_colon hrow hopt' hdec
    · exact ⟨body e d, by rw [format_eq hrow d _ he]; simp [hs],
        parseAny_bare hrow (body_no58 _ _) (body_no45 _ _) hdec⟩

example : (SHA1, b!"sha1", 20) ∈ hashAlgos ∧ (List.replicate 20 (7 : UInt8)).length = 20 ∧
    SRI ∈ hashEncodings := by decide

/-- C08 is false: 44 base64 characters without padding are accepted as a SHA-256 hash of 33
bytes. -/
theorem C08_refuted :
    ¬ ∀ (s : Bytes) (opt : Option Algorithm) (h : HashWithEncoding) (name : Bytes) (n : Nat),
      parseAny s opt = .ok h → (h.hash.algo, name, n) ∈ hashAlgos → h.hash.digest.length = n := by
  intro H
  have := H (b!"sha256:" ++ List.replicate 44 65) none
    ⟨⟨SHA256, List.replicate 33 0⟩, Base64, true⟩ b!"sha256" 32 (by decide +kernel) (by decide)
  exact absurd this (by decide)

/-- A second way in which C08 fails: newlines count towards the length but are skipped by the
base64 decoder, giving a digest that is too short. -/
theorem C08_refuted_newlines :
    parseAny (b!"sha256-" ++ List.replicate 40 65 ++ [10, 10, 10, 10]) none =
      .ok ⟨⟨SHA256, List.replicate 30 0⟩, SRI, true⟩ := by decide +kernel

/-- C08, exactly: the algorithm is one of the four; hexadecimal and nixbase32 digests always have the
algorithm's size; a base64 (or SRI) digest has it if and only if the text contains no carriage return and
no line feed, and the number of `=` is the canonical one. -/
theorem C08_exact (s : Bytes) (opt : Option Algorithm) (h : HashWithEncoding)
    (hp : parseAny s opt = .ok h) :
    ∃ name n, (h.hash.algo, name, n) ∈ hashAlgos ∧ h.encoding ∈ hashEncodings ∧
      (h.encoding = Base16 ∨ h.encoding = NixBase32 → h.hash.digest.length = n) ∧
      (h.encoding = Base64 ∨ h.encoding = SRI →
        (h.hash.digest.length = n ↔ (10 : UInt8) ∉ s ∧ (13 : UInt8) ∉ s ∧ s.count 61 = (3 - n % 3) % 3)) := by
  obtain ⟨name, n, hrow, _, hc⟩ := parseAny_ok hp
  have r := row_of_mem hrow
  -- facts about the decoded body, whatever precedes it
  have key : ∀ rest e, decodeByLen n rest = .ok (e, h.hash.digest) →
      (e = Base16 ∨ e = NixBase32 → h.hash.digest.length = n) ∧
      (e = Base64 →
        (h.hash.digest.length = n ↔ (10 : UInt8) ∉ rest ∧ (13 : UInt8) ∉ rest ∧ rest.count 61 = (3 - n % 3) % 3)) := by
    intro rest e hdec
    unfold decodeByLen at hdec
    split at hdec
    · rename_i hl
      rw [Res.bind_eq_ok] at hdec; obtain ⟨d, hd, he⟩ := hdec
      simp at he; obtain ⟨rfl, rfl⟩ := he
      have := hexDecode_length hd
      refine ⟨fun _ => ?_, fun h => absurd h (by decide)⟩
      unfold hexEncodedLen at hl; omega
    split at hdec
    · rename_i hl
      rw [Res.bind_eq_ok] at hdec; obtain ⟨d, hd, he⟩ := hdec
      simp at he; obtain ⟨rfl, rfl⟩ := he
      have := (Nixbase32.decodeString_iff _ _).mp hd
      refine ⟨fun _ => ?_, fun h => absurd h (by decide)⟩
      have := this.1
      unfold Nixbase32.encodedLen at *
      omega
    split at hdec
    · rename_i hl
      rw [Res.bind_eq_ok] at hdec; obtain ⟨d, hd, he⟩ := hdec
      simp at he; obtain ⟨rfl, rfl⟩ := he
      refine ⟨fun h => absurd h (by decide), fun _ => ?_⟩
      unfold b64Decode at hd
      have hq := b64Quads_length hd
      unfold b64EncodedLen at hl
      by_cases hnl : (10 : UInt8) ∉ rest ∧ (13 : UInt8) ∉ rest
      · rw [filter_crlf hnl.1 hnl.2] at hq
        simp only [hnl.1, hnl.2, not_false_eq_true, true_and]
        omega
      · have hlt : (rest.filter fun c => c != 10 && c != 13).length < rest.length := by
          refine Nat.lt_of_le_of_ne (List.length_filter_le _ _) fun e => hnl ?_
          rw [List.length_filter_eq_length_iff] at e
          exact ⟨fun m => absurd (e _ m) (by decide), fun m => absurd (e _ m) (by decide)⟩
        constructor
        · intro h; omega
        · rintro ⟨a, b, _⟩; exact absurd ⟨a, b⟩ hnl
    · simp at hdec
  have count_name : ∀ c ∈ hashAlgos, c.2.1.count 61 = 0 := by decide
  have nl_name : ∀ c ∈ hashAlgos, (10 : UInt8) ∉ c.2.1 ∧ (13 : UInt8) ∉ c.2.1 := by decide
  have noNl : (10 : UInt8) ∉ name ∧ (13 : UInt8) ∉ name := nl_name _ hrow
  have hcn : name.count 61 = 0 := count_name _ hrow
  have encmem : ∀ e : Encoding, e = Base16 ∨ e = NixBase32 ∨ e = Base64 → e ∈ hashEncodings := by
    rintro e (rfl | rfl | rfl) <;> decide
  refine ⟨name, n, hrow, ?_⟩
  rcases hc with ⟨_, rest, rfl, hdec⟩ | ⟨_, hE, rest, rfl, hdec⟩ | ⟨_, _, hdec⟩
  · obtain ⟨k1, k2⟩ := key _ _ hdec
    have hne := decodeByLen_enc hdec
    refine ⟨encmem _ hne, k1, fun he => ?_⟩
    have hb : h.encoding = Base64 := by
      rcases he with he | he
      · exact he
      · rw [he] at hne; exact absurd hne (by decide)
    rw [k2 hb, List.count_append, hcn, List.count_cons_of_ne (by decide)]
    simp [noNl.1, noNl.2]
  · obtain ⟨k1, k2⟩ := key _ _ hdec
    refine ⟨by rw [hE]; decide, fun h => by rw [hE] at h; exact absurd h (by decide), fun _ => ?_⟩
    rw [k2 rfl, List.count_append, hcn, List.count_cons_of_ne (by decide)]
    simp [noNl.1, noNl.2]
  · obtain ⟨k1, k2⟩ := key _ _ hdec
    have hne := decodeByLen_enc hdec
    refine ⟨encmem _ hne, k1, fun he => ?_⟩
    have hb : h.encoding = Base64 := by
      rcases he with he | he
      · exact he
      · rw [he] at hne; exact absurd hne (by decide)
    exact k2 hb

/-- C08, the part that holds as stated. -/
theorem C08_digest_size_partial (s : Bytes) (opt : Option Algorithm) (h : HashWithEncoding)
    (hp : parseAny s opt = .ok h) :
    ∃ name n, (h.hash.algo, name, n) ∈ hashAlgos ∧ h.encoding ∈ hashEncodings ∧
      (h.encoding = Base16 ∨ h.encoding = NixBase32 → h.hash.digest.length = n) ∧
      ((10 : UInt8) ∉ s → (13 : UInt8) ∉ s → h.encoding = Base64 ∨ h.encoding = SRI →
        (h.hash.digest.length = n ↔ s.count 61 = (3 - n % 3) % 3)) := by
  obtain ⟨name, n, h1, h2, h3, h4⟩ := C08_exact s opt h hp
  exact ⟨name, n, h1, h2, h3, fun a b he => by rw [h4 he]; simp [a, b]⟩

example : parseAny b!"md5:d41d8cd98f00b204e9800998ecf8427e" none =
    .ok ⟨⟨MD5, [0xd4, 0x1d, 0x8c, 0xd9, 0x8f, 0, 0xb2, 4, 0xe9, 0x80, 9, 0x98, 0xec, 0xf8, 0x42,
      0x7e]⟩, Base16, true⟩ := by decide +kernel

/-- C09: the expected algorithm is enforced; without one, the text itself names it. -/
theorem C09_algo_enforced (s : Bytes) (opt : Option Algorithm) (h : HashWithEncoding)
    (hp : parseAny s opt = .ok h) :
    (∀ a, opt = some a → h.hash.algo = a) ∧
    (h.includeAlgo = true ↔ ∃ a name n rest, (a, name, n) ∈ hashAlgos ∧
      (s = name ++ 58 :: rest ∨ s = name ++ 45 :: rest)) ∧
    (∀ a name n rest, (a, name, n) ∈ hashAlgos → s = name ++ 58 :: rest →
      h.hash.algo = a ∧ h.encoding ≠ SRI) ∧
    (∀ a name n rest, (a, name, n) ∈ hashAlgos → s = name ++ 45 :: rest →
      h.hash.algo = a ∧ h.encoding = SRI) ∧
    (opt = none → h.includeAlgo = true) := by
  obtain ⟨name, n, hrow, hopt, hc⟩ := parseAny_ok hp
  have sepchars : ∀ c ∈ hashAlgos, (58 : UInt8) ∉ c.2.1 ∧ (45 : UInt8) ∉ c.2.1 := by decide
  have names : ∀ c ∈ hashAlgos, ∀ c' ∈ hashAlgos, c.2.1 = c'.2.1 → c.1 = c'.1 := by decide
  have split_eq : ∀ (x y r r' : Bytes) (p q : UInt8), p ∉ x → p ∉ y → q ∉ x → q ∉ y →
      x ++ p :: r = y ++ q :: r' → x = y ∧ p = q := by
    intro x
    induction x with
    | nil =>
      intro y r r' p q _ hy _ _ h
      cases y with
      | nil => simp at h; exact ⟨rfl, h.1⟩
      | cons z y => simp at h; rw [h.1] at hy; simp at hy
    | cons w x ih =>
      intro y r r' p q h1 h2 h3 h4 h
      cases y with
      | nil => simp at h; rw [h.1] at h3; simp at h3
      | cons z y =>
        simp at h h1 h2 h3 h4
        obtain ⟨e1, e2⟩ := ih y r r' p q h1.2 h2.2 h3.2 h4.2 h.2
        exact ⟨by rw [h.1, e1], e2⟩
  refine ⟨fun a ha => (hopt a ha).symm, ?_⟩
  -- the body of an unprefixed hash cannot look prefixed
  rcases hc with ⟨hi, rest, hs, hdec⟩ | ⟨hi, hE, rest, hs, hdec⟩ | ⟨hi, ho, hdec⟩
  · have hne : h.encoding ≠ SRI := by
      rcases decodeByLen_enc hdec with e | e | e <;> rw [e] <;> decide
    refine ⟨⟨fun _ => ⟨_, _, _, rest, hrow, .inl hs⟩, fun _ => hi⟩, ?_, ?_, fun _ => hi⟩
    · intro a' name' n' rest' hrow' hs'
      rw [hs] at hs'
      have := split_eq _ _ _ _ _ _ (sepchars _ hrow).1 (sepchars _ hrow').1 (sepchars _ hrow).1
        (sepchars _ hrow').1 hs'
      exact ⟨names _ hrow _ hrow' this.1, hne⟩
    · intro a' name' n' rest' hrow' hs'
      rw [hs] at hs'
      have := split_eq _ _ _ _ _ _ (sepchars _ hrow).1 (sepchars _ hrow').1 (sepchars _ hrow).2
        (sepchars _ hrow').2 hs'
      exact absurd this.2 (by decide)
  · refine ⟨⟨fun _ => ⟨_, _, _, rest, hrow, .inr hs⟩, fun _ => hi⟩, ?_, ?_, fun _ => hi⟩
    · intro a' name' n' rest' hrow' hs'
      rw [hs] at hs'
      have := split_eq _ _ _ _ _ _ (sepchars _ hrow).2 (sepchars _ hrow').2 (sepchars _ hrow).1
        (sepchars _ hrow').1 hs'
      exact absurd this.2 (by decide)
    · intro a' name' n' rest' hrow' hs'
      rw [hs] at hs'
      have := split_eq _ _ _ _ _ _ (sepchars _ hrow).2 (sepchars _ hrow').2 (sepchars _ hrow).2
        (sepchars _ hrow').2 hs'
      exact ⟨names _ hrow _ hrow' this.1, hE⟩
  · -- `includeAlgo = false`: the separator search found nothing
    have hsep : (findSep s).1 = none := by
      unfold parseAny at hp
      rw [Res.bind_eq_ok] at hp
      obtain ⟨⟨al, incl, b⟩, hpre, hp⟩ := hp
      cases hf : (findSep s).1 with
      | none => rfl
      | some i =>
        rw [hf] at hpre
        obtain ⟨_, rfl, _, _⟩ := parsePrefix_some hpre
        rw [Res.bind_eq_ok] at hp
        obtain ⟨n', hn, hp⟩ := hp
        rw [Res.bind_eq_ok] at hp
        obtain ⟨⟨enc, d⟩, _, hp⟩ := hp
        simp only [] at hp
        split at hp
        · split at hp
          · simp at hp; rw [← hp] at hi; simp at hi
          · simp at hp
        · simp at hp; rw [← hp] at hi; simp at hi
    have no : ∀ (a' : UInt8) name' n' rest', (a', name', n') ∈ hashAlgos →
        s ≠ name' ++ 58 :: rest' ∧ s ≠ name' ++ 45 :: rest' := by
      intro a' name' n' rest' hrow'
      have r' := row_of_mem hrow'
      constructor
      · rintro rfl
        rw [findSep_colon r'.no58 r'.ne] at hsep
        simp at hsep
      · rintro rfl
        unfold findSep at hsep
        split at hsep
        · simp at hsep
        · rw [indexByte_append r'.no45] at hsep
          cases name' with
          | nil => exact r'.ne rfl
          | cons => simp at hsep
    refine ⟨⟨fun h => by rw [hi] at h; simp at h, ?_⟩, ?_, ?_, ?_⟩
    · rintro ⟨a', name', n', rest', hrow', hs' | hs'⟩
      · exact absurd hs' (no _ _ _ _ hrow').1
      · exact absurd hs' (no _ _ _ _ hrow').2
    · intro a' name' n' rest' hrow' hs'; exact absurd hs' (no _ _ _ _ hrow').1
    · intro a' name' n' rest' hrow' hs'; exact absurd hs' (no _ _ _ _ hrow').2
    · intro hn; rw [ho] at hn; simp at hn

/-- C09: a text naming another algorithm than the expected one is rejected. -/
theorem C09_mismatch_rejected (a b : Algorithm) (name : Bytes) (n : Nat) (sep : UInt8) (rest : Bytes)
    (hrow : (a, name, n) ∈ hashAlgos) (hsep : sep = 58 ∨ sep = 45) (hne : b ≠ a)
    (h : HashWithEncoding) : parseAny (name ++ sep :: rest) (some b) ≠ .ok h := by
  intro hp
  obtain ⟨h1, _, h3, h4, _⟩ := C09_algo_enforced _ _ _ hp
  have e := h1 b rfl
  rcases hsep with rfl | rfl
  · exact hne (e.symm.trans (h3 a name n rest hrow rfl).1)
  · exact hne (e.symm.trans (h4 a name n rest hrow rfl).1)

/-- C10: printing a parsed hash whose digest has the right size and parsing again gives the same
hash; for nixbase32 text the printed form is the text that was parsed. -/
theorem C10_reparse (s : Bytes) (opt : Option Algorithm) (h : HashWithEncoding) (name : Bytes)
    (n : Nat) (hp : parseAny s opt = .ok h) (hrow : (h.hash.algo, name, n) ∈ hashAlgos)
    (hd : h.hash.digest.length = n) :
    ∃ t, h.string = .ok t ∧ parseAny t (some h.hash.algo) = .ok h ∧ parseAny t opt = .ok h ∧
      (h.encoding = NixBase32 → t = s) := by
  obtain ⟨name', n', hrow', hopt, hc⟩ := parseAny_ok hp
  obtain ⟨rfl, rfl⟩ := row_unique hrow hrow'
  have r := row_of_mem hrow
  obtain ⟨⟨algo, d⟩, enc, incl⟩ := h
  simp only at hrow hrow' hopt hc hd hp
  unfold HashWithEncoding.string
  simp only []
  have hself : ∀ x, some algo = some x → x = algo := by intro x h; exact (Option.some.inj h).symm
  rcases hc with ⟨rfl, rest, rfl, hdec⟩ | ⟨rfl, rfl, rest, rfl, hdec⟩ | ⟨rfl, rfl, hdec⟩
  · have hne := decodeByLen_enc hdec
    have he : enc ∈ hashEncodings ∧ enc ≠ SRI := by
      rcases hne with rfl | rfl | rfl <;> decide
    refine ⟨name ++ 58 :: body enc d, by rw [format_eq hrow d _ he.1]; simp [he.2],
      parseAny_colon hrow hself (decodeByLen_body r enc d hd hne),
      parseAny_colon hrow hopt (decodeByLen_body r enc d hd hne), ?_⟩
    rintro rfl
    rw [(decodeByLen_b32 hdec).1]; rfl
  · refine ⟨name ++ 45 :: body SRI d, by rw [format_eq hrow d _ (by decide)]; simp,
      parseAny_dash hrow hself (body_no58 _ _) (decodeByLen_body r Base64 d hd (.inr (.inr rfl))),
      parseAny_dash hrow hopt (body_no58 _ _) (decodeByLen_body r Base64 d hd (.inr (.inr rfl))), ?_⟩
    intro h; exact absurd h (by decide)
  · have hne := decodeByLen_enc hdec
    have he : enc ∈ hashEncodings ∧ enc ≠ SRI := by
      rcases hne with rfl | rfl | rfl <;> decide
    have := parseAny_bare hrow (body_no58 enc d) (body_no45 enc d) (decodeByLen_body r enc d hd hne)
    refine ⟨body enc d, by rw [format_eq hrow d _ he.1]; simp [he.2], this, this, ?_⟩
    rintro rfl
    rw [(decodeByLen_b32 hdec).1]; rfl

/-- C11: `ParseNixBase32` accepts exactly the canonical text of a hash of the right size. -/
theorem C11_parseNixBase32_iff (s : Bytes) (a : Algorithm) (d : Bytes) :
    parseNixBase32 s = .ok ⟨a, d⟩ ↔
      ∃ name n, (a, name, n) ∈ hashAlgos ∧ d.length = n ∧
        s = name ++ b!":" ++ Nixbase32.encodeToString d := by
  constructor
  · intro h
    unfold parseNixBase32 at h
    rw [Res.bind_eq_ok] at h
    obtain ⟨hh, hp, h⟩ := h
    split at h
    · simp at h
    rename_i henc
    simp only [ne_eq, Decidable.not_not, Res.ok.injEq] at henc h
    obtain ⟨hash, enc, incl⟩ := hh
    simp only at henc h
    subst henc h
    obtain ⟨name, n, hrow, _, hc⟩ := parseAny_ok hp
    have r := row_of_mem hrow
    rcases hc with ⟨_, rest, rfl, hdec⟩ | ⟨_, h, _⟩ | ⟨_, h, _⟩
    · obtain ⟨e1, e2⟩ := decodeByLen_b32 hdec
      simp only at e1
      rw [e1, Nixbase32.encodeToString_length] at e2
      refine ⟨name, n, hrow, ?_, by simp [e1]⟩
      unfold Nixbase32.encodedLen at e2
      omega
    · simp only at h; exact absurd h (by decide)
    · simp at h
  · rintro ⟨name, n, hrow, hd, rfl⟩
    have r := row_of_mem hrow
    have hp : parseAny (name ++ 58 :: body NixBase32 d) none = .ok ⟨⟨a, d⟩, NixBase32, true⟩ :=
      parseAny_colon hrow (by simp) (decodeByLen_body r NixBase32 d hd (.inr (.inl rfl)))
    have e : name ++ b!":" ++ Nixbase32.encodeToString d = name ++ 58 :: body NixBase32 d := by
      simp [body, NixBase32, Base16]
    rw [e]
    unfold parseNixBase32
    rw [hp]
    simp

example : ∃ s, parseNixBase32 s = .ok ⟨SHA1, List.replicate 20 1⟩ :=
  ⟨_, (C11_parseNixBase32_iff _ _ _).mpr ⟨b!"sha1", 20, by decide, by decide, rfl⟩⟩

/-- C12: the result has the requested length and byte `i` is the XOR of all input bytes at
positions congruent to `i`. -/
theorem C12_compress (input : Bytes) (n : Nat) (hn : 0 < n) :
    ∃ out, compressHash input n = .ok out ∧ out.length = n ∧
      ∀ i, i < n → out[i]? = some (xorAt n i 0 input) := by
  refine ⟨compressLoop n 0 input (List.replicate n 0), ?_, ?_, ?_⟩
  · unfold compressHash
    rw [if_neg (by omega), if_neg (by omega)]
    simp
  · rw [compressLoop_length]; simp
  · intro i hi
    have h := compressLoop_getElem n i input 0 (List.replicate n 0) (by simp) hi
    have hl : i < (compressLoop n 0 input (List.replicate n 0)).length := by
      rw [compressLoop_length]; simpa using hi
    rw [List.getD_eq_getElem?_getD, List.getElem?_eq_getElem hl] at h
    rw [List.getElem?_eq_getElem hl]
    simp [List.getD, hi] at h
    rw [h]

/-- C12: it commutes with XOR. -/
theorem C12_linear (a b : Bytes) (n : Nat) (hn : 0 < n) (hl : a.length = b.length)
    (ca cb : Bytes) (ha : compressHash a n = .ok ca) (hb : compressHash b n = .ok cb) :
    compressHash (List.zipWith (· ^^^ ·) a b) n = .ok (List.zipWith (· ^^^ ·) ca cb) := by
  obtain ⟨oa, h1, l1, e1⟩ := C12_compress a n hn
  obtain ⟨ob, h2, l2, e2⟩ := C12_compress b n hn
  obtain ⟨oc, h3, l3, e3⟩ := C12_compress (List.zipWith (· ^^^ ·) a b) n hn
  rw [ha] at h1; rw [hb] at h2
  obtain rfl := Res.ok.inj h1
  obtain rfl := Res.ok.inj h2
  rw [h3]
  congr 1
  apply List.ext_getElem?
  intro i
  by_cases hi : i < n
  · rw [e3 i hi, List.getElem?_zipWith, e1 i hi, e2 i hi, xorAt_xor _ _ _ _ _ hl]
  · rw [List.getElem?_eq_none (by omega), List.getElem?_eq_none (by simp; omega)]

/-- C12: it panics exactly for a negative size, or size 0 with non-empty input. -/
theorem C12_panic_iff (input : Bytes) (n : Int) :
    compressHash input n = .panic ↔ n < 0 ∨ (n = 0 ∧ input ≠ []) := by
  unfold compressHash
  split
  · simp; omega
  split
  · cases input <;> simp_all
  · simp; omega

example : compressHash [1, 2, 3, 4, 5] 2 = .ok [1 ^^^ 3 ^^^ 5, 2 ^^^ 4] ∧
    compressHash [1] 0 = .panic := by decide

/-! ### C80 - C82: construction, names, identity of printed hashes -/

theorem funcSize_row {a : Algorithm} {name n} (h : (a, name, n) ∈ hashAlgos) : funcSize a = .ok n :=
  (row_of_mem h).size

theorem funcSize_unknown {a : Algorithm} (h : ∀ name n, (a, name, n) ∉ hashAlgos) :
    funcSize a = .panic := by
  unfold funcSize
  have h1 : a ≠ MD5 := by rintro rfl; exact h b!"md5" 16 (by decide)
  have h2 : a ≠ SHA1 := by rintro rfl; exact h b!"sha1" 20 (by decide)
  have h3 : a ≠ SHA256 := by rintro rfl; exact h b!"sha256" 32 (by decide)
  have h4 : a ≠ SHA512 := by rintro rfl; exact h b!"sha512" 64 (by decide)
  simp [h1, h2, h3, h4]

/-- C80: the constructors accept exactly the digests of the algorithm's size; the result carries
the arguments; an unknown algorithm panics. -/
theorem C80_new_hash (a : Algorithm) (d : Bytes) (e : Encoding) (incl : Bool) :
    (∀ name n, (a, name, n) ∈ hashAlgos →
      (d.length = n → newHash a d = .ok ⟨a, d⟩ ∧ mustNewHash a d = .ok ⟨a, d⟩ ∧
        newHashWithEncoding a d e incl = .ok ⟨⟨a, d⟩, e, incl⟩ ∧
        mustNewHashWithEncoding a d e incl = .ok ⟨⟨a, d⟩, e, incl⟩) ∧
      (d.length ≠ n → (∃ m, newHash a d = .err m) ∧ mustNewHash a d = .panic ∧
        (∃ m, newHashWithEncoding a d e incl = .err m) ∧ mustNewHashWithEncoding a d e incl = .panic)) ∧
    ((∀ name n, (a, name, n) ∉ hashAlgos) →
      newHash a d = .panic ∧ mustNewHash a d = .panic ∧ newHashWithEncoding a d e incl = .panic ∧
        mustNewHashWithEncoding a d e incl = .panic) := by
  refine ⟨fun name n h => ⟨fun hd => ?_, fun hd => ?_⟩, fun h => ?_⟩
  · have hs := funcSize_row h
    simp [newHash, mustNewHash, newHashWithEncoding, mustNewHashWithEncoding, hs, hd]
  · have hs := funcSize_row h
    simp [newHash, mustNewHash, newHashWithEncoding, mustNewHashWithEncoding, hs, Ne.symm hd]
  · have hs := funcSize_unknown h
    simp [newHash, mustNewHash, newHashWithEncoding, mustNewHashWithEncoding, hs]

example : newHash SHA1 (List.replicate 20 1) = .ok ⟨SHA1, List.replicate 20 1⟩ := by decide
example : ∃ m, newHash SHA1 (List.replicate 21 1) = .err m := ⟨_, by rfl⟩
example : ∀ name n, ((9 : UInt8), name, n) ∉ hashAlgos := by simp [hashAlgos]

/-- C81: names and algorithms correspond one to one. -/
theorem C81_algo_names (s : Bytes) (a : Algorithm) :
    (parseAlgorithm s = .ok a ↔ ∃ n, (a, s, n) ∈ hashAlgos) ∧
    (algoString a = .ok s ↔ ∃ n, (a, s, n) ∈ hashAlgos) ∧
    (parseAlgorithm s = .ok a ↔ algoString a = .ok s) ∧
    ((∀ n b, (b, s, n) ∉ hashAlgos) → ∃ m, parseAlgorithm s = .err m) ∧
    ((∀ n t, (a, t, n) ∉ hashAlgos) → algoString a = .panic ∧ funcSize a = .panic) := by
  have h1 : parseAlgorithm s = .ok a ↔ ∃ n, (a, s, n) ∈ hashAlgos := by
    refine ⟨parseAlgorithm_ok, fun ⟨n, h⟩ => (row_of_mem h).parse⟩
  have h2 : algoString a = .ok s ↔ ∃ n, (a, s, n) ∈ hashAlgos := by
    refine ⟨fun h => ?_, fun ⟨n, h⟩ => (row_of_mem h).str⟩
    unfold algoString at h
    repeat' split at h
    all_goals simp at h
    all_goals subst_vars
    · exact ⟨16, by decide⟩
    · exact ⟨20, by decide⟩
    · exact ⟨32, by decide⟩
    · exact ⟨64, by decide⟩
  refine ⟨h1, h2, h1.trans h2.symm, fun h => ?_, fun h => ⟨?_, funcSize_unknown fun t n => h n t⟩⟩
  · unfold parseAlgorithm
    have k1 : s ≠ b!"md5" := by rintro rfl; exact h 16 1 (by decide)
    have k2 : s ≠ b!"sha1" := by rintro rfl; exact h 20 2 (by decide)
    have k3 : s ≠ b!"sha256" := by rintro rfl; exact h 32 3 (by decide)
    have k4 : s ≠ b!"sha512" := by rintro rfl; exact h 64 4 (by decide)
    simp [k1, k2, k3, k4]
  · unfold algoString
    have h1 : a ≠ MD5 := by rintro rfl; exact h 16 b!"md5" (by decide)
    have h2 : a ≠ SHA1 := by rintro rfl; exact h 20 b!"sha1" (by decide)
    have h3 : a ≠ SHA256 := by rintro rfl; exact h 32 b!"sha256" (by decide)
    have h4 : a ≠ SHA512 := by rintro rfl; exact h 64 b!"sha512" (by decide)
    simp [h1, h2, h3, h4]

example : ∃ m, parseAlgorithm b!"SHA256" = .err m := ⟨_, by rfl⟩
example : parseAlgorithm b!"sha512" = .ok SHA512 := by decide

/-- C82: printing is total on known algorithms and encodings, panics on an unknown encoding, and
the printed text (with algorithm) identifies the hash and the encoding. -/
theorem C82_format_injective (a a' : Algorithm) (name name' : Bytes) (n n' : Nat) (d d' : Bytes)
    (e e' : Encoding)
    (hrow : (a, name, n) ∈ hashAlgos) (hrow' : (a', name', n') ∈ hashAlgos) :
    (∀ incl, e ∈ hashEncodings → ∃ s, Hash.format ⟨a, d⟩ e incl = .ok s) ∧
    (∀ incl, e ∉ hashEncodings → Hash.format ⟨a, d⟩ e incl = .panic) ∧
    (d.length = n → d'.length = n' → e ∈ hashEncodings → e' ∈ hashEncodings →
      Hash.format ⟨a, d⟩ e true = Hash.format ⟨a', d'⟩ e' true → a = a' ∧ d = d' ∧ e = e') := by
  refine ⟨fun incl he => ⟨_, format_eq hrow d e he incl⟩, fun incl he => ?_,
    fun hd hd' he he' heq => ?_⟩
  · have hs := (row_of_mem hrow).str
    simp only [hashEncodings, List.mem_cons, List.not_mem_nil, or_false, not_or] at he
    have h1 : e ≠ Base16 := he.1
    have h2 : e ≠ Base64 := he.2.1
    have h3 : e ≠ NixBase32 := he.2.2.1
    have h4 : e ≠ SRI := he.2.2.2
    cases incl <;> simp [Hash.format, hs, h1, h2, h3, h4]
  · obtain ⟨⟨s, h1, h2, _⟩, _⟩ := C07_parse_format a name n d e hrow hd he
    obtain ⟨⟨s', h1', h2', _⟩, _⟩ := C07_parse_format a' name' n' d' e' hrow' hd' he'
    rw [h1, h1'] at heq
    injection heq with heq
    subst heq
    rw [h2] at h2'
    simp at h2'
    exact ⟨h2'.1.1, h2'.1.2, h2'.2⟩

example : Hash.format ⟨MD5, List.replicate 16 0⟩ Base16 true =
    .ok b!"md5:00000000000000000000000000000000" := by decide
example : (7 : UInt8) ∉ hashEncodings := by decide

end Verif.Props
