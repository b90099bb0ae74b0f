import Verif.Lemmas.Storepath

/-!
# Store paths: C40-C44
-/

namespace Verif.Props
open Verif.Storepath Verif.GoLib Verif.Nixbase32 Verif.Spec

/-- a hash part -/
def sampleHash : Bytes := b!"00bgd045z0d4icpbc2yyz4gx48ak44la"

/-! ## C40 -/

/-- C40 is false: neither the slash after the store directory nor the dash after the hash is
required, and the name may be empty. -/
theorem C40_refuted : (validate (b!"/nix/storeX" ++ sampleHash ++ b!"-a") = .ok () ∧
      ¬ IsStorePath (b!"/nix/storeX" ++ sampleHash ++ b!"-a")) ∧
    (validate (b!"/nix/store/" ++ sampleHash ++ b!"aa") = .ok () ∧
      ¬ IsStorePath (b!"/nix/store/" ++ sampleHash ++ b!"aa")) ∧
    (validate (b!"/nix/store/" ++ sampleHash ++ b!"-") = .ok () ∧
      ¬ IsStorePath (b!"/nix/store/" ++ sampleHash ++ b!"-")) := by
  refine ⟨⟨by decide +kernel, ?_⟩, ⟨by decide +kernel, ?_⟩, by decide +kernel, ?_⟩
  · rintro ⟨h, n, e, _⟩
    simp at e
  · rintro ⟨h, n, e, hh, hn, _⟩
    have := congrArg (fun x => x[43]?) e
    have hl := hh.1
    have e2 : (b!"/nix/store/" ++ h ++ b!"-" ++ n)[43]? = some 45 := by
      rw [List.append_assoc, List.append_assoc, List.getElem?_append_right (by simp),
        List.getElem?_append_right (by simp [hl])]
      simp [hl]
    simp only [e2] at this
    revert this
    decide +kernel
  · rintro ⟨h, n, e, hh, hn, _⟩
    have := congrArg List.length e
    have hl := hh.1
    simp [hl, sampleHash] at this
    exact hn (List.length_eq_zero_iff.1 (by omega))

/-- C40, what holds, exactly: `Validate` accepts `/nix/store`, any byte, 32 base32 characters, one
allowed character, then any allowed characters; it accepts every store path, and what it accepts
with a slash after the store directory and `-` and more after the hash is a store path. Missing: the
two separators and the non-empty name are not checked. -/
theorem C40_validate_partial (s : Bytes) :
    (validate s = .ok () ↔
      ∃ c h d n, s = b!"/nix/store" ++ [c] ++ h ++ [d] ++ n ∧ HashPart h ∧ NameChars (d :: n)) ∧
    (IsStorePath s ↔ validate s = .ok () ∧ s[10]? = some 47 ∧ s[43]? = some 45 ∧ 44 < s.length) := by
  refine ⟨validate_iff s, ?_, ?_⟩
  · rintro ⟨h, n, rfl, hh, hn, hc⟩
    have hl := hh.1
    refine ⟨(validate_iff _).2 ⟨47, h, 45, n, by simp, hh, ?_⟩, by simp, ?_, ?_⟩
    · intro c hcm
      rcases List.mem_cons.1 hcm with rfl | hcm
      · decide
      · exact hc c hcm
    · rw [List.append_assoc, List.append_assoc, List.getElem?_append_right (by simp),
        List.getElem?_append_right (by simp [hl])]
      simp [hl]
    · have := List.length_pos_iff.2 hn
      simp [hl]; omega
  · rintro ⟨hv, h10, h43, hlen⟩
    obtain ⟨c, h, d, n, rfl, hh, hc⟩ := (validate_iff s).1 hv
    have hl := hh.1
    have hc47 : c = 47 := by simpa using h10
    have hd : d = 45 := by
      rw [List.append_assoc, List.append_assoc, List.append_assoc, List.getElem?_append_right (by simp)] at h43
      rw [List.getElem?_append_right (by simp), List.getElem?_append_right (by simp [hl])] at h43
      simpa [hl] using h43
    subst hc47 hd
    refine ⟨h, n, by simp, hh, ?_, fun c hcm => hc c (List.mem_cons_of_mem _ hcm)⟩
    rintro rfl
    simp [hl] at hlen

example : IsStorePath (b!"/nix/store/" ++ sampleHash ++ b!"-" ++ b!"net-tools-1.60_p20170221182432") :=
  ⟨_, _, rfl, by decide +kernel, by decide, by decide +kernel⟩

/-! ## C41 -/

theorem parts_noslash {d n : Bytes} (hd : d.length = 20) (hn : NameChars n) :
    (47 : UInt8) ∉ encodeToString d ++ b!"-" ++ n := by
  have hh := encode_hashPart d hd
  simp only [List.mem_append, not_or]
  exact ⟨⟨fun h => slash_not_digit (hh.2 _ h), by decide⟩, fun h => slash_not_nameChar (hn _ h)⟩

/-- C41: a store path with a 20-byte digest and a name of allowed characters is valid, its absolute
form is the store directory, a slash and its string form, and both forms are parsed back to it
(the absolute one if the name is not empty). -/
theorem C41_roundtrip (p : StorePath) (hd : p.digest.length = 20) (hn : NameChars p.name) :
    p.absolute = b!"/nix/store/" ++ p.string ∧ p.validate = .ok () ∧ fromString p.string = .ok p ∧
    (p.name ≠ [] → IsStorePath p.absolute ∧ fromAbsolutePath p.absolute = .ok p) := by
  have hh := encode_hashPart p.digest hd
  have hl := hh.1
  have hlen : p.string.length = 33 + p.name.length := by unfold StorePath.string; simp [hl]; omega
  have habs : p.absolute = b!"/nix/store/" ++ p.string :=
    pathJoin_store (good_of_noslash (by omega) (parts_noslash hd hn))
  have hval : p.validate = .ok () := by
    unfold StorePath.validate
    rw [habs, validate_iff]
    refine ⟨47, encodeToString p.digest, 45, p.name, by simp [StorePath.string], hh, ?_⟩
    intro c hc
    rcases List.mem_cons.1 hc with rfl | hc
    · decide
    · exact hn c hc
  have hfs : fromString p.string = .ok p := by
    rw [(fromString_eq _).2]
    refine ⟨hval, by omega, ?_, ?_⟩
    · have : p.string.take 32 = encodeToString p.digest := by
        unfold StorePath.string
        rw [List.append_assoc, List.take_left' hl]
      rw [this]; exact C01_decode_encode p.digest
    · unfold StorePath.string
      rw [List.drop_left' (by simp [hl])]
  refine ⟨habs, hval, hfs, ?_⟩
  intro hne
  refine ⟨⟨encodeToString p.digest, p.name, by rw [habs]; simp [StorePath.string], hh, hne, hn⟩, ?_⟩
  unfold fromAbsolutePath
  have hpos := List.length_pos_iff.2 hne
  have e1 : hashOffset = 11 := rfl
  have e2 : nameOffset = 33 := rfl
  rw [e1, e2, habs, if_neg (by simp; omega)]
  have : (b!"/nix/store/" ++ p.string).drop 11 = p.string := by simp
  rw [this, hfs]

example : (⟨b!"hello-1.0", List.replicate 20 7⟩ : StorePath).digest.length = 20 ∧
    NameChars (⟨b!"hello-1.0", List.replicate 20 7⟩ : StorePath).name := by decide

/-! ## C42 -/

/-- C42 is false: slashes and `..` are cleaned away before the check, and the separator is not
checked. -/
theorem C42_refuted :
    (∃ p, fromString (sampleHash ++ b!"-a/../../../../tmp/../nix/store/" ++ sampleHash ++ b!"-b") = .ok p ∧
      p.name = b!"a/../../../../tmp/../nix/store/" ++ sampleHash ++ b!"-b") ∧
    (∃ p, fromString (sampleHash ++ b!"-a/") = .ok p ∧ p.name = b!"a/") ∧
    (∃ p, fromString (sampleHash ++ b!"xa") = .ok p ∧ p.string = sampleHash ++ b!"-a") := by
  refine ⟨⟨⟨b!"a/../../../../tmp/../nix/store/" ++ sampleHash ++ b!"-b", [0x8a, 0x12, 0x32, 0x15, 0x22, 0xfd, 0x91,
    0xef, 0xbd, 0x60, 0xeb, 0xb2, 0x48, 0x1a, 0xf8, 0x85, 0x80, 0xf6, 0x16, 0x00]⟩, ?_, rfl⟩,
    ⟨⟨b!"a/", [0x8a, 0x12, 0x32, 0x15, 0x22, 0xfd, 0x91,
    0xef, 0xbd, 0x60, 0xeb, 0xb2, 0x48, 0x1a, 0xf8, 0x85, 0x80, 0xf6, 0x16, 0x00]⟩, ?_, rfl⟩,
    ⟨⟨b!"a", [0x8a, 0x12, 0x32, 0x15, 0x22, 0xfd, 0x91,
    0xef, 0xbd, 0x60, 0xeb, 0xb2, 0x48, 0x1a, 0xf8, 0x85, 0x80, 0xf6, 0x16, 0x00]⟩, ?_, ?_⟩⟩
  all_goals decide +kernel

/-- C42, what holds: the result consists of the digest given by the first 32 characters and of
everything from the 34th on; and for a string without slash that has a dash after the hash, the
result prints as the string, has only allowed characters, and lies directly below the store
directory. Missing: strings with slashes, and the separator (`C42_refuted`). -/
theorem C42_from_string_partial (s : Bytes) (p : StorePath) (h : fromString s = .ok p) :
    (s.take 32 = encodeToString p.digest ∧ p.digest.length = 20 ∧ p.name = s.drop 33 ∧
      (p.string = s ↔ s[32]? = some 45)) ∧
    ((47 : UInt8) ∉ s → s[32]? = some 45 →
      p.string = s ∧ NameChars p.name ∧ p.absolute = b!"/nix/store/" ++ s ∧ p.validate = .ok ()) := by
  obtain ⟨hv, hl, hd, hn⟩ := ((fromString_eq s).2 p).1 h
  have he := (C02_decode_iff_encode _ _).1 hd
  have hdl : p.digest.length = 20 := by
    have := encodeToString_length p.digest
    rw [← he, List.length_take] at this
    unfold encodedLen at this
    omega
  have hsplit : s = s.take 32 ++ s.drop 32 := (List.take_append_drop 32 s).symm
  obtain ⟨c, hc⟩ : ∃ c, s.drop 32 = c :: s.drop 33 := by
    cases hx : s.drop 32 with
    | nil => have := congrArg List.length hx; simp at this; omega
    | cons c t =>
      refine ⟨c, ?_⟩
      have : s.drop 33 = (s.drop 32).drop 1 := by rw [List.drop_drop]
      rw [this, hx]; rfl
  have hget : s[32]? = some c := by
    have : (s.drop 32)[0]? = s[32]? := by rw [List.getElem?_drop]
    rw [← this, hc]; rfl
  have hstr : p.string = s ↔ s[32]? = some 45 := by
    rw [hget]
    unfold StorePath.string
    rw [← he, hn]
    constructor
    · intro heq
      rw [List.append_assoc] at heq
      conv at heq => rhs; rw [hsplit]
      have := List.append_cancel_left heq
      rw [hc] at this
      simp at this
      simp [this]
    · intro hc'
      simp only [Option.some.injEq] at hc'
      subst hc'
      conv => rhs; rw [hsplit, hc]
      simp
  refine ⟨⟨he, hdl, hn, hstr⟩, ?_⟩
  intro hs h32
  have hps := hstr.2 h32
  have hj := pathJoin_store (good_of_noslash hl hs)
  have habs : p.absolute = b!"/nix/store/" ++ s := by
    unfold StorePath.absolute; rw [hps, hj]
  refine ⟨hps, ?_, habs, ?_⟩
  · rw [hj] at hv
    obtain ⟨c', h', d, n, heq, hh, hnc⟩ := (validate_iff _).1 hv
    have hl' := hh.1
    have h1 : (b!"/nix/store/" ++ s).drop 44 = s.drop 33 := by
      rw [List.drop_append]; simp
    have h2 : (b!"/nix/store/" ++ s).drop 44 = n := by
      rw [heq]
      rw [List.drop_left' (by simp [hl'])]
    rw [hn, ← h1, h2]
    exact fun x hx => hnc x (List.mem_cons_of_mem _ hx)
  · unfold StorePath.validate
    rw [habs, ← hj]; exact hv

example : fromString (sampleHash ++ b!"-a") = .ok ⟨b!"a", [0x8a, 0x12, 0x32, 0x15, 0x22, 0xfd, 0x91,
    0xef, 0xbd, 0x60, 0xeb, 0xb2, 0x48, 0x1a, 0xf8, 0x85, 0x80, 0xf6, 0x16, 0x00]⟩ ∧
    (47 : UInt8) ∉ sampleHash ++ b!"-a" ∧ (sampleHash ++ b!"-a")[32]? = some 45 := by decide +kernel

/-- C42, exactly: what `FromString` returns for a string prints as the string, has a name of allowed characters only and lies directly below the store
directory if and only if the string has a dash after the hash and no slash anywhere. -/
theorem C42_exact (s : Bytes) (p : StorePath) (h : fromString s = .ok p) :
    (p.string = s ∧ NameChars p.name ∧ p.absolute = b!"/nix/store/" ++ s) ↔ (s[32]? = some 45 ∧ (47 : UInt8) ∉ s) := by
  obtain ⟨⟨h1, h2, h3, h4⟩, h5⟩ := C42_from_string_partial s p h
  constructor
  · rintro ⟨k1, k2, _⟩
    refine ⟨h4.1 k1, ?_⟩
    rw [← k1]
    unfold StorePath.string
    exact parts_noslash h2 k2
  · rintro ⟨k1, k2⟩
    obtain ⟨m1, m2, m3, _⟩ := h5 k2 k1
    exact ⟨m1, m2, m3⟩

/-- C42, acceptance: a string without slash is accepted exactly if it consists of 32 base32
characters and at least one allowed character. -/
theorem C42_accepts_partial (s : Bytes) (hs : (47 : UInt8) ∉ s) :
    (∃ p, fromString s = .ok p) ↔ ∃ h d n, s = h ++ [d] ++ n ∧ HashPart h ∧ NameChars (d :: n) := by
  constructor
  · rintro ⟨p, h⟩
    obtain ⟨hv, hl, hd, hn⟩ := ((fromString_eq s).2 p).1 h
    rw [pathJoin_store (good_of_noslash hl hs)] at hv
    obtain ⟨c, h', d, n, heq, hh, hnc⟩ := (validate_iff _).1 hv
    refine ⟨h', d, n, ?_, hh, hnc⟩
    have := congrArg (List.drop 11) heq
    simpa using this
  · rintro ⟨h, d, n, rfl, hh, hnc⟩
    have hl := hh.1
    obtain ⟨dg, h1, h2⟩ := decodeString_32 h hh
    refine ⟨⟨n, dg⟩, ((fromString_eq _).2 _).2 ⟨?_, by simp [hl]; omega, ?_, ?_⟩⟩
    · rw [pathJoin_store (good_of_noslash (by simp [hl]; omega) hs), validate_iff]
      exact ⟨47, h, d, n, by simp, hh, hnc⟩
    · rw [List.append_assoc, List.take_left' hl]; exact h1
    · rw [List.drop_left' (by simp [hl])]

/-! ## C43 -/

/-- C43 is false: the first eleven bytes are ignored. -/
theorem C43_refuted : ∃ p, fromAbsolutePath (b!"/etc/passwd" ++ sampleHash ++ b!"-a") = .ok p :=
  ⟨⟨b!"a", [0x8a, 0x12, 0x32, 0x15, 0x22, 0xfd, 0x91,
    0xef, 0xbd, 0x60, 0xeb, 0xb2, 0x48, 0x1a, 0xf8, 0x85, 0x80, 0xf6, 0x16, 0x00]⟩, by decide +kernel⟩

/-- C43, what holds: the first eleven bytes do not matter at all; what is returned is what
`FromString` returns for the rest, which has at least 34 bytes. Missing: the check of the prefix. -/
theorem C43_prefix_partial (pre s : Bytes) (hp : pre.length = 11) :
    fromAbsolutePath (pre ++ s) = if s.length < 34 then .err (.msg "invalid path length") else fromString s := by
  unfold fromAbsolutePath
  have e1 : hashOffset = 11 := rfl
  have e2 : nameOffset = 33 := rfl
  rw [e1, e2, List.drop_left' hp, List.length_append, hp]
  by_cases h : s.length < 34
  · rw [if_pos h, if_pos (by omega)]
  · rw [if_neg h, if_neg (by omega)]

/-- C43, what holds: a path without further slashes below the store directory, with a dash after the
hash, is accepted exactly if it is a store path, and then the result is that store path. -/
theorem C43_store_partial (s : Bytes) (hs : (47 : UInt8) ∉ s) (h32 : s[32]? = some 45) :
    (IsStorePath (b!"/nix/store/" ++ s) ↔ ∃ p, fromAbsolutePath (b!"/nix/store/" ++ s) = .ok p) ∧
    ∀ p, fromAbsolutePath (b!"/nix/store/" ++ s) = .ok p → p.absolute = b!"/nix/store/" ++ s := by
  rw [C43_prefix_partial _ s (by simp)]
  constructor
  · constructor
    · rintro ⟨h, n, heq, hh, hne, hc⟩
      have he : s = h ++ [45] ++ n := by
        have := congrArg (List.drop 11) heq
        simpa using this
      have hpos := List.length_pos_iff.2 hne
      have hl := hh.1
      rw [if_neg (by rw [he]; simp [hl]; omega)]
      refine (C42_accepts_partial s hs).2 ⟨h, 45, n, he, hh, ?_⟩
      intro c hcm
      rcases List.mem_cons.1 hcm with rfl | hcm
      · decide
      · exact hc c hcm
    · rintro ⟨p, h⟩
      split at h
      · simp at h
      rename_i hlen
      obtain ⟨h', d, n, he, hh, hnc⟩ := (C42_accepts_partial s hs).1 ⟨p, h⟩
      have hl := hh.1
      have hd : d = 45 := by
        rw [he, List.append_assoc, List.getElem?_append_right (by simp [hl])] at h32
        simpa [hl] using h32
      subst hd
      refine ⟨h', n, by rw [he]; simp, hh, ?_, fun c hcm => hnc c (List.mem_cons_of_mem _ hcm)⟩
      rintro rfl
      rw [he] at hlen
      simp [hl] at hlen
  · intro p h
    split at h
    · simp at h
    · exact ((C42_from_string_partial s p h).2 hs h32).2.2.1

/-! ## C44 -/

/-- C44: no call panics, and a digest that is returned has 20 bytes. -/
theorem C44_no_panic (s : Bytes) :
    validate s ≠ .panic ∧ fromString s ≠ .panic ∧ fromAbsolutePath s ≠ .panic ∧
    (∀ p, fromString s = .ok p → p.digest.length = 20) ∧
    (∀ p, fromAbsolutePath s = .ok p → p.digest.length = 20) := by
  refine ⟨validate_ne_panic s, (fromString_eq s).1, ?_,
    fun p h => (C42_from_string_partial s p h).1.2.1, ?_⟩
  · unfold fromAbsolutePath
    split
    · simp
    · exact (fromString_eq _).1
  · intro p h
    unfold fromAbsolutePath at h
    split at h
    · simp at h
    · exact (C42_from_string_partial _ p h).1.2.1

end Verif.Props
