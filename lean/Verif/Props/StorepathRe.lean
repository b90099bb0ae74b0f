import Verif.Props.Storepath

/-!
# C104: the exported regular expressions `NameRe` and `PathRe`
-/

namespace Verif.Props
open Verif.Storepath Verif.GoLib Verif.Nixbase32

theorem match_star_cls {cs s : Bytes} : (Re.star (.cls cs)).Match s ↔ ∀ c ∈ s, c ∈ cs := by
  constructor
  · intro h
    generalize hr : Re.star (.cls cs) = r at h
    induction h with
    | star_nil => simp
    | star_cons h1 _ _ ih =>
      cases hr
      cases h1 with
      | cls hc =>
        intro c hm
        simp only [List.singleton_append, List.mem_cons] at hm
        rcases hm with rfl | hm
        · exact hc
        · exact ih rfl c hm
    | _ => cases hr
  · intro h
    induction s with
    | nil => exact .star_nil
    | cons c s ih =>
      exact .star_cons (.cls (h c (by simp))) (ih fun x hx => h x (by simp [hx]))

theorem match_rep_cls {cs s : Bytes} {n : Nat} : (Re.rep (.cls cs) n).Match s ↔ s.length = n ∧ ∀ c ∈ s, c ∈ cs := by
  induction n generalizing s with
  | zero =>
    constructor
    · intro h; cases h; simp
    · rintro ⟨h, _⟩
      rw [List.length_eq_zero_iff] at h
      subst h; exact .rep_zero
  | succ n ih =>
    constructor
    · intro h
      cases h with
      | rep_succ h1 h2 =>
        cases h1 with
        | cls hc =>
          obtain ⟨e, h3⟩ := ih.1 h2
          refine ⟨by simp [e], ?_⟩
          intro c hm
          simp only [List.singleton_append, List.mem_cons] at hm
          rcases hm with rfl | hm
          · exact hc
          · exact h3 c hm
    · rintro ⟨h, h'⟩
      cases s with
      | nil => simp at h
      | cons c s =>
        exact .rep_succ (s := [c]) (.cls (h' c (by simp))) (ih.2 ⟨by simpa using h, fun x hx => h' x (by simp [hx])⟩)

theorem nameChars_dot (c : UInt8) :
    (c ∈ b!".abcdefghijklmnopqrstuvwxyzABCDEFGHIJKLMNOPQRSTUVWXYZ0123456789+-_?=" ↔ c ∈ nameChars) ∧
    (c ∈ b!"abcdefghijklmnopqrstuvwxyzABCDEFGHIJKLMNOPQRSTUVWXYZ0123456789+-_?=" ↔ c ∈ nameChars ∧ c ≠ 46) := by
  have key : ∀ n : Fin 256,
      (UInt8.ofNat n ∈ b!".abcdefghijklmnopqrstuvwxyzABCDEFGHIJKLMNOPQRSTUVWXYZ0123456789+-_?=" ↔ UInt8.ofNat n ∈ nameChars) ∧
      (UInt8.ofNat n ∈ b!"abcdefghijklmnopqrstuvwxyzABCDEFGHIJKLMNOPQRSTUVWXYZ0123456789+-_?=" ↔ UInt8.ofNat n ∈ nameChars ∧ UInt8.ofNat n ≠ 46) := by
    decide +kernel
  have := key ⟨c.toNat, c.toNat_lt⟩
  simpa using this

theorem match_name {s : Bytes} : nameReExpr.Match s ↔ ∃ c t, s = c :: t ∧ NameChars s ∧ c ≠ 46 := by
  constructor
  · intro h
    cases h with
    | cat h1 h2 =>
      cases h1 with
      | @cls _ c hc =>
        refine ⟨c, _, rfl, ?_, ((nameChars_dot c).2.1 hc).2⟩
        intro x hx
        simp only [List.singleton_append, List.mem_cons] at hx
        rcases hx with rfl | hx
        · exact ((nameChars_dot _).2.1 hc).1
        · exact (nameChars_dot _).1.1 (match_star_cls.1 h2 x hx)
  · rintro ⟨c, t, rfl, hn, hc⟩
    exact .cat (s := [c]) (.cls ((nameChars_dot c).2.2 ⟨hn c (by simp), hc⟩))
      (match_star_cls.2 fun x hx => (nameChars_dot x).1.2 (hn x (by simp [hx])))

/-- C104: `PathRe` matches exactly the store paths whose name does not begin with a dot. -/
theorem C104_path_re (s : Bytes) :
    pathRe.MatchString s ↔
      ∃ h n, s = b!"/nix/store/" ++ h ++ b!"-" ++ n ∧ HashPart h ∧ NameChars n ∧ n ≠ [] ∧ n.head? ≠ some 46 := by
  unfold Regexp.MatchString
  rw [if_pos (show pathRe.anchored = true from rfl)]
  constructor
  · intro hm
    cases hm with
    | cat h1 hm =>
      cases h1
      cases hm with
      | cat h2 hm =>
        cases h2
        cases hm with
        | @cat _ _ h _ h3 hm =>
          cases hm with
          | cat h4 h5 =>
            cases h4
            obtain ⟨e1, e2⟩ := match_rep_cls.1 h3
            obtain ⟨c, t, rfl, hn, hc⟩ := match_name.1 h5
            exact ⟨h, c :: t, by simp [storeDir], ⟨e1, e2⟩, hn, by simp, by simpa using hc⟩
  · rintro ⟨h, n, rfl, hh, hn, hne, hd⟩
    have e : b!"/nix/store/" ++ h ++ b!"-" ++ n = storeDir ++ (b!"/" ++ (h ++ (b!"-" ++ n))) := by simp [storeDir]
    rw [e]
    refine .cat .lit (.cat .lit (.cat (match_rep_cls.2 hh) (.cat .lit (match_name.2 ?_))))
    cases n with
    | nil => exact absurd rfl hne
    | cons c t => exact ⟨c, t, rfl, hn, by simpa using hd⟩

/-- C104: whatever `PathRe` matches is a store path, `Validate` accepts it, and `FromAbsolutePath` parses
it to a value that prints as it. The reverse is false, already for store paths (names that begin with a
dot). -/
theorem C104_path_re_validate :
    (∀ s, pathRe.MatchString s → IsStorePath s ∧ validate s = .ok () ∧
      ∃ p, fromAbsolutePath s = .ok p ∧ p.absolute = s) ∧
    (∃ s, IsStorePath s ∧ validate s = .ok () ∧ ¬ pathRe.MatchString s) := by
  constructor
  · intro s hs
    obtain ⟨h, n, rfl, hh, hn, hne, _⟩ := (C104_path_re s).1 hs
    have hsp : IsStorePath (b!"/nix/store/" ++ h ++ b!"-" ++ n) := ⟨h, n, rfl, hh, hne, hn⟩
    refine ⟨hsp, ((C40_validate_partial _).2.1 hsp).1, ?_⟩
    obtain ⟨d, hd, hl⟩ := decodeString_32 h hh
    have he := (C02_decode_iff_encode _ _).1 hd
    obtain ⟨h1, _, _, h4⟩ := C41_roundtrip ⟨n, d⟩ hl hn
    have e : (⟨n, d⟩ : StorePath).absolute = b!"/nix/store/" ++ h ++ b!"-" ++ n := by
      rw [h1]; simp [StorePath.string, ← he]
    refine ⟨⟨n, d⟩, ?_, e⟩
    rw [← e]
    exact (h4 hne).2
  · refine ⟨b!"/nix/store/" ++ sampleHash ++ b!"-" ++ b!".a", ⟨sampleHash, b!".a", rfl, by decide +kernel, by simp, by decide⟩,
      by decide +kernel, ?_⟩
    intro h
    obtain ⟨h', n, e, hh, _, _, hd⟩ := (C104_path_re _).1 h
    simp only [List.append_assoc] at e
    have e1 := List.append_cancel_left e
    obtain ⟨_, e2⟩ := List.append_inj e1 (by rw [hh.1]; rfl)
    have e3 := List.append_cancel_left e2
    rw [← e3] at hd
    simp at hd

/-- C104: `NameRe` has no anchors: it matches every text that has one character other than a dot that is
allowed in names, so matching it does not show that a text is a name. -/
theorem C104_name_re (s : Bytes) :
    nameRe.MatchString s ↔ ∃ c ∈ s, c ∈ nameChars ∧ c ≠ 46 := by
  unfold Regexp.MatchString
  rw [if_neg (by decide)]
  constructor
  · rintro ⟨a, b, c, rfl, h⟩
    obtain ⟨x, t, rfl, hn, hx⟩ := match_name.1 h
    exact ⟨x, by simp, hn x (by simp), hx⟩
  · rintro ⟨c, hm, hn, hc⟩
    obtain ⟨a, b, rfl⟩ := List.append_of_mem hm
    exact ⟨a, [c], b, by simp, match_name.2 ⟨c, [], rfl, by intro x hx; simp at hx; subst hx; exact hn, hc⟩⟩

example : pathRe.MatchString (b!"/nix/store/" ++ sampleHash ++ b!"-" ++ b!"hello-1.0") ∧
    nameRe.MatchString b!"/ not a name" :=
  ⟨(C104_path_re _).2 ⟨sampleHash, b!"hello-1.0", rfl, by decide +kernel, by decide, by simp, by decide⟩,
    (C104_name_re _).2 ⟨110, by decide⟩⟩

end Verif.Props
