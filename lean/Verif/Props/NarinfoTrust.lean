import Verif.Spec.NarinfoTrust
import Verif.Props.Narinfo
import Verif.Props.Signature
import Verif.Props.Store

/-!
# Fingerprints of checked and of published values (C51), signing and verifying (C119)
-/

namespace Verif.Props
open Verif.Narinfo Verif.GoLib Verif.Nixhash Verif.Signature Verif.Spec

theorem splitByte_join_flat (c : UInt8) (xs : List Bytes) (h : xs ≠ []) :
    splitByte (join xs [c]) c = xs.flatMap (splitByte · c) := by
  have hcat : ∀ x s : Bytes, splitByte (x ++ c :: s) c = splitByte x c ++ splitByte s c := by
    intro x s
    induction x with
    | nil => simp [splitByte]
    | cons a x ih =>
      simp only [List.cons_append, splitByte]
      rw [ih]
      split
      · rfl
      · cases hx : splitByte x c with
        | nil => exact absurd hx (splitByte_ne_nil x c)
        | cons y ys => rfl
  induction xs with
  | nil => exact absurd rfl h
  | cons x xs ih =>
    by_cases hx : xs = []
    · subst hx; simp [join]
    · rw [join_cons hx, List.append_assoc, List.singleton_append, hcat, ih hx]; rfl

theorem absPath_append {a b : List Bytes} (ha : a ≠ []) (hb : b ≠ []) : absPath (a ++ b) = absPath a ++ absPath b := by
  induction a with
  | nil => exact absurd rfl ha
  | cons x a ih =>
    by_cases h : a = []
    · subst h
      unfold absPath
      simp only [List.singleton_append]
      rw [join_cons hb]
      simp [join]
    · have := ih h
      unfold absPath at this ⊢
      rw [List.cons_append, join_cons (by simp [h]), join_cons h]
      simp only [List.cons_append, List.cons.injEq, true_and] at this ⊢
      simp [this]

/-- store paths with commas between them are clean -/
theorem join_paths {ps : List Bytes} (h : ∀ p ∈ ps, Storepath.IsStorePath p) (hne : ps ≠ []) :
    ∃ cs, cs ≠ [] ∧ (∀ c ∈ cs, Good c) ∧ join ps b!"," = absPath cs := by
  induction ps with
  | nil => exact absurd rfl hne
  | cons p ps ih =>
    obtain ⟨n, e, _, hg⟩ := storePath_base (h p List.mem_cons_self)
    by_cases hps : ps = []
    · subst hps
      refine ⟨[b!"nix", b!"store", n], by simp, ?_, ?_⟩
      · intro c hc
        simp only [List.mem_cons, List.not_mem_nil, or_false] at hc
        rcases hc with rfl | rfl | rfl
        · decide
        · decide
        · exact hg
      · rw [e]; simp [join, absPath]
    · obtain ⟨cs, c1, c2, c3⟩ := ih (fun p hp => h p (List.mem_cons_of_mem _ hp)) hps
      refine ⟨[b!"nix", b!"store", n ++ b!","] ++ cs, by simp, ?_, ?_⟩
      · intro c hc
        simp only [List.mem_append, List.mem_cons, List.not_mem_nil, or_false] at hc
        rcases hc with (rfl | rfl | rfl) | hc
        · decide
        · decide
        · refine ⟨by simp, ?_, ?_, ?_⟩
          · intro he
            have := congrArg List.getLast? he
            simp at this
          · intro he
            have := congrArg List.getLast? he
            simp at this
          · simp only [List.mem_append, not_or]
            exact ⟨hg.2.2.2, by decide⟩
        · exact c2 c hc
      · rw [join_cons hps, c3, absPath_append (by simp) c1, e]
        simp [join, absPath]

/-- `FromString` refuses store paths with commas between them -/
theorem fromString_joined {r : Bytes} {ps : List Bytes} (h : ∀ p ∈ ps, Storepath.IsStorePath p) (hne : ps ≠ [])
    (he : b!"/nix/store/" ++ r = join ps b!",") {p : Storepath.StorePath} (hf : Storepath.fromString r = .ok p) : (44 : UInt8) ∉ r := by
  obtain ⟨hv, hl, _, _⟩ := ((Storepath.fromString_eq r).2 p).1 hf
  obtain ⟨cs, _, c2, c3⟩ := join_paths h hne
  have hr : r ≠ [] := by rintro rfl; simp at hl
  have hj : Storepath.storeDir ++ b!"/" ++ r = absPath cs := by rw [← c3, ← he]; rfl
  have hp : pathJoin Storepath.storeDir r = b!"/nix/store/" ++ r := by
    unfold pathJoin
    rw [if_neg (fun h => hr h.2), if_neg (by decide), if_neg hr, hj, clean_absPath c2, ← c3, he]
  rw [hp] at hv
  obtain ⟨c, h', d, n, heq, hh, hnc⟩ := (Storepath.validate_iff _).1 hv
  have := congrArg (List.drop 11) heq
  have hr' : r = h' ++ (d :: n) := by simpa using this
  rw [hr']
  intro hm
  rcases List.mem_append.1 hm with hm | hm
  · exact absurd (hh.2 _ hm) (by decide)
  · exact absurd (hnc _ hm) (by decide)

theorem noSemi {s : Bytes} (h : Storepath.IsStorePath s) : (59 : UInt8) ∉ s ∧ (44 : UInt8) ∉ s := by
  obtain ⟨h1, n, rfl, hh, _, hn⟩ := h
  refine ⟨?_, ?_⟩ <;>
  · intro hm
    simp only [List.mem_append] at hm
    rcases hm with ((hm | hm) | hm) | hm
    · exact absurd hm (by decide)
    · exact absurd (hh.2 _ hm) (by decide)
    · exact absurd hm (by decide)
    · exact absurd (hn _ hm) (by decide)

/-- C51, for verification: a value that passes `Check` and has the fingerprint of a strictly well-formed one agrees with it in
store path, NAR hash, NAR size and references. (Only the second one has to be strict.) -/
theorem C51_published (n m : NarInfo) (hc : n.check = .ok ())
    (hh : ∃ h a k, n.narHash = some h ∧ (h.hash.algo, a, k) ∈ hashAlgos) (hm : Strict m)
    (hf : n.fingerprint = m.fingerprint) :
    n.storePath = m.storePath ∧ n.narHash.map (·.hash) = m.narHash.map (·.hash) ∧ n.narSize = m.narSize ∧
      n.references = m.references := by
  obtain ⟨h1, a1, k1, hh1, hr1⟩ := hh
  obtain ⟨h2, a2, k2, hh2, hr2⟩ := hm.narHash
  have hcm : ∀ r ∈ m.references, (44 : UInt8) ∉ r ∧ (59 : UInt8) ∉ r := by
    intro r hr
    have := noSemi (hm.references r hr)
    exact ⟨fun h => this.2 (by simp [h]), fun h => this.1 (by simp [h])⟩
  have hf' := hf
  rw [fingerprint_eq hh1 hr1, fingerprint_eq hh2 hr2] at hf'
  simp only [Res.ok.injEq] at hf'
  have hf' := List.append_cancel_left hf'
  have hno : ∀ (h : HashWithEncoding) (a : Bytes) (k : Nat), (h.hash.algo, a, k) ∈ hashAlgos →
      (59 : UInt8) ∉ a ++ 58 :: Nixbase32.encodeToString h.hash.digest := by
    intro h a k hr
    simp only [List.mem_append, List.mem_cons, not_or]
    exact ⟨(algo_name_chars _ hr).2, by decide, encodeToString_no _ _ (by decide)⟩
  have hnd : ∀ m, (59 : UInt8) ∉ formatUint m := fun m hm => absurd ((formatUint_digits m).1 _ hm) (by decide)
  have hjm : (59 : UInt8) ∉ join (m.references.map fun r => b!"/nix/store/" ++ r) b!"," := by
    have : ∀ rs : List Bytes, (∀ r ∈ rs, (59 : UInt8) ∉ r) → (59 : UInt8) ∉ join (rs.map fun r => b!"/nix/store/" ++ r) b!"," := by
      intro rs
      induction rs with
      | nil => intro _; simp [join]
      | cons r rs ih =>
        intro h
        have hr : (59 : UInt8) ∉ b!"/nix/store/" ++ r := by
          rw [List.mem_append, not_or]
          exact ⟨by decide, h r List.mem_cons_self⟩
        by_cases hrs : rs = []
        · subst hrs; simpa [join] using hr
        · rw [List.map_cons, join_cons (by simpa using hrs)]
          simp only [List.mem_append, not_or] at hr ⊢
          exact ⟨⟨hr, by decide⟩, ih (fun x hx => h x (List.mem_cons_of_mem _ hx))⟩
    exact this _ fun r hr => (hcm r hr).2
  -- the number of semicolons
  have hcount := congrArg (List.count (59 : UInt8)) hf'
  simp only [List.count_append, List.count_cons_self] at hcount
  rw [List.count_eq_zero.2 (noSemi hm.storePath).1, List.count_eq_zero.2 hjm, List.count_eq_zero.2 (hnd n.narSize),
    List.count_eq_zero.2 (hnd m.narSize)] at hcount
  have g1 := List.count_eq_zero.2 (hno h1 a1 k1 hr1)
  have g2 := List.count_eq_zero.2 (hno h2 a2 k2 hr2)
  simp only [List.count_append] at g1 g2
  have hs1 : (59 : UInt8) ∉ n.storePath := List.count_eq_zero.1 (by omega)
  -- the references have no comma
  obtain ⟨_, hf2⟩ := split_at hs1 (noSemi hm.storePath).1 hf'
  obtain ⟨_, hf3⟩ := split_at (hno h1 a1 k1 hr1) (hno h2 a2 k2 hr2) hf2
  obtain ⟨_, hf4⟩ := split_at (hnd _) (hnd _) hf3
  have hc1 : ∀ r ∈ n.references, (44 : UInt8) ∉ r := by
    intro r hr
    obtain ⟨p, hp⟩ := ((C52_check_iff n).1.1 hc).2.1 r hr
    have hne : n.references ≠ [] := List.ne_nil_of_mem hr
    have hsp := congrArg (splitByte · 44) hf4
    rw [splitByte_join_flat 44 _ (by simpa using hne)] at hsp
    have hmem : ∀ x ∈ splitByte (b!"/nix/store/" ++ r) 44, Storepath.IsStorePath x := by
      intro x hx
      have hin : x ∈ splitByte (join (m.references.map fun r => b!"/nix/store/" ++ r) b!",") 44 := by
        rw [← hsp, List.mem_flatMap]
        exact ⟨_, List.mem_map_of_mem hr, hx⟩
      by_cases hmr : m.references = []
      · rw [hmr] at hf4 hin
        exfalso
        cases hnr : n.references with
        | nil => exact hne hnr
        | cons y ys => rw [hnr] at hf4; cases ys <;> simp [join] at hf4
      · rw [splitByte_join (by simpa using hmr) (by
          intro y hy
          obtain ⟨q, hq, rfl⟩ := List.mem_map.1 hy
          exact (noSemi (hm.references q hq)).2)] at hin
        obtain ⟨q, hq, rfl⟩ := List.mem_map.1 hin
        exact hm.references q hq
    exact fromString_joined hmem (splitByte_ne_nil _ _) (join_splitByte _ 44).symm hp
  obtain ⟨_, e1, e2, e3, e4⟩ := C51_injective_partial n m h1 h2 a1 a2 k1 k2 hh1 hh2 hr1 hr2 hs1 (noSemi hm.storePath).1 hc1
    (fun r hr => (hcm r hr).1) hf
  exact ⟨e1, by rw [hh1, hh2]; simp [e2], e3, e4⟩

/-- A strictly well-formed value. -/
def strictInfo : NarInfo := { sampleInfo with references := [sampleHash ++ b!"-glibc-2.27", sampleHash ++ b!"-x"], deriver := [] }

theorem strictInfo_strict : Strict strictInfo := by
  have hh : Storepath.HashPart sampleHash := by decide
  refine ⟨⟨b!"00bgd045z0d4icpbc2yyz4gx48ak44la", b!"net-tools-1.60", rfl, by decide, by decide, by decide⟩, ?_,
    ⟨⟨⟨SHA256, List.replicate 32 9⟩, SRI, true⟩, b!"sha256", 32, rfl, by decide⟩⟩
  intro r hr
  simp only [strictInfo, List.mem_cons, List.not_mem_nil, or_false] at hr
  rcases hr with rfl | rfl
  · exact ⟨sampleHash, b!"glibc-2.27", rfl, hh, by decide, by decide⟩
  · exact ⟨sampleHash, b!"x", rfl, hh, by decide, by decide⟩

example : strictInfo.check = .ok () ∧ ∃ f, strictInfo.fingerprint = .ok f := by
  refine ⟨by decide +kernel, (match strictInfo.fingerprint with | .ok t => t | _ => []), by decide +kernel⟩

/-! ## C119 -/

/-- C119: a well-formed value is signed with a fresh key, the signature is appended, the value is printed, and the text is parsed by
the other side, with the public key in text form: the value arrives unchanged, with the fingerprint that was signed; it verifies
with this key if no other signature of the same name stands before it (if one does, that one decides). -/
theorem C119_sign_publish_verify (E : Ed25519) (hE : Ed25519.Correct E) (n : NarInfo) (hw : WellFormed n) (name seed : Bytes)
    (hs : seed.length = 32) (h0 : name ≠ []) (h58 : (58 : UInt8) ∉ name) (h10 : (10 : UInt8) ∉ name)
    (hl : name.length < 1047000) :
    ∃ f sk pk sig text, n.fingerprint = .ok f ∧ generateKeypair E name (.ok seed) = .ok (sk, pk) ∧ sign E sk f = .ok sig ∧
      NarInfo.string { n with signatures := n.signatures ++ [sig] } = .ok text ∧
      ∃ m k, parse ⟨text, .eof⟩ = .ok m ∧ parsePublicKey (encode pk) = .ok k ∧ m = { n with signatures := n.signatures ++ [sig] } ∧
        m.fingerprint = .ok f ∧
        ((∀ s ∈ n.signatures, s.name ≠ name) → verifyFirst E f m.signatures [k] = .ok true) ∧
        (∀ before s after, n.signatures = before ++ s :: after → (∀ x ∈ before, x.name ≠ name) → s.name = name →
          verifyFirst E f m.signatures [k] = E.Verify pk.data f s.data) := by
  obtain ⟨h, hh, ⟨a, k0⟩, _⟩ := hw.narHash
  have hfp : ∀ sigs, ∃ f, n.fingerprint = .ok f ∧ ({ n with signatures := sigs } : NarInfo).fingerprint = .ok f := by
    intro sigs
    refine ⟨_, fingerprint_eq hh k0, ?_⟩
    rw [fingerprint_eq (n := { n with signatures := sigs }) hh k0]
  obtain ⟨f, hf, _⟩ := hfp []
  obtain ⟨sk, pk, sig, g1, g2, g3, g4, g5, g6, g7⟩ := C55_sign_verify E hE name seed f hs
  obtain ⟨_, p1, p2⟩ := g7 h0 h58
  have hsk : sk = ⟨name, seed ++ E.derive seed⟩ ∧ pk = ⟨name, E.derive seed⟩ := by
    have : generateKeypair E name (.ok seed) = .ok (⟨name, seed ++ E.derive seed⟩, ⟨name, E.derive seed⟩) := rfl
    rw [this] at g1
    simp only [Res.ok.injEq, Prod.mk.injEq] at g1
    exact ⟨g1.1.symm, g1.2.symm⟩
  have hsn : sig.name = name ∧ sig.data.length = 64 := by
    have := ((C53_accepts (encode sig) sig).1.1 p2)
    obtain ⟨_, _, _, _, _, h64⟩ := this
    refine ⟨?_, h64⟩
    unfold sign at g3
    rw [hsk.1] at g3
    obtain ⟨d, _, e⟩ := Res.bind_eq_ok.1 g3
    exact (congrArg Named.name (Res.ok.inj e)).symm
  have hw' : WellFormed { n with signatures := n.signatures ++ [sig] } := by
    refine ⟨hw.storePath, hw.url, hw.compression, hw.file, hw.narHash, hw.narSize, hw.references, hw.deriver, hw.system, ?_, hw.ca⟩
    intro s hm
    rcases List.mem_append.1 hm with hm | hm
    · exact hw.signatures s hm
    · rw [List.mem_singleton.1 hm, hsn.1]
      exact ⟨h0, h58, h10, hl, hsn.2⟩
  obtain ⟨text, t1, t2⟩ := C49_roundtrip _ hw'
  obtain ⟨f', hf', hf''⟩ := hfp (n.signatures ++ [sig])
  rw [hf] at hf'
  have := Res.ok.inj hf'
  subst this
  have hpn : pk.name = name := by rw [hsk.2]
  have hpairs : ∀ sigs, pairs [pk] sigs = sigs.map fun s => (pk, s) := by intro sigs; simp [pairs]
  refine ⟨f, sk, pk, sig, text, hf, g1, g3, t1, _, pk, t2, p1, rfl, hf'', ?_, ?_⟩
  · intro hno
    have hv := g5 [] []
    rw [C54_first_match] at hv ⊢
    rw [hpairs] at hv ⊢
    simp only [List.map_cons, List.map_nil, List.find?_cons, hpn, hsn.1, decide_true] at hv
    rw [List.map_append, List.find?_append]
    have : (n.signatures.map fun s => (pk, s)).find? (fun p => decide (p.1.name = p.2.name)) = none := by
      rw [List.find?_eq_none]
      intro x hx
      obtain ⟨s, hs, rfl⟩ := List.mem_map.1 hx
      simp only [decide_eq_true_eq, hpn]
      exact fun e => hno s hs e.symm
    rw [this]
    simp only [Option.none_or, List.map_cons, List.map_nil, List.find?_cons, hpn, hsn.1, decide_true]
    exact hv
  · intro before s after he hb hsn'
    rw [C54_first_match, hpairs]
    simp only
    rw [he, List.append_assoc, List.map_append, List.find?_append]
    have : (before.map fun s => (pk, s)).find? (fun p => decide (p.1.name = p.2.name)) = none := by
      rw [List.find?_eq_none]
      intro x hx
      obtain ⟨y, hy, rfl⟩ := List.mem_map.1 hx
      simp only [decide_eq_true_eq, hpn]
      exact fun e => hb y hy e.symm
    rw [this]
    simp only [Option.none_or, List.cons_append, List.map_cons, List.find?_cons, hpn, hsn', decide_true]

/-- C119, the security of verification: suppose every message for which some signature is valid under one of the trusted keys is
the fingerprint of a value that the owner of the keys published (nobody can forge signatures), and the published values are strictly
well-formed. Then whatever a `.narinfo` text contains, if it is parsed, passes `Check` and is verified, its store path, NAR hash, NAR
size and references are those of a published value. -/
theorem C119_trust (E : Ed25519) (keys : List Named) (published : List NarInfo) (hstrict : ∀ m ∈ published, Strict m)
    (hforge : ∀ k ∈ keys, ∀ msg sg, E.verify k.data msg sg = true → ∃ m ∈ published, m.fingerprint = .ok msg)
    (s : Wire.Stream) (n : NarInfo) (f : Bytes) (hp : parse s = .ok n) (hc : n.check = .ok ()) (hf : n.fingerprint = .ok f)
    (hv : verifyFirst E f n.signatures keys = .ok true) :
    ∃ m ∈ published, n.storePath = m.storePath ∧ n.narHash.map (·.hash) = m.narHash.map (·.hash) ∧ n.narSize = m.narSize ∧
      n.references = m.references := by
  obtain ⟨k, hk, sg, _, _, _, _, hver⟩ := (C54_sound E f n.signatures keys).1 hv
  obtain ⟨m, hm, hfm⟩ := hforge k hk f sg.data hver
  refine ⟨m, hm, C51_published n m hc ?_ (hstrict m hm) (hf.trans hfm.symm)⟩
  cases hn : n.narHash with
  | none =>
    unfold NarInfo.fingerprint at hf
    rw [hn] at hf
    simp at hf
  | some h =>
    obtain ⟨_, _, _, _, _, c6, _⟩ := C50_result s n hp
    obtain ⟨v, _, hv⟩ := (c6 h).1 hn
    obtain ⟨name, k, hrow, _⟩ := parseAny_ok hv
    exact ⟨h, name, k, rfl, hrow⟩

/-- The fingerprint of `strictInfo`, its text, and a scheme in which only this is signed. -/
def strictPrint : Bytes := match strictInfo.fingerprint with | .ok t => t | _ => []
def strictText : Bytes := match strictInfo.string with | .ok t => t | _ => []
def onlyStrict : Ed25519 := { toyEd with verify := fun _ msg _ => msg == strictPrint }

example : (∀ m ∈ [strictInfo], Strict m) ∧
    (∀ k ∈ [(⟨b!"k", List.replicate 32 1⟩ : Named)], ∀ msg sg, onlyStrict.verify k.data msg sg = true →
      ∃ m ∈ [strictInfo], m.fingerprint = .ok msg) ∧
    parse ⟨strictText, .eof⟩ = .ok strictInfo ∧ strictInfo.check = .ok () ∧ strictInfo.fingerprint = .ok strictPrint ∧
    verifyFirst onlyStrict strictPrint strictInfo.signatures [⟨b!"k", List.replicate 32 1⟩] = .ok true := by
  have hf : strictInfo.fingerprint = .ok strictPrint := by decide +kernel
  refine ⟨?_, ?_, by decide +kernel, by decide +kernel, hf, by decide +kernel⟩
  · intro m hm
    rw [List.mem_singleton.1 hm]
    exact strictInfo_strict
  · intro k _ msg sg h
    refine ⟨strictInfo, List.mem_singleton.2 rfl, ?_⟩
    have : msg = strictPrint := by simpa [onlyStrict] using h
    rw [this, hf]

/-- `strictInfo` with its two references merged into one. -/
def mergedInfo : NarInfo := { strictInfo with references := [sampleHash ++ b!"-glibc-2.27,/nix/store/" ++ sampleHash ++ b!"-x"] }
def mergedText : Bytes := match mergedInfo.string with | .ok t => t | _ => []

/-- C119: without `Check`, verification does not protect the references: a text with the references of a published value merged into
one is parsed and verified with the signatures of that value. -/
theorem C119_check_needed : parse ⟨mergedText, .eof⟩ = .ok mergedInfo ∧ mergedInfo.fingerprint = .ok strictPrint ∧
    verifyFirst onlyStrict strictPrint mergedInfo.signatures [⟨b!"k", List.replicate 32 1⟩] = .ok true ∧
    mergedInfo.references ≠ strictInfo.references ∧ mergedInfo.check ≠ .ok () := by
  refine ⟨by decide +kernel, by decide +kernel, by decide +kernel, by decide +kernel, by decide +kernel⟩

example : b!"k2" ≠ [] ∧ (58 : UInt8) ∉ b!"k2" ∧ (10 : UInt8) ∉ b!"k2" ∧ b!"k2".length < 1047000 := by decide

end Verif.Props
