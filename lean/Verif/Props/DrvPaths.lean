import Verif.Spec.StoreTerms
import Verif.Lemmas.DrvPaths
import Verif.Props.Derivation

/-! # Properties of the paths of derivations and outputs

`H` is sha256, a parameter; where its digest size matters, that is a hypothesis. -/

namespace Verif.Props
open Verif.GoLib Verif.Wire Verif.Derivation Verif.Storepath Verif.Nixhash Verif.Spec

/-! ## C58 -/

/-- Two input derivations with the same replacement, used with different outputs. -/
def sharedReplacement : Derivation :=
  { sampleDrv with
    inputDerivations := [(b!"/nix/store/" ++ dHash ++ b!"-a.drv", [b!"dev"]), (b!"/nix/store/" ++ dHash ++ b!"-b.drv", [b!"out"])] }

/-- C58 is false as stated: when two input derivations have the same replacement (two fixed-output
derivations with the same output), Go's map order decides which of the two is hashed. The masked text
and the text that is hashed for the replacement differ, for every hash function. -/
theorem C58_refuted : ∃ (d d' : Derivation) (repl : GoMap Bytes) (t t' : Bytes), Maps d ∧ Same d d' ∧ d.validate = .ok () ∧
    repl.keys.Nodup ∧ t ≠ t' ∧ ∀ H, calculateDrvReplacement H d repl = .ok (hexEncode (H t)) ∧
      calculateDrvReplacement H d' repl = .ok (hexEncode (H t')) := by
  refine ⟨sharedReplacement, { sharedReplacement with inputDerivations := sharedReplacement.inputDerivations.reverse },
    [(b!"/nix/store/" ++ dHash ++ b!"-a.drv", b!"ff"), (b!"/nix/store/" ++ dHash ++ b!"-b.drv", b!"ff")],
    (match aterm sharedReplacement false [(b!"/nix/store/" ++ dHash ++ b!"-a.drv", b!"ff"), (b!"/nix/store/" ++ dHash ++ b!"-b.drv", b!"ff")] with | .ok t => t | _ => []),
    (match aterm { sharedReplacement with inputDerivations := sharedReplacement.inputDerivations.reverse } false [(b!"/nix/store/" ++ dHash ++ b!"-a.drv", b!"ff"), (b!"/nix/store/" ++ dHash ++ b!"-b.drv", b!"ff")] with | .ok t => t | _ => []),
    ⟨by decide +kernel, by decide +kernel, by decide +kernel⟩,
    { Same.refl sharedReplacement with inputDerivations := (List.reverse_perm _).symm },
    by decide +kernel, by decide +kernel, by decide +kernel, ?_⟩
  intro H
  have e : ∀ d repl t, fixedOutput d = none → aterm d false repl = .ok t → calculateDrvReplacement H d repl = .ok (hexEncode (H t)) := by
    intro d repl t h1 h2
    unfold calculateDrvReplacement
    rw [h1, h2]
  exact ⟨e _ _ _ (by decide +kernel) (by decide +kernel), e _ _ _ (by decide +kernel) (by decide +kernel)⟩

theorem fixedOutput_same {d d' : Derivation} (h : Same d d') (hm : Maps d) : fixedOutput d = fixedOutput d' := by
  unfold fixedOutput
  rw [h.outputs.length_eq, GoMap.get?_perm hm.outputs h.outputs]

/-- C58, what holds: unless two input derivations with the same replacement are used with different outputs, the
results do not depend on the order in which Go visits the maps of the derivation and of the replacements.
Missing: the other case (refuted). -/
theorem C58_order_partial (H : Bytes → Bytes) (d d' : Derivation) (repl repl' : GoMap Bytes) (hm : Maps d) (h : Same d d')
    (hr : repl.keys.Nodup) (hrr : repl.Perm repl') (hc : ¬ Ambiguous repl d.inputDerivations) :
    calculateDrvReplacement H d repl = calculateDrvReplacement H d' repl' ∧
    ((∃ m m', calculateOutputPaths H d repl = .ok m ∧ calculateOutputPaths H d' repl' = .ok m' ∧ m.keys.Nodup ∧ m.Perm m') ∨
      (∃ e, calculateOutputPaths H d repl = .err e ∧ calculateOutputPaths H d' repl' = .err e) ∨
      (d.getName = [] ∧ calculateOutputPaths H d repl = .panic ∧ calculateOutputPaths H d' repl' = .panic)) := by
  have ha := fun strip => aterm_unambiguous hm h hr hrr hc strip
  have hname := h.getName hm
  constructor
  · unfold calculateDrvReplacement
    rw [← fixedOutput_same h hm, ha false]
  · unfold calculateOutputPaths
    rw [← hname]
    by_cases hn : d.getName = []
    · rw [if_pos hn, if_pos hn]; exact .inr (.inr ⟨hn, rfl, rfl⟩)
    rw [if_neg hn, if_neg hn]
    have hp : ∀ k o, outputPath H d repl d.getName k o = outputPath H d' repl' d.getName k o :=
      fun k o => outputPath_congr H _ _ (fun _ => ha true) rfl rfl
    have hn' : d'.outputs.keys.Nodup := (h.maps hm).outputs
    rcases outputPathsLoop_spec H d repl d.getName hm.outputs with ⟨f, h1, h2⟩ | ⟨⟨o, ho, he⟩, h2⟩
    · rcases outputPathsLoop_spec H d' repl' d.getName hn' with ⟨f', h1', h2'⟩ | ⟨⟨o, ho, he⟩, h2'⟩
      · refine .inl ⟨_, _, h2, h2', ?_, ?_⟩
        · have : GoMap.keys (d.outputs.map fun o => (o.1, f o.1 o.2)) = d.outputs.keys := by
            simp [GoMap.keys, Function.comp_def]
          rw [this]; exact hm.outputs
        · have : d'.outputs.map (fun o => (o.1, f' o.1 o.2)) = d'.outputs.map (fun o => (o.1, f o.1 o.2)) := by
            apply List.map_congr_left
            intro o ho
            have e1 := h1' o ho
            rw [← hp, h1 o (h.outputs.mem_iff.2 ho)] at e1
            rw [Res.ok.inj e1]
          rw [this]
          exact h.outputs.map _
      · rw [← hp, h1 o (h.outputs.mem_iff.2 ho)] at he; cases he
    · rcases outputPathsLoop_spec H d' repl' d.getName hn' with ⟨f', h1', h2'⟩ | ⟨_, h2'⟩
      · have e1 := h1' o (h.outputs.mem_iff.1 ho)
        rw [← hp, he] at e1; cases e1
      · exact .inr (.inl ⟨_, h2, h2'⟩)

/-- replacements of the sample's inputs -/
def sampleRepl : GoMap Bytes :=
  [(b!"/nix/store/" ++ dHash ++ b!"-a.drv", b!"aa"), (b!"/nix/store/" ++ dHash ++ b!"-b.drv", b!"bb")]

example : Maps sampleDrv ∧ sampleRepl.keys.Nodup ∧ ¬ Ambiguous sampleRepl sampleDrv.inputDerivations ∧
    (calculateOutputPaths (fun b => b.take 32) sampleDrv sampleRepl).isOk = true :=
  ⟨sampleDrv_maps, by decide +kernel, by unfold Ambiguous; decide +kernel, by decide +kernel⟩

/-! ## C63 -/

theorem get?_map_snd {α : Type} (m : GoMap α) (f : Bytes → α → α) (k : Bytes) :
    GoMap.get? (m.map fun o => (o.1, f o.1 o.2)) k = (m.get? k).map (f k) := by
  induction m with
  | nil => rfl
  | cons p m ih =>
    obtain ⟨a, v⟩ := p
    simp only [List.map_cons, GoMap.get?]
    split
    · rename_i h; rw [h]; rfl
    · exact ih

theorem keys_map_snd {α : Type} (m : GoMap α) (f : Bytes → α → α) : GoMap.keys (m.map fun o => (o.1, f o.1 o.2)) = m.keys := by
  simp [GoMap.keys, Function.comp_def]

theorem printed_withOutputs (d : Derivation) (path value : Bytes → Bytes) (m : GoMap (List Bytes)) :
    printed (withOutputs d path value) true m = printed d true m := by
  have k1 : (withOutputs d path value).outputs.keys = d.outputs.keys :=
    keys_map_snd d.outputs (fun k o => { o with path := path k })
  have k2 : (withOutputs d path value).env.keys = d.env.keys :=
    keys_map_snd d.env (fun k v => if k ∈ d.outputs.keys then value k else v)
  have e1 : ∀ k, (withOutputs d path value).outputs.get? k = _ :=
    fun k => get?_map_snd d.outputs (fun k o => { o with path := path k }) k
  have e2 : ∀ k, (withOutputs d path value).env.get? k = _ :=
    fun k => get?_map_snd d.env (fun k v => if k ∈ d.outputs.keys then value k else v) k
  unfold printed sortedEntries
  rw [DrvText.mk.injEq]
  refine ⟨?_, rfl, rfl, rfl, rfl, rfl, ?_⟩
  · rw [k1, List.map_map, List.map_map]
    apply List.map_congr_left
    intro k _
    simp only [Function.comp_def, e1]
    cases d.outputs.get? k <;> rfl
  · rw [k2, List.map_map, List.map_map]
    apply List.map_congr_left
    intro k _
    simp only [Function.comp_def, e1, e2, Option.isSome_map, true_and]
    by_cases hk : k ∈ d.outputs.keys
    · rw [if_pos ((GoMap.get?_isSome _ _).2 hk), if_pos ((GoMap.get?_isSome _ _).2 hk)]
    · have : ¬ (d.outputs.get? k).isSome = true := fun h => hk ((GoMap.get?_isSome _ _).1 h)
      rw [if_neg this, if_neg this]
      simp only [if_neg hk]
      cases d.env.get? k <;> rfl

theorem aterm_withOutputs (d : Derivation) (path value : Bytes → Bytes) (repl : GoMap Bytes) :
    aterm (withOutputs d path value) true repl = aterm d true repl := by
  rw [aterm_eq, aterm_eq]
  have : writtenInputs (withOutputs d path value) repl = writtenInputs d repl := rfl
  rw [this]
  cases writtenInputs d repl with
  | ok m => exact congrArg Res.ok (congrArg DrvText.text (printed_withOutputs d path value m))
  | err e => rfl
  | panic => rfl

theorem outputPathsLoop_congr (H : Bytes → Bytes) {d d' : Derivation} {repl : GoMap Bytes} (n : Bytes) (l : GoMap Output)
    (f : Bytes → Output → Output) (hf : ∀ k o, outputPath H d' repl n k (f k o) = outputPath H d repl n k o) :
    ∀ acc, outputPathsLoop H d' repl n acc (l.map fun o => (o.1, f o.1 o.2)) = outputPathsLoop H d repl n acc l := by
  induction l with
  | nil => intro acc; rfl
  | cons p l ih =>
    intro acc
    obtain ⟨k, o⟩ := p
    simp only [List.map_cons, outputPathsLoop, hf]
    cases outputPath H d repl n k o with
    | ok p => exact ih _
    | err e => rfl
    | panic => rfl

/-- C63: whatever paths the outputs have, and whatever the values of the environment variables named like
outputs are, `CalculateOutputPaths` gives the same result, as long as the name is the same (it could be
one of those variables: an output called `name`). -/
theorem C63_self_reference (H : Bytes → Bytes) (d : Derivation) (path value : Bytes → Bytes) (repl : GoMap Bytes)
    (hn : (withOutputs d path value).getName = d.getName) :
    calculateOutputPaths H (withOutputs d path value) repl = calculateOutputPaths H d repl := by
  unfold calculateOutputPaths
  rw [hn]
  by_cases h0 : d.getName = []
  · rw [if_pos h0, if_pos h0]
  rw [if_neg h0, if_neg h0]
  exact outputPathsLoop_congr H _ d.outputs (fun k o => { o with path := path k })
    (fun k o => outputPath_congr H _ _ (fun _ => aterm_withOutputs d path value repl) rfl rfl) []

/-- The name is the same unless an output has the name of the variable it is in. -/
theorem C63_name (d : Derivation) (path value : Bytes → Bytes) (h1 : b!"name" ∉ d.outputs.keys) :
    (withOutputs d path value).getName = d.getName := by
  unfold Derivation.getName
  have e2 : ∀ k, (withOutputs d path value).env.get? k = _ :=
    fun k => get?_map_snd d.env (fun k v => if k ∈ d.outputs.keys then value k else v) k
  rw [e2, e2, Option.isSome_map]
  have : (withOutputs d path value).name = d.name := rfl
  rw [this]
  have : (d.env.get? b!"name").map (fun v => if b!"name" ∈ d.outputs.keys then value b!"name" else v) = d.env.get? b!"name" := by
    rw [show (fun v : Bytes => if b!"name" ∈ d.outputs.keys then value b!"name" else v) = id from by
      funext v; rw [if_neg h1]; rfl]
    simp
  rw [this]

example : b!"name" ∉ sampleDrv.outputs.keys ∧ b!"out" ∈ sampleDrv.outputs.keys ∧
    (calculateOutputPaths (fun b => b.take 32) sampleDrv sampleRepl).isOk = true := by decide +kernel

/-! ## C64 -/

/-- C64: the path of a fixed output depends on the name, the algorithm and the hash only; the replacement
of the derivation on the algorithm, the hash and the recorded path only. -/
theorem C64_fixed_output (H : Bytes → Bytes) (d d' : Derivation) (repl repl' : GoMap Bytes) (o o' : Output)
    (h : d.outputs = [(b!"out", o)]) (h' : d'.outputs = [(b!"out", o')]) (hf : o.hashAlgorithm ≠ [])
    (ha : o.hashAlgorithm = o'.hashAlgorithm) (hh : o.hash = o'.hash) :
    (d.getName = d'.getName → calculateOutputPaths H d repl = calculateOutputPaths H d' repl') ∧
    (o.path = o'.path → calculateDrvReplacement H d repl = calculateDrvReplacement H d' repl') := by
  constructor
  · intro hn
    unfold calculateOutputPaths
    rw [h, h', ← hn]
    by_cases h0 : d.getName = []
    · rw [if_pos h0, if_pos h0]
    rw [if_neg h0, if_neg h0]
    unfold outputPathsLoop
    rw [outputPath_congr H _ _ (fun e => absurd e hf) ha hh]
    rfl
  · intro hp
    have f1 : fixedOutput d = some o := by
      unfold fixedOutput
      rw [h]
      simp [GoMap.get?, hf]
    have f2 : fixedOutput d' = some o' := by
      unfold fixedOutput
      rw [h']
      simp [GoMap.get?, ← ha, hf]
    unfold calculateDrvReplacement
    rw [f1, f2]
    simp only [ha, hh, hp]

/-- two fixed-output derivations that have nothing else in common -/
example : ∃ d d' : Derivation, ∃ o o' : Output, d.outputs = [(b!"out", o)] ∧ d'.outputs = [(b!"out", o')] ∧ o.hashAlgorithm ≠ [] ∧
    o.hashAlgorithm = o'.hashAlgorithm ∧ o.hash = o'.hash ∧ d.builder ≠ d'.builder ∧ d.getName = d'.getName ∧ d.getName ≠ [] ∧
    (calculateOutputPaths (fun b => b.take 32) d []).isOk = true :=
  ⟨{ sampleDrv with outputs := [(b!"out", ⟨b!"p", b!"sha256", b!"00"⟩)] },
    { sampleDrv with outputs := [(b!"out", ⟨b!"p", b!"sha256", b!"00"⟩)], builder := b!"b" }, ⟨b!"p", b!"sha256", b!"00"⟩, ⟨b!"p", b!"sha256", b!"00"⟩,
    rfl, rfl, by decide, rfl, rfl, by decide, by decide, by decide, by decide +kernel⟩

/-! ## C66 -/

/-- C66 is false as stated: `Validate` accepts an empty name, with which both functions panic. -/
theorem C66_refuted : ∃ d : Derivation, Maps d ∧ d.validate = .ok () ∧ (∀ H, drvPath H d = .panic) ∧
    ∀ H repl, calculateOutputPaths H d repl = .panic := by
  refine ⟨{ sampleDrv with env := [(b!"name", [])] }, ⟨by decide +kernel, by decide +kernel, by decide +kernel⟩, by decide +kernel, ?_, ?_⟩
  · intro H
    unfold drvPath
    rw [aterm_nil, Res.bind_ok]
    rw [if_pos (by decide)]
  · intro H repl
    unfold calculateOutputPaths
    rw [if_pos (by decide)]

/-- C66, what holds: with a name, they do not panic (whether or not the derivation is valid). Missing: the
empty name (refuted). -/
theorem C66_no_panic_partial (H : Bytes → Bytes) (d : Derivation) (hn : d.getName ≠ []) :
    (∃ p, drvPath H d = .ok p) ∧ (∀ repl, calculateOutputPaths H d repl ≠ .panic) ∧
    ∀ repl, calculateDrvReplacement H d repl ≠ .panic := by
  refine ⟨?_, ?_, ?_⟩
  · unfold drvPath
    rw [aterm_nil, Res.bind_ok, if_neg hn]
    obtain ⟨x, hx, _⟩ := compress_ok (H (drvPathText H d (printed d false d.inputDerivations).text))
    rw [hx]; exact ⟨_, rfl⟩
  · intro repl
    unfold calculateOutputPaths
    rw [if_neg hn]
    generalize ([] : GoMap Bytes) = acc
    have : ∀ l : GoMap Output, ∀ acc, outputPathsLoop H d repl d.getName acc l ≠ .panic := by
      intro l
      induction l with
      | nil => intro acc; simp [outputPathsLoop]
      | cons p l ih =>
        intro acc
        obtain ⟨k, o⟩ := p
        rw [outputPathsLoop]
        refine res_bind_ne_panic ?_ fun _ _ => ih _
        rcases outputPath_cases H d repl d.getName k o with ⟨p, h⟩ | ⟨_, _, h⟩
        · rw [h]; simp
        · rw [h]; simp
    exact this _ _
  · intro repl
    unfold calculateDrvReplacement
    split
    · simp
    · split
      · simp
      · rename_i h; exact absurd h (aterm_ne_panic _ _ _)
      · simp

example : sampleDrv.getName ≠ [] ∧ sampleDrv.validate = .ok () := by decide +kernel

/-! ## C65 -/

theorem compress_folded (h : Bytes) : ∃ d, compressHash h 20 = .ok d ∧ Folded h d := by
  obtain ⟨o, h1, h2, h3⟩ := C12_compress h 20 (by omega)
  exact ⟨o, h1, h2, h3⟩

theorem folded_unique {h d d' : Bytes} (h1 : Folded h d) (h2 : Folded h d') : d = d' := by
  apply List.ext_getElem?
  intro i
  by_cases hi : i < 20
  · rw [h1.2 i hi, h2.2 i hi]
  · rw [List.getElem?_eq_none (by rw [h1.1]; omega), List.getElem?_eq_none (by rw [h2.1]; omega)]

theorem join_text (a : Bytes) (l : List Bytes) :
    join (a :: l) b!":" ++ b!":" = a ++ b!":" ++ l.flatMap fun r => r ++ b!":" := by
  induction l generalizing a with
  | nil => simp [join]
  | cons b l ih =>
    rw [join, List.append_assoc, ih b]
    simp

theorem drvPathText_eq (H : Bytes → Bytes) (d : Derivation) (t : Bytes) :
    drvPathText H d t = fingerprint (join (b!"text" :: sortStrings (d.inputDerivations.keys ++ d.inputSources)) b!":")
      (hexEncode (H t)) (d.getName ++ b!".drv") := by
  have := join_text b!"text" (sortStrings (d.inputDerivations.keys ++ d.inputSources))
  unfold drvPathText fingerprint
  have e : b!":sha256:" = b!":" ++ b!"sha256:" := rfl
  have e2 : b!":/nix/store:" = b!":" ++ storeDir ++ b!":" := rfl
  rw [e, e2, ← List.append_assoc _ b!":" b!"sha256:", this]
  simp only [List.append_assoc]
  rfl

theorem nameChars_append {a b : Bytes} (ha : NameChars a) (hb : NameChars b) : NameChars (a ++ b) := by
  intro c hc
  rcases List.mem_append.1 hc with h | h
  · exact ha c h
  · exact hb c h

theorem absolute_nixPath {H : Bytes → Bytes} {type inner name digest : Bytes} (hn : NameChars name) (h0 : name ≠ [])
    (hd : Folded (H (fingerprint type inner name)) digest) :
    IsNixPath H type inner name (StorePath.absolute ⟨name, digest⟩) ∧ IsStorePath (StorePath.absolute ⟨name, digest⟩) := by
  obtain ⟨h1, _, _, h2⟩ := C41_roundtrip ⟨name, digest⟩ hd.1 hn
  refine ⟨⟨digest, hd, ?_⟩, (h2 h0).1⟩
  rw [h1]
  simp [StorePath.string]

/-- C65: the path of a derivation with a name is the store path, as specified by Nix, of type `text` with the
sorted references, made from the hash of what `WriteDerivation` writes; it is valid. -/
theorem C65_drv_path (H : Bytes → Bytes) (d : Derivation) (hm : Maps d) (h0 : d.getName ≠ []) (hn : NameChars d.getName) :
    ∃ t refs p, Prints d t ∧ refs.Perm (d.inputDerivations.keys ++ d.inputSources) ∧ refs.Pairwise (· ≤ ·) ∧
      drvPath H d = .ok p ∧
      IsNixPath H (join (b!"text" :: refs) b!":") (hexEncode (H t.text)) (d.getName ++ b!".drv") p ∧ IsStorePath p := by
  refine ⟨printed d false d.inputDerivations, sortStrings (d.inputDerivations.keys ++ d.inputSources), ?_⟩
  obtain ⟨g, h1, h2⟩ := compress_folded (H (drvPathText H d (printed d false d.inputDerivations).text))
  refine ⟨StorePath.absolute ⟨d.getName ++ b!".drv", g⟩, printed_prints hm, sortStrings_perm _, sortStrings_sorted _, ?_, ?_⟩
  · unfold drvPath
    rw [aterm_nil, Res.bind_ok, if_neg h0, h1]
    rfl
  · rw [drvPathText_eq] at h2
    exact absolute_nixPath (nameChars_append hn (by decide)) (by simp) h2

/-- C65: and it does not depend on the order in which Go visits the maps. -/
theorem C65_order (H : Bytes → Bytes) (d d' : Derivation) (hm : Maps d) (h : Same d d') : drvPath H d = drvPath H d' := by
  have hname := h.getName hm
  have ht := printed_congr h hm false h.inputDerivations hm.inputDerivations
  unfold drvPath
  rw [aterm_nil, aterm_nil, Res.bind_ok, Res.bind_ok, ← ht, ← hname]
  have : drvPathText H d (printed d false d.inputDerivations).text = drvPathText H d' (printed d false d.inputDerivations).text := by
    unfold drvPathText
    rw [← hname, h.inputSources, sortStrings_congr ((keys_perm h.inputDerivations).append_right _)]
  rw [this]

example : Maps sampleDrv ∧ sampleDrv.getName ≠ [] ∧ NameChars sampleDrv.getName := ⟨sampleDrv_maps, by decide, by decide⟩

/-! ## C86 -/

/-- Two derivations that differ in their arguments. -/
def oneArgument : Derivation := { sampleDrv with arguments := [b!"a\",\"b"] }
def twoArguments : Derivation := { sampleDrv with arguments := [b!"a", b!"b"] }

/-- C86 is false as stated: arguments are written without escaping, so that different valid derivations have the
same text, and the same path for every hash function. -/
theorem C86_refuted : Maps oneArgument ∧ Maps twoArguments ∧ oneArgument.validate = .ok () ∧ twoArguments.validate = .ok () ∧
    oneArgument.arguments ≠ twoArguments.arguments ∧ (∀ w, oneArgument.write w = twoArguments.write w ∨ w.budget ≠ none) ∧
    ∀ H, drvPath H oneArgument = drvPath H twoArguments := by
  have hp : (printed oneArgument false oneArgument.inputDerivations).text = (printed twoArguments false twoArguments.inputDerivations).text := by
    decide +kernel
  refine ⟨⟨by decide +kernel, by decide +kernel, by decide +kernel⟩, ⟨by decide +kernel, by decide +kernel, by decide +kernel⟩,
    by decide +kernel, by decide +kernel, by decide, ?_, ?_⟩
  · rintro ⟨o, b⟩
    cases b with
    | some k => exact .inr (by simp)
    | none =>
      left
      obtain ⟨cs, h1, h2⟩ := write_chunks oneArgument
      obtain ⟨cs', h1', h2'⟩ := write_chunks twoArguments
      unfold Derivation.write
      rw [h1, h1']
      show writeChunks cs _ = writeChunks cs' _
      rw [writeChunks_none, writeChunks_none, h2, h2', hp]
  · intro H
    unfold drvPath
    rw [aterm_nil, aterm_nil, Res.bind_ok, Res.bind_ok, hp]
    rfl

theorem isNixPath_inj {H : Bytes → Bytes} {ty ty' i i' n n' p : Bytes} (h : IsNixPath H ty i n p) (h' : IsNixPath H ty' i' n' p) :
    n = n' ∧ ∃ g, Folded (H (fingerprint ty i n)) g ∧ Folded (H (fingerprint ty' i' n')) g := by
  obtain ⟨g, hg, e⟩ := h
  obtain ⟨g', hg', e'⟩ := h'
  rw [e, List.append_assoc, List.append_assoc, List.append_assoc, List.append_assoc] at e'
  have e1 := List.append_cancel_left e'
  have hl : ∀ {g x : Bytes}, Folded x g → (Nixbase32.encodeToString g).length = 32 := by
    intro g x h
    rw [(C03_encode_is_numeral g).1, h.1]
  obtain ⟨e2, e3⟩ := List.append_inj e1 (by rw [hl hg, hl hg'])
  have := C02_encode_injective _ _ e2
  subst this
  exact ⟨List.append_cancel_left e3, g, hg, hg'⟩

theorem hexEncode_length (b : Bytes) : (hexEncode b).length = 2 * b.length := by
  induction b with
  | nil => rfl
  | cons c b ih =>
    simp only [hexEncode, List.flatMap_cons, List.length_append, List.length_cons, List.length_nil] at ih ⊢
    omega

/-- C86, what holds: when the strings that are written unescaped can stand between quotes, two derivations with the
same path have the same contents, unless two different texts that are hashed for their paths have the same hash.
(`H` is sha256, with digests of 32 bytes. The private field `name` is not part of the contents.) Missing: the other
strings (refuted). -/
theorem C86_injective_partial (H : Bytes → Bytes) (hH : ∀ x, (H x).length = 32) (d d' : Derivation) (hm : Maps d) (hm' : Maps d')
    (hr : Quotable d) (hr' : Quotable d') (h0 : d.getName ≠ []) (h0' : d'.getName ≠ []) (hn : NameChars d.getName)
    (hn' : NameChars d'.getName) (h : drvPath H d = drvPath H d') :
    Same { d with name := [] } { d' with name := [] } ∨
    (∃ t t', Prints d t ∧ Prints d' t' ∧ t.text ≠ t'.text ∧ H t.text = H t'.text) ∨
    (∃ t t' refs refs', Prints d t ∧ Prints d' t' ∧ refs.Perm (d.inputDerivations.keys ++ d.inputSources) ∧
      refs'.Perm (d'.inputDerivations.keys ++ d'.inputSources) ∧
      let x := fingerprint (join (b!"text" :: refs) b!":") (hexEncode (H t.text)) (d.getName ++ b!".drv")
      let x' := fingerprint (join (b!"text" :: refs') b!":") (hexEncode (H t'.text)) (d'.getName ++ b!".drv")
      x ≠ x' ∧ ∃ g, Folded (H x) g ∧ Folded (H x') g) := by
  obtain ⟨t, refs, p, h1, h2, _, h3, h4, _⟩ := C65_drv_path H d hm h0 hn
  obtain ⟨t', refs', p', h1', h2', _, h3', h4', _⟩ := C65_drv_path H d' hm' h0' hn'
  rw [h, h3'] at h3
  cases Res.ok.inj h3
  obtain ⟨en, hg⟩ := isNixPath_inj h4 h4'
  by_cases hx : fingerprint (join (b!"text" :: refs) b!":") (hexEncode (H t.text)) (d.getName ++ b!".drv") =
      fingerprint (join (b!"text" :: refs') b!":") (hexEncode (H t'.text)) (d'.getName ++ b!".drv")
  · unfold fingerprint at hx
    rw [en] at hx
    have e1 := List.append_cancel_right (List.append_cancel_right hx)
    obtain ⟨_, e2⟩ := List.append_inj' e1 (by rw [hexEncode_length, hexEncode_length, hH, hH])
    have e3 := hexEncode_inj e2
    by_cases ht : t.text = t'.text
    · left
      rw [prints_unique h1 (printed_prints hm), prints_unique h1' (printed_prints hm')] at ht
      have := text_inj (printed_closed hm hr _ hr.inputDrvs hm.inputDerivations false)
        (printed_closed hm' hr' _ hr'.inputDrvs hm'.inputDerivations false) ht
      have p1 := printed_prints hm'
      rw [← this] at p1
      have p2 := printed_prints hm
      exact prints_same (d := { d with name := [] }) (d' := { d' with name := [] }) ⟨p2.1, p2.2, p2.3, p2.4, p2.5, p2.6, p2.7, p2.8, p2.9, p2.10⟩
        ⟨p1.1, p1.2, p1.3, p1.4, p1.5, p1.6, p1.7, p1.8, p1.9, p1.10⟩ rfl
    · exact .inr (.inl ⟨t, t', h1, h1', ht, e3⟩)
  · exact .inr (.inr ⟨t, t', refs, refs', h1, h1', h2, h2', hx, hg⟩)

example : Maps sampleDrv ∧ Quotable sampleDrv ∧ sampleDrv.getName ≠ [] ∧ NameChars sampleDrv.getName :=
  ⟨sampleDrv_maps, sampleDrv_raw.quotable, by decide, by decide⟩

/-! ## C87, C88 -/

theorem outputPathName_eq : outputPathName = outputStoreName := rfl

/-- The output path of a derivation, in terms of the specification. -/
theorem outputPath_spec (H : Bytes → Bytes) (d : Derivation) (repl : GoMap Bytes) (n k : Bytes) (o : Output) (hn : NameChars n)
    (hk : NameChars k) (h0 : n ≠ []) (hf : o.hashAlgorithm ≠ [] → k = b!"out") (p : Bytes) (h : outputPath H d repl n k o = .ok p) :
    (o.hashAlgorithm = b!"r:sha256" → IsNixPath H b!"source" o.hash n p) ∧
    (o.hashAlgorithm ≠ b!"r:sha256" → o.hashAlgorithm ≠ [] →
      IsNixPath H b!"output:out" (hexEncode (H (b!"fixed:out:" ++ o.hashAlgorithm ++ b!":" ++ o.hash ++ b!":"))) n p) ∧
    (o.hashAlgorithm = [] → ∃ t, aterm d true repl = .ok t ∧
      IsNixPath H (b!"output:" ++ k) (hexEncode (H t)) (outputStoreName n k) p) := by
  unfold outputPath at h
  rw [Res.bind_eq_ok] at h
  obtain ⟨x, hx, h⟩ := h
  obtain ⟨g, hg, hfold⟩ := compress_folded x
  rw [hg, Res.bind_ok] at h
  have hp := (Res.ok.inj h).symm
  rw [outputPathName_eq] at hp
  have hsn : NameChars (outputStoreName n k) := by
    unfold outputStoreName
    split
    · exact hn
    · exact nameChars_append (nameChars_append hn (by decide)) hk
  have hsn0 : outputStoreName n k ≠ [] := by
    unfold outputStoreName
    split
    · exact h0
    · simp
  have key : ∀ {ty i : Bytes}, x = H (fingerprint ty i (outputStoreName n k)) → IsNixPath H ty i (outputStoreName n k) p := by
    intro ty i hxe
    rw [hp]
    rw [hxe] at hfold
    exact (absolute_nixPath hsn hsn0 hfold).1
  have hso : o.hashAlgorithm ≠ [] → outputStoreName n k = n := by
    intro ha
    unfold outputStoreName
    rw [if_pos (hf ha)]
  unfold storeHash at hx
  refine ⟨?_, ?_, ?_⟩
  · intro ha
    rw [if_pos (by rw [ha]; decide), if_pos ha] at hx
    have := hso (by rw [ha]; decide)
    rw [this] at key
    refine key ?_
    rw [← Res.ok.inj hx]
    unfold hashStrings fingerprint
    refine congrArg H ?_
    simp [join, storeDir]
  · intro ha ha'
    rw [if_pos ha', if_neg ha] at hx
    rw [hso ha'] at key
    refine key ?_
    rw [← Res.ok.inj hx]
    unfold hashStrings fingerprint
    refine congrArg H ?_
    simp [join, storeDir]
  · intro ha
    rw [if_neg (by simp [ha])] at hx
    unfold maskedATermHash at hx
    cases hat : aterm d true repl with
    | panic => exact absurd hat (aterm_ne_panic _ _ _)
    | err e => rw [hat] at hx; cases hx
    | ok t =>
      rw [hat] at hx
      refine ⟨t, rfl, key ?_⟩
      rw [← Res.ok.inj hx]
      unfold hashStrings fingerprint
      refine congrArg H ?_
      simp [join, storeDir, outputPathName_eq]

theorem masked_maps {d : Derivation} (hm : Maps d) : Maps (masked d) := by
  refine ⟨?_, hm.inputDerivations, ?_⟩
  · have : (masked d).outputs.keys = d.outputs.keys := keys_map_snd d.outputs (fun _ o => { o with path := [] })
    rw [this]; exact hm.outputs
  · have : (masked d).env.keys = d.env.keys := keys_map_snd d.env (fun k v => if k ∈ d.outputs.keys then [] else v)
    rw [this]; exact hm.env

theorem printed_masked (d : Derivation) (m : GoMap (List Bytes)) :
    printed d true m = printed { masked d with inputDerivations := m } false m := by
  have k1 : (masked d).outputs.keys = d.outputs.keys := keys_map_snd d.outputs (fun _ o => { o with path := [] })
  have k2 : (masked d).env.keys = d.env.keys := keys_map_snd d.env (fun k v => if k ∈ d.outputs.keys then [] else v)
  have e1 : ∀ k, (masked d).outputs.get? k = _ := fun k => get?_map_snd d.outputs (fun _ o => { o with path := [] }) k
  have e2 : ∀ k, (masked d).env.get? k = _ := fun k => get?_map_snd d.env (fun k v => if k ∈ d.outputs.keys then [] else v) k
  unfold printed sortedEntries
  rw [DrvText.mk.injEq]
  refine ⟨?_, rfl, rfl, rfl, rfl, rfl, ?_⟩
  · show _ = List.map _ (List.map _ (sortStrings (masked d).outputs.keys))
    rw [k1, List.map_map, List.map_map]
    apply List.map_congr_left
    intro k _
    simp only [Function.comp_def, e1]
    cases d.outputs.get? k <;> rfl
  · show _ = List.map _ (List.map _ (sortStrings (masked d).env.keys))
    rw [k2, List.map_map, List.map_map]
    apply List.map_congr_left
    intro k _
    simp only [Function.comp_def, e2]
    by_cases hk : k ∈ d.outputs.keys
    · rw [if_pos ⟨trivial, (GoMap.get?_isSome _ _).2 hk⟩]
      simp only [if_pos hk]
      cases d.env.get? k <;> simp [escaped]
    · have : ¬ (d.outputs.get? k).isSome = true := fun h => hk ((GoMap.get?_isSome _ _).1 h)
      rw [if_neg (fun h => this h.2)]
      simp only [if_neg hk]
      cases d.env.get? k <;> simp

/-- The masked text: what `WriteDerivation` would write for the derivation with the outputs masked and the inputs
replaced. -/
theorem aterm_masked {d : Derivation} (hm : Maps d) {repl : GoMap Bytes} (hc : ¬ Ambiguous repl d.inputDerivations) {t : Bytes}
    (h : aterm d true repl = .ok t) : ∃ inputs x, Replaced repl d.inputDerivations inputs ∧
      Prints { masked d with inputDerivations := inputs } x ∧ t = x.text := by
  rw [aterm_eq, Res.bind_eq_ok] at h
  obtain ⟨m, h1, h2⟩ := h
  have hm' := masked_maps hm
  rw [printed_masked] at h2
  unfold writtenInputs at h1
  by_cases h0 : repl = []
  · rw [if_pos (by rw [h0]; rfl)] at h1
    cases Res.ok.inj h1
    refine ⟨_, _, ?_, printed_prints (d := { masked d with inputDerivations := d.inputDerivations })
      ⟨hm'.outputs, hm.inputDerivations, hm'.env⟩, (Res.ok.inj h2).symm⟩
    unfold Replaced
    rw [if_pos h0]
  · rw [if_neg (by simpa using h0)] at h1
    have hall : ∀ i ∈ d.inputDerivations, repl.get? i.1 ≠ none := by
      intro i hi hn
      rw [replaceInputs_err ⟨i, hi, hn⟩] at h1
      cases h1
    obtain ⟨m', e1, e2, e3⟩ := replaceInputs_ok hall (consistent_of h0 hall hc) [] (by simp [GoMap.keys]) (by simp [GoMap.get?])
    rw [e1] at h1
    cases Res.ok.inj h1
    refine ⟨_, _, ?_, printed_prints (d := { masked d with inputDerivations := m }) ⟨hm'.outputs, e2, hm'.env⟩, (Res.ok.inj h2).symm⟩
    unfold Replaced
    rw [if_neg h0]
    refine ⟨e2, hall, ?_⟩
    intro k v
    have := e3 k v
    simp only [GoMap.get?, reduceCtorEq, false_or] at this
    rw [← this]
    exact ⟨fun hmem => GoMap.get?_of_mem e2 hmem, GoMap.get?_mem⟩

/-- C88: the output paths are those specified by Nix: of type `source` or `output:out` with the fixed hash for fixed
outputs, of type `output:<name>` with the hash of the masked text for the others. -/
theorem C88_output_paths (H : Bytes → Bytes) (d : Derivation) (repl m : GoMap Bytes) (hm : Maps d) (hv : d.validate = .ok ())
    (hc : ¬ Ambiguous repl d.inputDerivations) (hn : NameChars d.getName) (hk : ∀ o ∈ d.outputs, NameChars o.1)
    (h : calculateOutputPaths H d repl = .ok m) :
    m.keys = d.outputs.keys ∧ ∀ o ∈ d.outputs, ∃ p, (o.1, p) ∈ m ∧
      (o.2.hashAlgorithm = b!"r:sha256" → IsNixPath H b!"source" o.2.hash d.getName p) ∧
      (o.2.hashAlgorithm ≠ b!"r:sha256" → o.2.hashAlgorithm ≠ [] →
        IsNixPath H b!"output:out" (hexEncode (H (b!"fixed:out:" ++ o.2.hashAlgorithm ++ b!":" ++ o.2.hash ++ b!":"))) d.getName p) ∧
      (o.2.hashAlgorithm = [] → ∃ inputs x, Replaced repl d.inputDerivations inputs ∧
        Prints { masked d with inputDerivations := inputs } x ∧
        IsNixPath H (b!"output:" ++ o.1) (hexEncode (H x.text)) (outputStoreName d.getName o.1) p) := by
  have hw := ((validate_iff' d).1 hv).1
  unfold calculateOutputPaths at h
  by_cases h0 : d.getName = []
  · rw [if_pos h0] at h; cases h
  rw [if_neg h0] at h
  rcases outputPathsLoop_spec H d repl d.getName hm.outputs with ⟨f, h1, h2⟩ | ⟨_, h2⟩
  · rw [h2] at h
    have hm' := (Res.ok.inj h).symm
    refine ⟨by rw [hm']; simp [GoMap.keys, Function.comp_def], ?_⟩
    intro o ho
    refine ⟨f o.1 o.2, ?_, ?_⟩
    · rw [hm']
      exact List.mem_map.2 ⟨o, ho, rfl⟩
    · obtain ⟨r1, r2, r3⟩ := outputPath_spec H d repl d.getName o.1 o.2 hn (hk o ho) h0
        (fun hf => ((hw.outputs o ho).2.1 hf).2) _ (h1 o ho)
      refine ⟨r1, r2, ?_⟩
      intro ha
      obtain ⟨t, ht, hp⟩ := r3 ha
      obtain ⟨inputs, x, q1, q2, q3⟩ := aterm_masked hm hc ht
      exact ⟨inputs, x, q1, q2, by rw [← q3]; exact hp⟩
  · rw [h2] at h; cases h

example : Maps sampleDrv ∧ sampleDrv.validate = .ok () ∧ ¬ Ambiguous sampleRepl sampleDrv.inputDerivations ∧
    NameChars sampleDrv.getName ∧ (∀ o ∈ sampleDrv.outputs, NameChars o.1) ∧
    (calculateOutputPaths (fun b => b.take 32) sampleDrv sampleRepl).isOk = true :=
  ⟨sampleDrv_maps, sampleDrv_valid, by unfold Ambiguous; decide +kernel, by decide, by decide, by decide +kernel⟩

/-- C88: `CalculateOutputPaths` fails exactly when there is an output that is not fixed, and an input derivation is
missing among the replacements, of which there is at least one. -/
theorem C88_fails_iff (H : Bytes → Bytes) (d : Derivation) (repl : GoMap Bytes) (hm : Maps d) (h0 : d.getName ≠ [])
    : (∃ e, calculateOutputPaths H d repl = .err e) ↔
      (∃ o ∈ d.outputs, o.2.hashAlgorithm = []) ∧ repl ≠ [] ∧ ∃ i ∈ d.inputDerivations, repl.get? i.1 = none := by
  have hat : (∃ e, aterm d true repl = .err e) ↔ repl ≠ [] ∧ ∃ i ∈ d.inputDerivations, repl.get? i.1 = none := by
    rw [aterm_eq]
    unfold writtenInputs
    by_cases hr : repl = []
    · rw [if_pos (by rw [hr]; rfl)]
      simp [hr]
    · rw [if_neg (by simpa using hr)]
      simp only [hr, ne_eq, not_false_eq_true, true_and]
      constructor
      · rintro ⟨e, he⟩
        apply Classical.byContradiction
        intro hne
        have : ∀ (l : GoMap (List Bytes)), (∀ i ∈ l, repl.get? i.1 ≠ none) → ∀ acc, ∃ m, replaceInputs repl acc l = .ok m := by
          intro l
          induction l with
          | nil => intro _ acc; exact ⟨acc, rfl⟩
          | cons p l ih =>
            intro hl acc
            obtain ⟨k, v⟩ := p
            rw [replaceInputs]
            cases hg : repl.get? k with
            | none => exact absurd hg (hl (k, v) (by simp))
            | some r => exact ih (fun i hi => hl i (by simp [hi])) _
        obtain ⟨m, hm⟩ := this d.inputDerivations (fun i hi hx => hne ⟨i, hi, hx⟩) []
        rw [hm] at he
        cases he
      · intro h
        rw [replaceInputs_err h]
        exact ⟨_, rfl⟩
  unfold calculateOutputPaths
  rw [if_neg h0]
  rcases outputPathsLoop_spec H d repl d.getName hm.outputs with ⟨f, h1, h2⟩ | ⟨⟨o, ho, he⟩, h2⟩
  · rw [h2]
    constructor
    · rintro ⟨e, he⟩; cases he
    · rintro ⟨⟨o, ho, ha⟩, hx⟩
      obtain ⟨e, he⟩ := hat.2 hx
      have e1 := h1 o ho
      rcases outputPath_cases H d repl d.getName o.1 o.2 with ⟨p, h⟩ | ⟨_, _, h⟩
      · unfold outputPath storeHash at h
        rw [if_neg (by simp [ha])] at h
        unfold maskedATermHash at h
        rw [he] at h
        cases h
      · rw [h] at e1; cases e1
  · rw [h2]
    refine ⟨fun _ => ?_, fun _ => ⟨_, rfl⟩⟩
    rcases outputPath_cases H d repl d.getName o.1 o.2 with ⟨p, h⟩ | ⟨ha, hx, _⟩
    · rw [h] at he; cases he
    · exact ⟨⟨o, ho, ha⟩, hat.1 hx⟩

/-- C87: different outputs of a derivation have different paths, whatever the hash function. -/
theorem C87_distinct (H : Bytes → Bytes) (d : Derivation) (repl m : GoMap Bytes) (hm : Maps d) (hv : d.validate = .ok ())
    (hn : NameChars d.getName) (hk : ∀ o ∈ d.outputs, NameChars o.1)
    (h : calculateOutputPaths H d repl = .ok m) (k k' p : Bytes) (h1 : (k, p) ∈ m) (h2 : (k', p) ∈ m) : k = k' := by
  have hw := ((validate_iff' d).1 hv).1
  unfold calculateOutputPaths at h
  by_cases h0 : d.getName = []
  · rw [if_pos h0] at h; cases h
  rw [if_neg h0] at h
  have getName : ∀ k, (k, p) ∈ m → ∃ ty i, IsNixPath H ty i (outputStoreName d.getName k) p := by
    intro k hkm
    rcases outputPathsLoop_spec H d repl d.getName hm.outputs with ⟨f, hf1, h2⟩ | ⟨_, h2⟩
    · rw [h2] at h
      rw [← Res.ok.inj h] at hkm
      obtain ⟨o, ho, he⟩ := List.mem_map.1 hkm
      obtain ⟨rfl, rfl⟩ := Prod.mk.inj he
      obtain ⟨q1, q2, q3⟩ := outputPath_spec H d repl d.getName o.1 o.2 hn (hk o ho) h0
        (fun hf => ((hw.outputs o ho).2.1 hf).2) _ (hf1 o ho)
      have hso : o.2.hashAlgorithm ≠ [] → outputStoreName d.getName o.1 = d.getName := by
        intro ha
        unfold outputStoreName
        rw [if_pos ((hw.outputs o ho).2.1 ha).2]
      by_cases ha : o.2.hashAlgorithm = []
      · obtain ⟨_, _, hx⟩ := q3 ha
        exact ⟨_, _, hx⟩
      · rw [hso ha]
        by_cases hb : o.2.hashAlgorithm = b!"r:sha256"
        · exact ⟨_, _, q1 hb⟩
        · exact ⟨_, _, q2 hb ha⟩
    · rw [h2] at h; cases h
  obtain ⟨_, _, p1⟩ := getName k h1
  obtain ⟨_, _, p2⟩ := getName k' h2
  have e := (isNixPath_inj p1 p2).1
  unfold outputStoreName at e
  by_cases ho : k = b!"out"
  · by_cases ho' : k' = b!"out"
    · rw [ho, ho']
    · rw [if_pos ho, if_neg ho'] at e
      have := congrArg List.length e
      simp at this
  · by_cases ho' : k' = b!"out"
    · rw [if_neg ho, if_pos ho'] at e
      have := congrArg List.length e
      simp at this
    · rw [if_neg ho, if_neg ho'] at e
      exact List.append_cancel_left e

/-! ## C89 -/

theorem aterm_replaced {d : Derivation} (hm : Maps d) {repl : GoMap Bytes} (hc : ¬ Ambiguous repl d.inputDerivations) {t : Bytes}
    (h : aterm d false repl = .ok t) : ∃ inputs x, Replaced repl d.inputDerivations inputs ∧
      Prints { d with inputDerivations := inputs } x ∧ t = x.text := by
  rw [aterm_eq, Res.bind_eq_ok] at h
  obtain ⟨m, h1, h2⟩ := h
  have e : printed d false m = printed { d with inputDerivations := m } false m := rfl
  rw [e] at h2
  unfold writtenInputs at h1
  by_cases h0 : repl = []
  · rw [if_pos (by rw [h0]; rfl)] at h1
    cases Res.ok.inj h1
    refine ⟨_, _, ?_, printed_prints (d := { d with inputDerivations := d.inputDerivations })
      ⟨hm.outputs, hm.inputDerivations, hm.env⟩, (Res.ok.inj h2).symm⟩
    unfold Replaced
    rw [if_pos h0]
  · rw [if_neg (by simpa using h0)] at h1
    have hall : ∀ i ∈ d.inputDerivations, repl.get? i.1 ≠ none := by
      intro i hi hn
      rw [replaceInputs_err ⟨i, hi, hn⟩] at h1
      cases h1
    obtain ⟨m', e1, e2, e3⟩ := replaceInputs_ok hall (consistent_of h0 hall hc) [] (by simp [GoMap.keys]) (by simp [GoMap.get?])
    rw [e1] at h1
    cases Res.ok.inj h1
    refine ⟨_, _, ?_, printed_prints (d := { d with inputDerivations := m }) ⟨hm.outputs, e2, hm.env⟩, (Res.ok.inj h2).symm⟩
    unfold Replaced
    rw [if_neg h0]
    refine ⟨e2, hall, ?_⟩
    intro k v
    have := e3 k v
    simp only [GoMap.get?, reduceCtorEq, false_or] at this
    rw [← this]
    exact ⟨fun hmem => GoMap.get?_of_mem e2 hmem, GoMap.get?_mem⟩

/-- C89: the replacement of a derivation whose only output is `out` and fixed is the hash of
`fixed:out:<algorithm>:<hash>:<path>`, in hexadecimal, whatever its inputs. -/
theorem C89_fixed (H : Bytes → Bytes) (d : Derivation) (repl : GoMap Bytes) (o : Output)
    (h : d.outputs = [(b!"out", o)]) (hf : o.hashAlgorithm ≠ []) :
    calculateDrvReplacement H d repl =
      .ok (hexEncode (H (b!"fixed:out:" ++ o.hashAlgorithm ++ b!":" ++ o.hash ++ b!":" ++ o.path))) := by
  have : fixedOutput d = some o := by
    unfold fixedOutput
    rw [h]
    simp [GoMap.get?, hf]
  unfold calculateDrvReplacement
  rw [this]
  simp only [hashStrings, join]
  refine congrArg Res.ok (congrArg hexEncode (congrArg H ?_))
  simp

/-- C89: the replacement of any other derivation is the hash of the text of the derivation with its input
derivations replaced, in hexadecimal; it fails exactly if a replacement is missing. -/
theorem C89_other (H : Bytes → Bytes) (d : Derivation) (repl : GoMap Bytes) (hm : Maps d)
    (hc : ¬ Ambiguous repl d.inputDerivations) (h : ¬ ∃ o, d.outputs = [(b!"out", o)] ∧ o.hashAlgorithm ≠ []) :
    (∃ inputs x, Replaced repl d.inputDerivations inputs ∧ Prints { d with inputDerivations := inputs } x ∧
      calculateDrvReplacement H d repl = .ok (hexEncode (H x.text))) ∨
    ((∃ e, calculateDrvReplacement H d repl = .err e) ∧ repl ≠ [] ∧ ∃ i ∈ d.inputDerivations, repl.get? i.1 = none) := by
  have hf : fixedOutput d = none := by
    unfold fixedOutput
    by_cases h1 : d.outputs.length = 1
    · rw [if_pos h1]
      cases hg : d.outputs.get? b!"out" with
      | none => rfl
      | some o =>
        simp only
        rw [if_neg]
        intro ha
        refine h ⟨o, ?_, ha⟩
        have hmem := GoMap.get?_mem hg
        cases ho : d.outputs with
        | nil => rw [ho] at h1; cases h1
        | cons a l =>
          rw [ho] at h1 hmem
          have : l = [] := List.eq_nil_of_length_eq_zero (by simpa using h1)
          subst this
          have : (b!"out", o) = a := by simpa using hmem
          rw [this]
    · rw [if_neg h1]
  unfold calculateDrvReplacement
  rw [hf]
  simp only
  cases ha : aterm d false repl with
  | ok t =>
    obtain ⟨inputs, x, h1, h2, h3⟩ := aterm_replaced hm hc ha
    exact .inl ⟨inputs, x, h1, h2, by rw [h3]⟩
  | err e =>
    right
    refine ⟨⟨_, rfl⟩, ?_⟩
    rw [aterm_eq] at ha
    unfold writtenInputs at ha
    by_cases h0 : repl = []
    · rw [if_pos (by rw [h0]; rfl)] at ha
      cases ha
    · refine ⟨h0, ?_⟩
      rw [if_neg (by simpa using h0)] at ha
      apply Classical.byContradiction
      intro hn
      have hall : ∀ i ∈ d.inputDerivations, repl.get? i.1 ≠ none := fun i hi e => hn ⟨i, hi, e⟩
      obtain ⟨m', e1, _, _⟩ := replaceInputs_ok hall (consistent_of h0 hall hc) [] (by simp [GoMap.keys]) (by simp [GoMap.get?])
      rw [e1] at ha
      cases ha
  | panic => exact absurd ha (aterm_ne_panic _ _ _)

example : Maps sampleDrv ∧ ¬ Ambiguous sampleRepl sampleDrv.inputDerivations ∧
    (¬ ∃ o, sampleDrv.outputs = [(b!"out", o)] ∧ o.hashAlgorithm ≠ []) ∧
    (calculateDrvReplacement (fun b => b.take 32) sampleDrv sampleRepl).isOk = true :=
  ⟨sampleDrv_maps, by unfold Ambiguous; decide +kernel, (fun ⟨_, h, _⟩ => nomatch h), by decide +kernel⟩

end Verif.Props
