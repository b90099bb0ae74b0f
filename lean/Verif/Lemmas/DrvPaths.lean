import Verif.Lemmas.DrvRead
import Verif.Spec.DrvPaths
import Verif.Props.Nixhash
import Verif.Props.Storepath

/-! # Path calculation -/

namespace Verif.Derivation
open Verif.GoLib Verif.Nixhash Verif.Storepath

theorem sortedEntries_ext {α : Type} (dflt : α) {m m' : GoMap α} (hn : m.keys.Nodup) (hn' : m'.keys.Nodup)
    (h : ∀ k, m.get? k = m'.get? k) : sortedEntries dflt m = sortedEntries dflt m' := by
  have hp : m.keys.Perm m'.keys := by
    rw [List.perm_ext_iff_of_nodup hn hn']
    intro k
    rw [← GoMap.get?_isSome, ← GoMap.get?_isSome, h]
  unfold sortedEntries
  rw [sortStrings_congr hp]
  apply List.map_congr_left
  intro k _
  rw [h]

theorem replaceInputs_err {repl : GoMap Bytes} {l : GoMap (List Bytes)} (h : ∃ i ∈ l, repl.get? i.1 = none) :
    ∀ acc, replaceInputs repl acc l = .err (.msg "unable to find replacement") := by
  induction l with
  | nil => obtain ⟨_, h, _⟩ := h; simp at h
  | cons p l ih =>
    intro acc
    obtain ⟨k, names⟩ := p
    rw [replaceInputs]
    cases hg : repl.get? k with
    | none => rfl
    | some r =>
      obtain ⟨i, hi, hn⟩ := h
      rcases List.mem_cons.1 hi with rfl | hi
      · rw [hg] at hn; cases hn
      · exact ih ⟨i, hi, hn⟩ _

theorem replaceInputs_ok {repl : GoMap Bytes} {l : GoMap (List Bytes)} (h : ∀ i ∈ l, repl.get? i.1 ≠ none)
    (hc : Consistent repl l) : ∀ acc : GoMap (List Bytes), acc.keys.Nodup →
      (∀ i ∈ l, ∀ r, repl.get? i.1 = some r → ∀ v, acc.get? r = some v → v = i.2) →
      ∃ m, replaceInputs repl acc l = .ok m ∧ m.keys.Nodup ∧
      ∀ k v, m.get? k = some v ↔ acc.get? k = some v ∨ ∃ i ∈ l, repl.get? i.1 = some k ∧ v = i.2 := by
  induction l with
  | nil => intro acc hacc _; exact ⟨acc, rfl, hacc, by simp⟩
  | cons p l ih =>
    intro acc hacc hcon
    obtain ⟨k, names⟩ := p
    rw [replaceInputs]
    cases hg : repl.get? k with
    | none => exact absurd hg (h (k, names) (by simp))
    | some r =>
      obtain ⟨m, h1, h2, h3⟩ := ih (fun i hi => h i (by simp [hi]))
        (fun i hi j hj => hc i (by simp [hi]) j (by simp [hj])) (acc.insert r names)
        (GoMap.keys_insert_nodup _ _ _ hacc) (by
          intro i hi r' hr' v hv
          rw [GoMap.get?_insert] at hv
          split at hv
          · rename_i he
            subst he
            cases Option.some.inj hv
            exact hc (k, names) (by simp) i (by simp [hi]) (by rw [hg, hr'])
          · exact hcon i (by simp [hi]) r' hr' v hv)
      refine ⟨m, h1, h2, ?_⟩
      intro k' v
      rw [h3, GoMap.get?_insert]
      constructor
      · rintro (hv | ⟨i, hi, h4⟩)
        · split at hv
          · rename_i he
            subst he
            cases Option.some.inj hv
            exact .inr ⟨(k, names), by simp, hg, rfl⟩
          · exact .inl hv
        · exact .inr ⟨i, by simp [hi], h4⟩
      · rintro (hv | ⟨i, hi, h4, h5⟩)
        · by_cases he : r = k'
          · subst he
            rw [if_pos rfl]
            exact .inl (by rw [hcon (k, names) (by simp) r hg v hv])
          · rw [if_neg he]; exact .inl hv
        · rcases List.mem_cons.1 hi with rfl | hi
          · have : r = k' := by
              simp only at h4
              rw [hg] at h4
              exact Option.some.inj h4
            rw [if_pos this, h5]; exact .inl rfl
          · exact .inr ⟨i, hi, h4, h5⟩

theorem aterm_same {d d' : Derivation} (hm : Maps d) (h : Same d d') {repl repl' : GoMap Bytes} (hr : repl.keys.Nodup)
    (hrr : repl.Perm repl') (hc : Consistent repl d.inputDerivations) (strip : Bool) :
    aterm d strip repl = aterm d' strip repl' := by
  rw [aterm_eq, aterm_eq]
  unfold writtenInputs
  rw [hrr.length_eq]
  by_cases h0 : repl'.length = 0
  · rw [if_pos h0, if_pos h0]
    exact congrArg Res.ok (congrArg DrvText.text (printed_congr h hm strip h.inputDerivations hm.inputDerivations))
  rw [if_neg h0, if_neg h0]
  have hget : ∀ k, repl.get? k = repl'.get? k := GoMap.get?_perm hr hrr
  by_cases hall : ∀ i ∈ d.inputDerivations, repl.get? i.1 ≠ none
  · have hall' : ∀ i ∈ d'.inputDerivations, repl'.get? i.1 ≠ none := by
      intro i hi
      rw [← hget]
      exact hall i (h.inputDerivations.mem_iff.2 hi)
    have hc' : Consistent repl' d'.inputDerivations := by
      intro i hi j hj he
      rw [← hget, ← hget] at he
      exact hc i (h.inputDerivations.mem_iff.2 hi) j (h.inputDerivations.mem_iff.2 hj) he
    obtain ⟨m, h1, h2, h3⟩ := replaceInputs_ok hall hc [] (by simp [GoMap.keys]) (by simp [GoMap.get?])
    obtain ⟨m', h1', h2', h3'⟩ := replaceInputs_ok hall' hc' [] (by simp [GoMap.keys]) (by simp [GoMap.get?])
    rw [h1, h1']
    refine congrArg Res.ok (congrArg DrvText.text ?_)
    have e := sortedEntries_ext [] h2 h2' (by
      intro k
      apply Option.ext
      intro v
      rw [h3, h3']
      simp only [GoMap.get?, reduceCtorEq, false_or, hget]
      constructor
      · rintro ⟨i, hi, hx⟩; exact ⟨i, h.inputDerivations.mem_iff.1 hi, hx⟩
      · rintro ⟨i, hi, hx⟩; exact ⟨i, h.inputDerivations.mem_iff.2 hi, hx⟩)
    have e2 := printed_congr h hm strip (m := d.inputDerivations) h.inputDerivations hm.inputDerivations
    have e3 : ∀ d m, printed d strip m = { printed d strip d.inputDerivations with inputDrvs := sortedEntries [] m } := by
      intro d m; rfl
    rw [e3 d m, e3 d' m', e2, e]
  · have : ∃ i ∈ d.inputDerivations, repl.get? i.1 = none := by
      apply Classical.byContradiction
      intro hne
      exact hall fun i hi he => hne ⟨i, hi, he⟩
    obtain ⟨i, hi, hn⟩ := this
    rw [replaceInputs_err ⟨i, hi, hn⟩, replaceInputs_err ⟨i, h.inputDerivations.mem_iff.1 hi, by rw [← hget, hn]⟩]
    rfl

theorem compress_ok (h : Bytes) : ∃ d, compressHash h 20 = .ok d ∧ d.length = 20 := by
  obtain ⟨o, h1, h2, _⟩ := Verif.Props.C12_compress h 20 (by omega)
  exact ⟨o, h1, h2⟩

theorem outputPathsLoop_ok (H : Bytes → Bytes) (d : Derivation) (repl : GoMap Bytes) (n : Bytes) (l : GoMap Output)
    (f : Bytes → Output → Bytes) (hf : ∀ o ∈ l, outputPath H d repl n o.1 o.2 = .ok (f o.1 o.2)) :
    ∀ acc : GoMap Bytes, (acc.keys ++ l.keys).Nodup →
      outputPathsLoop H d repl n acc l = .ok (acc ++ l.map fun o => (o.1, f o.1 o.2)) := by
  induction l with
  | nil => intro acc _; simp [outputPathsLoop]
  | cons p l ih =>
    intro acc hn
    obtain ⟨k, o⟩ := p
    rw [outputPathsLoop, hf (k, o) (by simp), Res.bind_ok]
    have hk : k ∉ acc.keys := by
      intro hm
      rw [List.nodup_append] at hn
      exact hn.2.2 k hm k (by simp [GoMap.keys]) rfl
    rw [insert_append _ _ _ hk, ih (fun o ho => hf o (by simp [ho]))]
    · simp
    · have e : GoMap.keys (acc ++ [(k, f k o)]) ++ GoMap.keys l = GoMap.keys acc ++ GoMap.keys ((k, o) :: l) := by
        simp [GoMap.keys]
      rw [e]; exact hn

theorem outputPathsLoop_err (H : Bytes → Bytes) (d : Derivation) (repl : GoMap Bytes) (n : Bytes) (l : GoMap Output) (e : Err)
    (hf : ∀ o ∈ l, (∃ p, outputPath H d repl n o.1 o.2 = .ok p) ∨ outputPath H d repl n o.1 o.2 = .err e)
    (hex : ∃ o ∈ l, outputPath H d repl n o.1 o.2 = .err e) :
    ∀ acc : GoMap Bytes, outputPathsLoop H d repl n acc l = .err e := by
  induction l with
  | nil => obtain ⟨_, h, _⟩ := hex; simp at h
  | cons p l ih =>
    intro acc
    obtain ⟨k, o⟩ := p
    rw [outputPathsLoop]
    rcases hf (k, o) (by simp) with ⟨p, hp⟩ | hp
    · simp only at hp
      rw [hp, Res.bind_ok]
      obtain ⟨x, hx, hxe⟩ := hex
      rcases List.mem_cons.1 hx with rfl | hx
      · simp only at hxe
        rw [hp] at hxe; cases hxe
      · exact ih (fun o ho => hf o (by simp [ho])) ⟨x, hx, hxe⟩ _
    · simp only at hp
      rw [hp]; rfl

theorem aterm_ne_panic (d : Derivation) (strip : Bool) (repl : GoMap Bytes) : aterm d strip repl ≠ .panic := by
  rw [aterm_eq]
  refine res_bind_ne_panic ?_ fun _ _ => by simp
  unfold writtenInputs
  split
  · simp
  · generalize hacc : ([] : GoMap (List Bytes)) = acc
    clear hacc
    induction d.inputDerivations generalizing acc with
    | nil => simp [replaceInputs]
    | cons p l ih =>
      obtain ⟨k, v⟩ := p
      rw [replaceInputs]
      cases repl.get? k with
      | none => simp
      | some r => exact ih _

/-- The outcome of `storeHash`: fixed outputs, and other outputs with a masked hash. -/
theorem outputPath_cases (H : Bytes → Bytes) (d : Derivation) (repl : GoMap Bytes) (n k : Bytes) (o : Output) :
    (∃ p, outputPath H d repl n k o = .ok p) ∨
      (o.hashAlgorithm = [] ∧ (∃ e, aterm d true repl = .err e) ∧
        outputPath H d repl n k o = .err (.msg "failed to calculate masked ATerm hash")) := by
  unfold outputPath storeHash
  by_cases ha : o.hashAlgorithm ≠ []
  · left
    rw [if_pos ha]
    split
    · rw [Res.bind_ok]
      obtain ⟨x, hx, _⟩ := compress_ok (hashStrings H [b!"source", b!"sha256", o.hash, storeDir, n])
      rw [hx]; exact ⟨_, rfl⟩
    · rw [Res.bind_ok]
      obtain ⟨x, hx, _⟩ := compress_ok (hashStrings H [b!"output", b!"out", b!"sha256",
        hexEncode (hashStrings H [b!"fixed", b!"out", o.hashAlgorithm, o.hash, []]), storeDir, n])
      rw [hx]; exact ⟨_, rfl⟩
  · rw [if_neg ha]
    unfold maskedATermHash
    cases hat : aterm d true repl with
    | panic => exact absurd hat (aterm_ne_panic _ _ _)
    | err e => exact .inr ⟨Classical.not_not.1 ha, ⟨e, rfl⟩, rfl⟩
    | ok t =>
      left
      show ∃ p, (Res.ok (hashStrings H [b!"output", k, b!"sha256", hexEncode (H t), storeDir, outputPathName n k]) >>= _) = _
      rw [Res.bind_ok]
      obtain ⟨x, hx, _⟩ := compress_ok (hashStrings H [b!"output", k, b!"sha256", hexEncode (H t), storeDir, outputPathName n k])
      rw [hx]; exact ⟨_, rfl⟩

theorem outputPath_congr (H : Bytes → Bytes) {d d' : Derivation} {repl repl' : GoMap Bytes} (n k : Bytes) {o o' : Output}
    (h : o.hashAlgorithm = [] → aterm d true repl = aterm d' true repl') (ha : o.hashAlgorithm = o'.hashAlgorithm)
    (hh : o.hash = o'.hash) : outputPath H d repl n k o = outputPath H d' repl' n k o' := by
  have : storeHash H d repl n k o (outputPathName n k) = storeHash H d' repl' n k o' (outputPathName n k) := by
    unfold storeHash
    rw [ha, hh]
    by_cases hz : o'.hashAlgorithm ≠ []
    · rw [if_pos hz, if_pos hz]
    · rw [if_neg hz, if_neg hz]
      unfold maskedATermHash
      rw [h (by rw [ha]; exact Classical.not_not.1 hz)]
  unfold outputPath
  rw [this]

/-- The path in a result. -/
def okPath : Res Bytes → Bytes
  | .ok p => p
  | _ => []

/-- The outcome of `CalculateOutputPaths`: every output has a path, or the masked text cannot be made. -/
theorem outputPathsLoop_spec (H : Bytes → Bytes) (d : Derivation) (repl : GoMap Bytes) (n : Bytes) (hn : d.outputs.keys.Nodup) :
    (∃ f : Bytes → Output → Bytes, (∀ o ∈ d.outputs, outputPath H d repl n o.1 o.2 = .ok (f o.1 o.2)) ∧
      outputPathsLoop H d repl n [] d.outputs = .ok (d.outputs.map fun o => (o.1, f o.1 o.2))) ∨
    ((∃ o ∈ d.outputs, outputPath H d repl n o.1 o.2 = .err (.msg "failed to calculate masked ATerm hash")) ∧
      outputPathsLoop H d repl n [] d.outputs = .err (.msg "failed to calculate masked ATerm hash")) := by
  by_cases hex : ∃ o ∈ d.outputs, outputPath H d repl n o.1 o.2 = .err (.msg "failed to calculate masked ATerm hash")
  · refine .inr ⟨hex, outputPathsLoop_err H d repl n d.outputs _ (fun o _ => ?_) hex []⟩
    rcases outputPath_cases H d repl n o.1 o.2 with h | ⟨_, _, h⟩
    · exact .inl h
    · exact .inr h
  · have hf : ∀ o ∈ d.outputs, outputPath H d repl n o.1 o.2 = .ok (okPath (outputPath H d repl n o.1 o.2)) := by
      intro o ho
      rcases outputPath_cases H d repl n o.1 o.2 with ⟨p, h⟩ | ⟨_, _, h⟩
      · rw [h]; rfl
      · exact absurd ⟨o, ho, h⟩ hex
    refine .inl ⟨fun k o => okPath (outputPath H d repl n k o), hf, ?_⟩
    have := outputPathsLoop_ok H d repl n d.outputs (fun k o => okPath (outputPath H d repl n k o)) hf [] (by simpa [GoMap.keys] using hn)
    simpa using this

theorem hexEncode_inj {a b : Bytes} (h : hexEncode a = hexEncode b) : a = b := by
  have := hexDecode_encode a
  rw [h, hexDecode_encode] at this
  exact (Res.ok.inj this).symm

theorem consistent_of {repl : GoMap Bytes} {l : GoMap (List Bytes)} (h0 : repl ≠ []) (hall : ∀ i ∈ l, repl.get? i.1 ≠ none)
    (ha : ¬ Ambiguous repl l) : Consistent repl l := by
  intro i hi j hj he
  apply Classical.byContradiction
  intro hne
  exact ha ⟨h0, hall, i, hi, j, hj, he, hne⟩

theorem aterm_unambiguous {d d' : Derivation} (hm : Maps d) (h : Same d d') {repl repl' : GoMap Bytes} (hr : repl.keys.Nodup)
    (hrr : repl.Perm repl') (ha : ¬ Ambiguous repl d.inputDerivations) (strip : Bool) :
    aterm d strip repl = aterm d' strip repl' := by
  by_cases h0 : repl = []
  · subst h0
    have : repl' = [] := List.Perm.nil_eq hrr |>.symm
    subst this
    rw [aterm_nil, aterm_nil]
    exact congrArg Res.ok (congrArg DrvText.text (printed_congr h hm strip h.inputDerivations hm.inputDerivations))
  · by_cases hall : ∀ i ∈ d.inputDerivations, repl.get? i.1 ≠ none
    · exact aterm_same hm h hr hrr (consistent_of h0 hall ha) strip
    · have hget : ∀ k, repl.get? k = repl'.get? k := GoMap.get?_perm hr hrr
      have hex : ∃ i ∈ d.inputDerivations, repl.get? i.1 = none := by
        apply Classical.byContradiction
        intro hne
        exact hall fun i hi he => hne ⟨i, hi, he⟩
      have hex' : ∃ i ∈ d'.inputDerivations, repl'.get? i.1 = none := by
        obtain ⟨i, hi, he⟩ := hex
        exact ⟨i, h.inputDerivations.mem_iff.1 hi, by rw [← hget]; exact he⟩
      have l0 : repl.length ≠ 0 := by simpa using h0
      have l1 : repl'.length ≠ 0 := by rw [← hrr.length_eq]; exact l0
      rw [aterm_eq, aterm_eq]
      unfold writtenInputs
      rw [if_neg l0, if_neg l1, replaceInputs_err hex, replaceInputs_err hex']
      rfl

end Verif.Derivation
