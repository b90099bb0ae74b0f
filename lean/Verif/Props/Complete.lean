import Verif.Spec.Complete
import Verif.Props.Store

/-!
# Filling in the output paths (C163)
-/

namespace Verif.Props
open Verif.GoLib Verif.Spec Verif.Derivation Verif.Store Verif.Storepath Verif.Nixhash

theorem outputPath_valid {H : Bytes → Bytes} {d : Derivation} {repl : GoMap Bytes} {n k : Bytes} {o : Output} {p : Bytes}
    (hn : NameChars n) (hk : NameChars k) (h : outputPath H d repl n k o = .ok p) : Storepath.validate p = .ok () := by
  unfold outputPath at h
  rw [Res.bind_eq_ok] at h
  obtain ⟨x, _, h⟩ := h
  obtain ⟨g, h1, h2⟩ := compress_ok x
  rw [h1, Res.bind_ok] at h
  cases h
  have hc : NameChars (outputPathName n k) := by
    unfold outputPathName
    split
    · exact hn
    · exact nameChars_append (nameChars_append hn (by decide)) hk
  exact (C41_roundtrip ⟨outputPathName n k, g⟩ h2 hc).2.1

theorem calculated_spec {H : Bytes → Bytes} {d : Derivation} {repl m : GoMap Bytes} (hm : Maps d)
    (h : calculateOutputPaths H d repl = .ok m) :
    ∀ o ∈ d.outputs, ∃ p, m.get? o.1 = some p ∧ outputPath H d repl d.getName o.1 o.2 = .ok p := by
  unfold calculateOutputPaths at h
  split at h
  · cases h
  rcases outputPathsLoop_spec H d repl d.getName hm.outputs with ⟨f, h1, h2⟩ | ⟨_, h2⟩
  · rw [h2] at h
    cases h
    intro o ho
    refine ⟨f o.1 o.2, ?_, h1 o ho⟩
    have hnd : (GoMap.keys (d.outputs.map fun o => (o.1, f o.1 o.2))).Nodup := by
      have : GoMap.keys (d.outputs.map fun o => (o.1, f o.1 o.2)) = d.outputs.keys := by simp [GoMap.keys]
      rw [this]; exact hm.outputs
    exact GoMap.get?_of_mem hnd (List.mem_map.2 ⟨o, ho, rfl⟩)
  · rw [h2] at h; cases h

theorem validate_withOutputs (d : Derivation) (path value path' value' : Bytes → Bytes)
    (hp : ∀ o ∈ d.outputs, o.2.hashAlgorithm = [] → Storepath.validate (path' o.1) = .ok ())
    (h : (withOutputs d path value).validate = .ok ()) : (withOutputs d path' value').validate = .ok () := by
  rw [validate_iff'] at h ⊢
  obtain ⟨hw, hname⟩ := h
  have hkeys : ∀ path value, (withOutputs d path value).env.keys = d.env.keys := by
    intro path value; simp [withOutputs, GoMap.keys]
  constructor
  · constructor
    · have := hw.has_output
      intro h0
      apply this
      have : d.outputs = [] := by simpa [withOutputs] using h0
      simp [withOutputs, this]
    · intro o ho
      obtain ⟨o', ho', rfl⟩ := List.mem_map.1 (show o ∈ d.outputs.map _ from ho)
      have := hw.outputs _ (List.mem_map.2 ⟨o', ho', rfl⟩)
      refine ⟨this.1, fun h => ?_, fun h => hp o' ho' h⟩
      have h2 := this.2.1 h
      simpa [withOutputs] using h2
    · exact hw.inputDerivations
    · exact hw.inputSources
    · exact hw.platform
    · exact hw.builder
    · intro e he
      obtain ⟨e', he', rfl⟩ := List.mem_map.1 (show e ∈ d.env.map _ from he)
      have := hw.env (e'.1, if e'.1 ∈ d.outputs.keys then value e'.1 else e'.2) (List.mem_map.2 ⟨e', he', rfl⟩)
      exact this
  · rw [hkeys] at hname ⊢
    exact hname

/-- C163: the derivation with the calculated output paths filled in is valid if it is with any paths at all, that is, if nothing else
is wrong with it. -/
theorem C163_valid (H : Bytes → Bytes) (d : Derivation) (repl m : GoMap Bytes) (hm : Maps d) (hn : NameChars d.getName)
    (hk : ∀ o ∈ d.outputs, NameChars o.1) (h : calculateOutputPaths H d repl = .ok m) :
    (completed d m).validate = .ok () ↔ ∃ path value, (withOutputs d path value).validate = .ok () := by
  refine ⟨fun h => ⟨_, _, h⟩, ?_⟩
  rintro ⟨path, value, hv⟩
  refine validate_withOutputs d path value _ _ (fun o ho _ => ?_) hv
  obtain ⟨p, h1, h2⟩ := calculated_spec hm h o ho
  rw [h1]
  exact outputPath_valid hn (hk o ho) h2

/-- C163: and calculating the paths once more gives the same paths, which are now those in the outputs and in the environment. -/
theorem C163_fixpoint (H : Bytes → Bytes) (d : Derivation) (repl m : GoMap Bytes) (hm : Maps d) (h1 : b!"name" ∉ d.outputs.keys)
    (h : calculateOutputPaths H d repl = .ok m) :
    calculateOutputPaths H (completed d m) repl = .ok m ∧ (completed d m).getName = d.getName ∧
    (∀ k o, (k, o) ∈ (completed d m).outputs → m.get? k = some o.path) ∧
    (∀ k v, (k, v) ∈ (completed d m).env → k ∈ d.outputs.keys → m.get? k = some v) := by
  have hname := C63_name d (fun k => (m.get? k).getD []) (fun k => (m.get? k).getD []) h1
  have key : ∀ k ∈ d.outputs.keys, m.get? k = some ((m.get? k).getD []) := by
    intro k hk
    obtain ⟨o, ho, rfl⟩ := List.mem_map.1 hk
    obtain ⟨p, e, _⟩ := calculated_spec hm h o ho
    rw [e]; rfl
  refine ⟨?_, hname, ?_, ?_⟩
  · unfold completed
    rw [C63_self_reference H d _ _ repl hname, h]
  · intro k o ho
    obtain ⟨o', ho', e⟩ := List.mem_map.1 (show (k, o) ∈ d.outputs.map _ from ho)
    cases e
    exact key _ (List.mem_map.2 ⟨o', ho', rfl⟩)
  · intro k v hv hk
    obtain ⟨e', he', e⟩ := List.mem_map.1 (show (k, v) ∈ d.env.map _ from hv)
    cases e
    rw [if_pos hk]
    exact key _ hk

/-- C163, in a store: after any history of `Put`s, a derivation whose inputs are stored, and with which nothing is wrong but its output
paths, is accepted with the calculated paths, and is then found under its path; and it is accepted with no others. -/
theorem C163_put (H : Bytes → Bytes) (ds : List Derivation) (d : Derivation) (hm : Maps d) (h1 : b!"name" ∉ d.outputs.keys)
    (h0 : d.getName ≠ []) (hn : NameChars d.getName) (hk : ∀ o ∈ d.outputs, NameChars o.1)
    (hv : ∃ path value, (withOutputs d path value).validate = .ok ()) :
    let ms := (MapStore.history H newMapStore ds).2
    (∀ i ∈ d.inputDerivations, ms.has i.1 = .ok true) →
    ∃ m p, calculateOutputPaths H d ms.drvReplacements = .ok m ∧ (MapStore.put H (completed d m) ms).1 = .ok p ∧
      (MapStore.put H (completed d m) ms).2.get p = .ok (completed d m) ∧
      ∀ path value q, (MapStore.put H (withOutputs d path value) ms).1 = .ok q → ∀ k ∈ d.outputs.keys, m.get? k = some (path k) := by
  intro ms hin
  have hinv : MInv ms := history_inv H ds _ mInv_new
  have hcalc : ∃ m, calculateOutputPaths H d ms.drvReplacements = .ok m := by
    cases hc : calculateOutputPaths H d ms.drvReplacements with
    | ok m => exact ⟨m, rfl⟩
    | panic => exact absurd hc ((C66_no_panic_partial H d h0).2.1 _)
    | err e =>
      obtain ⟨_, _, i, hi, hno⟩ := (C88_fails_iff H d ms.drvReplacements hm h0).1 ⟨e, hc⟩
      exact absurd hno (hinv _ ((has_iff ms _).1 (hin i hi)))
  obtain ⟨m, hc⟩ := hcalc
  obtain ⟨f1, f2, f3, _⟩ := C163_fixpoint H d _ m hm h1 hc
  have hmc : ∀ path value, Maps (withOutputs d path value) := by
    intro path value
    refine ⟨?_, hm.inputDerivations, ?_⟩
    · have : (withOutputs d path value).outputs.keys = d.outputs.keys := by simp [withOutputs, GoMap.keys]
      rw [this]; exact hm.outputs
    · have : (withOutputs d path value).env.keys = d.env.keys := by simp [withOutputs, GoMap.keys]
      rw [this]; exact hm.env
  obtain ⟨p, hp⟩ := (C66_no_panic_partial H (completed d m) (by rw [f2]; exact h0)).1
  have hput : (MapStore.put H (completed d m) ms).1 = .ok p :=
    (C67_put_iff H ds (completed d m) (hmc _ _) p).2 ⟨(C163_valid H d _ m hm hn hk hc).2 hv, hin, ⟨m, f1, fun o ho => f3 o.1 o.2 ho⟩, hp⟩
  refine ⟨m, p, hc, hput, ?_, ?_⟩
  · rcases put_cases H hinv (completed d m) with ⟨q, r, _, _, h⟩ | ⟨_, h2, _⟩
    · rw [h] at hput ⊢
      cases hput
      unfold MapStore.get
      simp only [GoMap.get?_insert, if_pos]
    · exact absurd hput (h2 p)
  · intro path value q hq k hk'
    obtain ⟨_, _, ⟨m', g1, g2⟩, _⟩ := (C67_put_iff H ds (withOutputs d path value) (hmc _ _) q).1 hq
    rw [C63_self_reference H d _ _ _ (C63_name d path value h1)] at g1
    rw [show calculateOutputPaths H d ms.drvReplacements = _ from hc] at g1
    cases g1
    obtain ⟨o, ho, rfl⟩ := List.mem_map.1 hk'
    exact g2 _ (List.mem_map.2 ⟨o, ho, rfl⟩)

/-- A toy derivation without paths. -/
def unfinished : Derivation :=
  ⟨[], [(b!"out", ⟨[], [], []⟩), (b!"dev", ⟨[], [], []⟩)], [], [], b!"x86_64-linux", b!"/bin/sh", [b!"-c"],
    [(b!"name", b!"hello"), (b!"out", []), (b!"dev", [])]⟩

theorem unfinished_ok : Maps unfinished ∧ b!"name" ∉ unfinished.outputs.keys ∧ unfinished.getName ≠ [] ∧ NameChars unfinished.getName ∧
    (∀ o ∈ unfinished.outputs, NameChars o.1) ∧ ∃ path value, (withOutputs unfinished path value).validate = .ok () := by
  refine ⟨⟨by decide, by decide, by decide⟩, by decide, by decide, by decide, by decide,
    fun _ => b!"/nix/store/00bgd045z0d4icpbc2yyz4gx48ak44la-net-tools-1.60", fun _ => [], by decide +kernel⟩

example (H : Bytes → Bytes) := C163_put H [] unfinished unfinished_ok.1 unfinished_ok.2.1 unfinished_ok.2.2.1 unfinished_ok.2.2.2.1
  unfinished_ok.2.2.2.2.1 unfinished_ok.2.2.2.2.2 (by intro i hi; exact absurd hi (by simp [unfinished]))
example : unfinished.validate ≠ .ok () := by decide +kernel

end Verif.Props
