import Verif.Props.Modulo
import Verif.Props.BadgerExact

/-!
# C133 for the `BadgerStore`
-/

namespace Verif.Props
open Verif.GoLib Verif.Derivation Verif.Store Verif.Storepath

open Classical in
theorem badger_known (H : Bytes → Bytes) (ds : List Derivation) (hm : ∀ d ∈ ds, Maps d) :
    (MapStore.history H newMapStore (ds.filter fun d => decide (Storable d))).2.known = lastPut (Badger.history H [] ds).1 := by
  obtain ⟨h1, h2, h3⟩ := history_storable H ds newMapStore [] mInv_new agrees_new hm
  funext p
  have hg := history_get H p (ds.filter fun d => decide (Storable d)) newMapStore mInv_new
  rw [known_eq, hg, ← h1, lastPut_filter _ (fun d => decide (Storable d)) (fun e he hP => h2 e he (by simpa using hP))]
  cases lastPut (Badger.history H [] ds).1 p <;> rfl

/-- C133 for a `BadgerStore`: after any history of `Put`s, a derivation is accepted exactly if it has at most one input derivation or is a
fixed-output derivation, is valid, its input derivations are stored, and its output paths are those that Nix defines by recursion over the
graph of stored derivations. -/
theorem C133_badger (H : Bytes → Bytes) (ds : List Derivation) (hm : ∀ d ∈ ds, Maps d) (hc : NoCollision H ds)
    (hu : ∀ p d, lastPut (Badger.history H [] ds).1 p = some d → Unambiguous H (lastPut (Badger.history H [] ds).1) d)
    (d : Derivation) (hd : Maps d) (hud : Unambiguous H (lastPut (Badger.history H [] ds).1) d)
    (hn : NameChars d.getName) (hk : ∀ o ∈ d.outputs, NameChars o.1) (p : Bytes) :
    (Badger.put H d (Badger.history H [] ds).2).1 = .ok p ↔ Storable d ∧ d.validate = .ok () ∧
      (∀ i ∈ d.inputDerivations, (Badger.history H [] ds).2.has i.1 = .ok true) ∧
      (∀ o ∈ d.outputs, OutputPathOf H (lastPut (Badger.history H [] ds).1) d o o.2.path) ∧ drvPath H d = .ok p := by
  classical
  obtain ⟨_, _, h3⟩ := history_storable H ds newMapStore [] mInv_new agrees_new hm
  have hkn := badger_known H ds hm
  have hsub : ∀ x ∈ ds.filter (fun d => decide (Storable d)), x ∈ ds := fun x hx => (List.mem_filter.1 hx).1
  by_cases hs : Storable d
  · have h := put_agrees H (history_inv H _ _ mInv_new) h3 d hs
    have hput := C133_put H (ds.filter fun d => decide (Storable d)) (fun x hx => hm x (hsub x hx))
      (fun x hx y hy => hc x (hsub x hx) y (hsub y hy)) (by rw [hkn]; exact hu) d hd (by rw [hkn]; exact hud) hn hk p
    simp only at hput
    rw [hkn] at hput
    rw [h.1, hput]
    have hh : ∀ q, (Badger.history H [] ds).2.has q = (MapStore.history H newMapStore (ds.filter fun d => decide (Storable d))).2.has q :=
      fun q => by rw [has_agrees h3]
    simp only [hh, hs, true_and]
  · simp only [hs, false_and, iff_false]
    exact (put_not_storable H _ d hd hs).1 p

/-- the hypotheses hold for a history of two fetched files and a derivation that uses one of them; all are accepted -/
example : let ds := [fetchDrv b!"a", fetchDrv b!"b", userDrv [b!"a"]]
    (∀ d ∈ ds, Maps d) ∧ NoCollision zeroHash ds ∧
    (∀ p d, lastPut (Badger.history zeroHash [] ds).1 p = some d → Unambiguous zeroHash (lastPut (Badger.history zeroHash [] ds).1) d) ∧
    (Badger.history zeroHash [] ds).1.map (fun e => e.2.isOk) = [true, true, true] := by
  intro ds
  have hmaps : ∀ d ∈ ds, Maps d := by
    have : ∀ d ∈ ds, d.outputs.keys.Nodup ∧ d.inputDerivations.keys.Nodup ∧ d.env.keys.Nodup := by decide +kernel
    exact fun d h => ⟨(this d h).1, (this d h).2.1, (this d h).2.2⟩
  refine ⟨hmaps, ?_, ?_, by decide +kernel⟩
  · have : ∀ d ∈ ds, ∀ d' ∈ ds, drvPath zeroHash d = drvPath zeroHash d' → d = d' := by decide +kernel
    intro d hd d' hd' p h h'
    rw [this d hd d' hd' (by rw [h, h'])]
    exact .refl _
  · intro p d h
    have hd : d ∈ ds := by
      unfold lastPut at h
      rw [Option.map_eq_some_iff] at h
      obtain ⟨e, he, rfl⟩ := h
      have h1 := (List.mem_filter.1 (List.mem_of_getLast? he)).1
      have h2 : (Badger.history zeroHash [] ds).1.map (·.1) = ds := by decide +kernel
      exact h2 ▸ List.mem_map_of_mem h1
    have : ∀ d ∈ ds, ∀ i ∈ d.inputDerivations, i.2 = [b!"out"] := by decide +kernel
    intro i hi j hj _ _ _ _ _ _ _
    rw [this d hd i hi, this d hd j hj]

end Verif.Props
