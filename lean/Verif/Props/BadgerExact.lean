import Verif.Spec.StoreTerms
import Verif.Props.Store

/-!
# C105: what a BadgerStore accepts and holds, on every history
-/

namespace Verif.Props
open Verif.Store Verif.GoLib Verif.Derivation

/-- `BadgerStore.Put` never succeeds otherwise, and changes nothing. -/
theorem put_not_storable (H : Bytes → Bytes) (db : Badger) (d : Derivation) (hm : Maps d) (h : ¬ Storable d) :
    (∀ p, (Badger.put H d db).1 ≠ .ok p) ∧ (Badger.put H d db).2 = db := by
  unfold Storable at h
  rw [not_or] at h
  by_cases hf : ∃ o ∈ d.outputs, o.2.hashAlgorithm = []
  · exact C68_refuted_never H db d hm (by omega) hf
  · have hval : d.validate ≠ .ok () := by
      intro hv
      have hw := ((validate_iff' d).1 hv).1
      cases ho : d.outputs with
      | nil => exact hw.has_output ho
      | cons o l =>
        have hne : o.2.hashAlgorithm ≠ [] := fun h0 => hf ⟨o, by simp [ho], h0⟩
        obtain ⟨hl, hn⟩ := (hw.outputs o (by simp [ho])).2.1 hne
        rw [ho] at hl
        have : l = [] := by simpa using hl
        subst this
        obtain ⟨n, v⟩ := o
        simp only at hn
        subst hn
        exact h.2 ⟨v, ho, hne⟩
    have key : ∀ x, Badger.putPath H db d ≠ .ok x := by
      intro x hx
      unfold Badger.putPath at hx
      simp only [Res.bind_eq_ok] at hx
      obtain ⟨u, hu, _⟩ := hx
      have e : db.has = fun p => .ok (db.get? (b!"drv:" ++ p)).isSome := funext (badger_has db)
      rw [e] at hu
      exact hval ((validateInStore_iff _ d).1 hu).1
    unfold Badger.put
    cases hp : Badger.putPath H db d with
    | err e => simp
    | panic => simp
    | ok x => exact absurd hp (key x)

open Classical in
theorem history_storable (H : Bytes → Bytes) (ds : List Derivation) : ∀ ms db, MInv ms → Agrees ms db → (∀ d ∈ ds, Maps d) →
    (Badger.history H db ds).1.filter (fun e => decide (Storable e.1)) = (MapStore.history H ms (ds.filter fun d => decide (Storable d))).1 ∧
    (∀ e ∈ (Badger.history H db ds).1, ¬ Storable e.1 → ∀ p, e.2 ≠ .ok p) ∧
    Agrees (MapStore.history H ms (ds.filter fun d => decide (Storable d))).2 (Badger.history H db ds).2 := by
  induction ds with
  | nil => intro ms db _ h _; exact ⟨rfl, by simp [Badger.history], h⟩
  | cons d ds ih =>
    intro ms db hi h hm
    by_cases hs : Storable d
    · obtain ⟨h1, h2⟩ := put_agrees H hi h d hs
      obtain ⟨h3, h4, h5⟩ := ih _ _ (put_inv H hi d) h2 (fun x hx => hm x (by simp [hx]))
      simp only [Badger.history, List.filter_cons, hs, decide_true, if_true, MapStore.history]
      rw [h1, h3]
      refine ⟨rfl, ?_, h5⟩
      intro e he hns
      rcases List.mem_cons.1 he with rfl | he
      · exact absurd hs hns
      · exact h4 e he hns
    · obtain ⟨h1, h2⟩ := put_not_storable H db d (hm d (by simp)) hs
      obtain ⟨h3, h4, h5⟩ := ih ms (Badger.put H d db).2 hi (by rw [h2]; exact h) (fun x hx => hm x (by simp [hx]))
      simp only [Badger.history, List.filter_cons, hs, decide_false, if_false, Bool.false_eq_true]
      refine ⟨h3, ?_, h5⟩
      intro e he hns
      rcases List.mem_cons.1 he with rfl | he
      · exact h1
      · exact h4 e he hns

theorem lastPut_filter (log : List (Derivation × Res Bytes)) (P : Derivation → Bool)
    (h : ∀ e ∈ log, P e.1 = false → ∀ p, e.2 ≠ .ok p) (p : Bytes) :
    lastPut (log.filter fun e => P e.1) p = lastPut log p := by
  unfold lastPut
  rw [List.filter_filter]
  congr 2
  apply List.filter_congr
  intro e he
  cases hP : P e.1 with
  | true => simp
  | false => simp [h e he hP p]

open Classical in
/-- C105: on every history, a `BadgerStore` behaves like a `MapStore` that is given only the derivations
with at most one input derivation and the fixed-output ones: these `Put`s have the same results (including
the errors), and all other `Put`s fail and leave no trace. -/
theorem C105_history (H : Bytes → Bytes) (ds : List Derivation) (hm : ∀ d ∈ ds, Maps d) :
    let log := (Badger.history H [] ds).1
    let only := ds.filter fun d => decide (Storable d)
    log.filter (fun e => decide (Storable e.1)) = (MapStore.history H newMapStore only).1 ∧
    (∀ e ∈ log, ¬ Storable e.1 → ∀ p, e.2 ≠ .ok p) ∧
    ∀ p, (Badger.history H [] ds).2.has p = (MapStore.history H newMapStore only).2.has p := by
  obtain ⟨h1, h2, h3⟩ := history_storable H ds newMapStore [] mInv_new agrees_new hm
  exact ⟨h1, h2, fun p => by rw [has_agrees h3]⟩

open Classical in
/-- C105: when `Put` succeeds, after every history: exactly if the derivation has at most one input
derivation or is a fixed-output derivation, and it is valid, its input derivations are stored, and its
output paths are the calculated ones (with the replacements of the derivations stored so far); the
result is the path of the derivation. -/
theorem C105_put_iff (H : Bytes → Bytes) (ds : List Derivation) (hm : ∀ d ∈ ds, Maps d) (d : Derivation)
    (hd : Maps d) (p : Bytes) :
    let db := (Badger.history H [] ds).2
    let ms := (MapStore.history H newMapStore (ds.filter fun d => decide (Storable d))).2
    (Badger.put H d db).1 = .ok p ↔ Storable d ∧ d.validate = .ok () ∧
      (∀ i ∈ d.inputDerivations, db.has i.1 = .ok true) ∧ PathsCalculated H ms.drvReplacements d ∧
      drvPath H d = .ok p := by
  intro db ms
  obtain ⟨_, _, h3⟩ := history_storable H ds newMapStore [] mInv_new agrees_new hm
  have hh : ∀ q, db.has q = ms.has q := fun q => by rw [has_agrees h3]
  by_cases hs : Storable d
  · have h := put_agrees H (history_inv H _ _ mInv_new) h3 d hs
    have hi := C67_put_iff H (ds.filter fun d => decide (Storable d)) d hd p
    simp only at hi
    rw [show (Badger.put H d db).1 = _ from h.1, hi]
    simp only [hh, hs, true_and]
    exact Iff.rfl
  · simp only [hs, false_and, iff_false]
    exact (put_not_storable H db d hd hs).1 p

/-- C105: what `Get` delivers, after every history: the derivation that was put last with this path,
written by `WriteDerivation` and read by `ReadDerivation`; and an error if there was none. -/
theorem C105_get (H : Bytes → Bytes) (jsonName : Bytes → Res (Option Bytes)) (ds : List Derivation)
    (hm : ∀ d ∈ ds, Maps d) (p : Bytes) :
    let log := (Badger.history H [] ds).1
    let db := (Badger.history H [] ds).2
    (lastPut log p = none → Badger.getDrv jsonName db p = .err (.msg "derivation path not found")) ∧
    (∀ d, lastPut log p = some d → ∃ text, d.write ⟨[], none⟩ = (.ok (), ⟨text, none⟩) ∧
      Badger.getDrv jsonName db p = readDerivation jsonName ⟨text, .eof⟩) ∧
    db.has p = .ok (lastPut log p).isSome := by
  classical
  intro log db
  obtain ⟨h1, h2, h3⟩ := history_storable H ds newMapStore [] mInv_new agrees_new hm
  have hg := history_get H p (ds.filter fun d => decide (Storable d)) newMapStore mInv_new
  have hg' : (MapStore.history H newMapStore (ds.filter fun d => decide (Storable d))).2.drvs.get? p =
      lastPut (MapStore.history H newMapStore (ds.filter fun d => decide (Storable d))).1 p := by
    rw [hg]
    cases lastPut (MapStore.history H newMapStore (ds.filter fun d => decide (Storable d))).1 p <;> rfl
  rw [← h1, lastPut_filter _ (fun d => decide (Storable d)) (fun e he hP => h2 e he (by simpa using hP))] at hg'
  have hdb := h3.drvs p
  rw [hg'] at hdb
  refine ⟨?_, ?_, ?_⟩
  · intro hn
    unfold Badger.getDrv
    rw [hdb, hn]
    rfl
  · intro d hs
    obtain ⟨cs, hc1, hc2⟩ := write_chunks d
    refine ⟨(printed d false d.inputDerivations).text, ?_, ?_⟩
    · unfold Derivation.write
      rw [hc1]
      show writeChunks cs ⟨[], none⟩ = _
      rw [writeChunks_none, hc2]
      simp
    · unfold Badger.getDrv
      rw [hdb, hs]
      rfl
  · rw [badger_has, hdb]
    simp [log]

/-- a history with a derivation that is refused and one that is accepted afterwards -/
example : (∀ d ∈ [fetchDrv b!"a", fetchDrv b!"b", userDrv [b!"a", b!"b"], userDrv [b!"a"]], Maps d) ∧
    ¬ Storable (userDrv [b!"a", b!"b"]) ∧
    (Badger.history zeroHash [] [fetchDrv b!"a", fetchDrv b!"b", userDrv [b!"a", b!"b"], userDrv [b!"a"]]).1.map
      (fun e => match e.2 with | .ok _ => true | _ => false) = [true, true, false, true] := by
  refine ⟨?_, ?_, by decide +kernel⟩
  · intro d hd
    simp only [List.mem_cons, List.not_mem_nil, or_false] at hd
    rcases hd with rfl | rfl | rfl | rfl <;> constructor <;> decide
  · rintro (h | ⟨o, h, hne⟩)
    · revert h; decide
    · simp only [userDrv, List.cons.injEq, Prod.mk.injEq, true_and, and_true] at h
      subst h
      exact hne rfl

theorem history_exact (H : Bytes → Bytes) (ds : List Derivation) : ∀ ms db, MInv ms → Agrees ms db → (∀ d ∈ ds, Maps d) →
    (accepted (Badger.history H db ds).1 = accepted (MapStore.history H ms ds).1 ↔
      ∀ e ∈ (MapStore.history H ms ds).1, (∃ p, e.2 = .ok p) → Storable e.1) := by
  induction ds with
  | nil => intro ms db _ _ _; simp [Badger.history, MapStore.history, accepted]
  | cons d ds ih =>
    intro ms db hi h hm
    simp only [Badger.history, MapStore.history, List.mem_cons, forall_eq_or_imp]
    by_cases hs : Storable d
    · obtain ⟨h1, h2⟩ := put_agrees H hi h d hs
      have := ih _ _ (put_inv H hi d) h2 (fun x hx => hm x (by simp [hx]))
      simp only [hs, implies_true, true_and]
      rw [← this]
      simp only [accepted, List.map_cons, h1, List.cons.injEq, true_and]
    · obtain ⟨h1, h2⟩ := put_not_storable H db d (hm d (by simp)) hs
      have e : ∀ r : Res Bytes, (∀ p, r ≠ .ok p) → (match r with | .ok p => some p | _ => none) = none := by
        intro r hr
        cases r with
        | ok p => exact absurd rfl (hr p)
        | err e => rfl
        | panic => rfl
      simp only [accepted, List.map_cons, e _ h1, List.cons.injEq, hs, imp_false]
      cases hx : (MapStore.put H d ms).1 with
      | ok p => simp
      | err e =>
        have hst : (MapStore.put H d ms).2 = ms := by
          rcases put_cases H hi d with ⟨p, r, _, _, h⟩ | ⟨_, _, h⟩
          · rw [h] at hx; cases hx
          · exact h
        rw [hst, h2]
        have := ih ms db hi h (fun x hx => hm x (by simp [hx]))
        simp only [accepted] at this
        simp [this]
      | panic =>
        have hst : (MapStore.put H d ms).2 = ms := by
          rcases put_cases H hi d with ⟨p, r, _, _, h⟩ | ⟨_, _, h⟩
          · rw [h] at hx; cases hx
          · exact h
        rw [hst, h2]
        have := ih ms db hi h (fun x hx => hm x (by simp [hx]))
        simp only [accepted] at this
        simp [this]

/-- C68, exactly: on a history of `Put`s the two stores accept the same derivations (with the same paths) if and only if the `MapStore` accepts
no derivation with two input derivations or more that is not a fixed-output derivation. -/
theorem C68_exact (H : Bytes → Bytes) (ds : List Derivation) (hm : ∀ d ∈ ds, Maps d) :
    accepted (Badger.history H [] ds).1 = accepted (MapStore.history H newMapStore ds).1 ↔
      ∀ e ∈ (MapStore.history H newMapStore ds).1, (∃ p, e.2 = .ok p) → e.1.inputDerivations.length ≤ 1 ∨ IsFixed e.1 :=
  history_exact H ds newMapStore [] mInv_new agrees_new hm

end Verif.Props
