import Verif.Spec.StoreTerms
import Verif.Lemmas.Store
import Verif.Lemmas.Path
import Verif.Props.DrvPaths

/-!
# Derivation stores: C67-C71, C89, C90
-/

namespace Verif.Props
open Verif.GoLib Verif.Derivation Verif.Store Verif.Storepath Verif.Wire
open Verif.Spec (childPath)

/-! ## C67 -/

/-- The path of an accepted derivation is new at the end of the log. -/
theorem lastPut_cons (e : Derivation × Res Bytes) (log : List (Derivation × Res Bytes)) (p : Bytes) :
    lastPut (e :: log) p = match lastPut log p with
      | some d => some d
      | none => if e.2 = .ok p then some e.1 else none := by
  unfold lastPut
  rw [List.filter_cons]
  by_cases h : e.2 = .ok p
  · simp only [h, decide_true, if_true]
    rw [List.getLast?_cons]
    cases (List.filter (fun e => decide (e.2 = Res.ok p)) log).getLast? with
    | none => simp
    | some x => simp
  · simp only [h, decide_false, if_false, Bool.false_eq_true]
    cases (List.filter (fun e => decide (e.2 = Res.ok p)) log).getLast? with
    | none => simp
    | some x => simp

theorem history_get (H : Bytes → Bytes) (p : Bytes) (ds : List Derivation) : ∀ ms, MInv ms →
    (MapStore.history H ms ds).2.drvs.get? p =
      match lastPut (MapStore.history H ms ds).1 p with
      | some d => some d
      | none => ms.drvs.get? p := by
  induction ds with
  | nil => intro ms _; rfl
  | cons d ds ih =>
    intro ms hi
    simp only [MapStore.history]
    rw [ih _ (put_inv H hi d), lastPut_cons]
    cases hl : lastPut (MapStore.history H (MapStore.put H d ms).2 ds).1 p with
    | some d' => rfl
    | none =>
      simp only
      rcases put_cases H hi d with ⟨q, r, _, _, h⟩ | ⟨_, h1, h2⟩
      · rw [h]
        simp only [Res.ok.injEq]
        rw [GoMap.get?_insert]
        by_cases hq : q = p
        · subst hq; simp
        · rw [if_neg hq, if_neg (fun e => hq (by simpa using e))]
      · rw [h2, if_neg (h1 p)]

/-- C67: after any sequence of `Put`s on a new `MapStore`, `Get` delivers the derivation that was put last with
the path (and fails if there was none), and `Has` tells whether there was one. -/
theorem C67_map (H : Bytes → Bytes) (ds : List Derivation) (p : Bytes) :
    let log := (MapStore.history H newMapStore ds).1
    let ms := (MapStore.history H newMapStore ds).2
    (∀ d, ms.get p = .ok d ↔ lastPut log p = some d) ∧ (lastPut log p = none → ∃ e, ms.get p = .err e) ∧
    ms.has p = .ok (lastPut log p).isSome := by
  have h := history_get H p ds newMapStore mInv_new
  have e : (match lastPut (MapStore.history H newMapStore ds).1 p with
      | some d => some d
      | none => newMapStore.drvs.get? p) = lastPut (MapStore.history H newMapStore ds).1 p := by
    cases lastPut (MapStore.history H newMapStore ds).1 p <;> rfl
  rw [e] at h
  simp only [MapStore.get, MapStore.has, h]
  refine ⟨?_, ?_, trivial⟩
  · intro d
    cases lastPut (MapStore.history H newMapStore ds).1 p with
    | none => simp
    | some d' => simp
  · intro hn
    rw [hn]; exact ⟨_, rfl⟩

/-- C67: a `Put` that does not succeed does not change the store. -/
theorem C67_failed_put (H : Bytes → Bytes) (ds : List Derivation) (d : Derivation) :
    let ms := (MapStore.history H newMapStore ds).2
    (∃ p, (MapStore.put H d ms).1 = .ok p) ∨ (MapStore.put H d ms).2 = ms := by
  rcases put_cases H (history_inv H ds _ mInv_new) d with ⟨p, r, _, _, h⟩ | ⟨_, _, h⟩
  · exact .inl ⟨p, by rw [h]⟩
  · exact .inr h

/-- C67: `Put` succeeds exactly for the valid derivations whose input derivations are stored and whose
output paths are the calculated ones, and delivers the path of the derivation. -/
theorem C67_put_iff (H : Bytes → Bytes) (ds : List Derivation) (d : Derivation) (hm : Maps d) (p : Bytes) :
    let ms := (MapStore.history H newMapStore ds).2
    (MapStore.put H d ms).1 = .ok p ↔ d.validate = .ok () ∧ (∀ i ∈ d.inputDerivations, ms.has i.1 = .ok true) ∧
      PathsCalculated H ms.drvReplacements d ∧ drvPath H d = .ok p := by
  intro ms
  have e : ∀ q, ms.has q = .ok true ↔ (ms.drvs.get? q).isSome = true := by intro q; simp [MapStore.has]
  simp only [e]
  rw [← putPath_iff H ms hm.outputs p]
  rcases put_cases H (history_inv H ds _ mInv_new) d with ⟨q, r, h1, _, h⟩ | ⟨h1, h2, h⟩
  · constructor
    · intro h3
      rw [h] at h3
      rw [h1]; exact h3
    · intro h3
      have h3' : ms.putPath H d = .ok p := h3
      rw [h1] at h3
      rw [h]; exact h3
  · exact ⟨fun h3 => absurd h3 (h2 p), fun h3 => absurd h3 (h1 p)⟩

theorem has_iff (ms : MapStore) (q : Bytes) : ms.has q = .ok true ↔ (ms.drvs.get? q).isSome = true := by
  simp [MapStore.has]

theorem checked_ext {H : Bytes → Bytes} {ms ms' : MapStore} {p : Bytes} {d : Derivation} (hi : MInv ms)
    (h1 : ∀ q, ms.has q = .ok true → ms'.has q = .ok true)
    (h2 : ∀ q, ms.has q = .ok true → ms'.drvReplacements.get? q = ms.drvReplacements.get? q)
    (hp : ms.has p = .ok true) (h : Checked H ms p d) : Checked H ms' p d := by
  have ha : ∀ strip, aterm d strip ms.drvReplacements = aterm d strip ms'.drvReplacements := by
    intro strip
    apply aterm_restrict
    intro i hin
    have := h.inputs i hin
    exact ⟨hi _ ((has_iff ms _).1 this), (h2 _ this).symm⟩
  refine ⟨h.valid, h.path, fun i hin => h1 _ (h.inputs i hin), ?_, ?_⟩
  · obtain ⟨r, hr, hc⟩ := h.replacement
    refine ⟨r, by rw [h2 p hp]; exact hr, ?_⟩
    rw [← hc]
    exact (calculateDrvReplacement_repl H (fun _ => ha false)).symm
  · obtain ⟨m, hm, ho⟩ := h.outputs
    refine ⟨m, ?_, ho⟩
    rw [← hm]
    exact (calculateOutputPaths_repl H (fun _ => ha true)).symm

theorem history_checked (H : Bytes → Bytes) (S : Derivation → Prop) (hS : ∀ d, S d → Maps d)
    (hdet : ∀ d d' p, S d → S d' → drvPath H d = .ok p → drvPath H d' = .ok p →
      ∀ R, calculateDrvReplacement H d R = calculateDrvReplacement H d' R) (ds : List Derivation) :
    ∀ ms, MInv ms → (∀ d ∈ ds, S d) → (∀ p d, ms.get p = .ok d → S d ∧ Checked H ms p d) →
      ∀ p d, (MapStore.history H ms ds).2.get p = .ok d → Checked H (MapStore.history H ms ds).2 p d := by
  induction ds with
  | nil => intro ms _ _ h p d hg; exact (h p d hg).2
  | cons d ds ih =>
    intro ms hi hds h
    refine ih _ (put_inv H hi d) (fun x hx => hds x (by simp [hx])) ?_
    rcases put_cases H hi d with ⟨q, r, hq, hr, he⟩ | ⟨_, _, he⟩
    rotate_left
    · rw [he]; exact h
    rw [he]
    have hSd := hds d (by simp)
    obtain ⟨hv, hin, ho, hpath⟩ := (putPath_iff H ms (hS d hSd).outputs q).1 hq
    have has' : ∀ x, ms.has x = .ok true → MapStore.has ⟨ms.drvs.insert q d, ms.drvReplacements.insert q r⟩ x = .ok true := by
      intro x hx
      rw [has_iff] at hx ⊢
      simp only
      rw [GoMap.get?_insert]
      split
      · rfl
      · exact hx
    have hrep : ∀ x, ms.has x = .ok true → (ms.drvReplacements.insert q r).get? x = ms.drvReplacements.get? x := by
      intro x hx
      rw [GoMap.get?_insert]
      split
      · rename_i e
        have e : q = x := by simpa using e
        subst e
        rw [has_iff] at hx
        obtain ⟨d0, hd0⟩ := Option.isSome_iff_exists.1 hx
        obtain ⟨hS0, hc⟩ := h q d0 (by unfold MapStore.get; rw [hd0])
        obtain ⟨r0, h3, h4⟩ := hc.replacement
        rw [hdet d d0 q hSd hS0 hpath hc.path, h4] at hr
        rw [h3, Res.ok.inj hr]
      · rfl
    have hnew : Checked H ⟨ms.drvs.insert q d, ms.drvReplacements.insert q r⟩ q d := by
      have ha : ∀ strip, aterm d strip ms.drvReplacements = aterm d strip (ms.drvReplacements.insert q r) := by
        intro strip
        apply aterm_restrict
        intro i hii
        have := hin i hii
        exact ⟨hi _ this, (hrep _ ((has_iff ms _).2 this)).symm⟩
      refine ⟨hv, hpath, fun i hii => has' _ ((has_iff ms _).2 (hin i hii)), ⟨r, ?_, ?_⟩, ?_⟩
      · simp only
        rw [GoMap.get?_insert]; simp
      · rw [← hr]
        exact (calculateDrvReplacement_repl H (fun _ => ha false)).symm
      · obtain ⟨m, hm, ho⟩ := ho
        refine ⟨m, ?_, ho⟩
        rw [← hm]
        exact (calculateOutputPaths_repl H (fun _ => ha true)).symm
    intro p d' hg
    unfold MapStore.get at hg
    simp only at hg
    rw [GoMap.get?_insert] at hg
    split at hg
    · rename_i d'' e
      split at e
      · rename_i e'
        have e' : q = p := by simpa using e'
        subst e'
        rw [← Res.ok.inj hg, ← Option.some.inj e]
        exact ⟨hSd, hnew⟩
      · rw [← Res.ok.inj hg]
        have hg' : ms.get p = .ok d'' := by unfold MapStore.get; rw [e]
        obtain ⟨a, b⟩ := h p d'' hg'
        exact ⟨a, checked_ext hi has' hrep (by rw [has_iff, e]; rfl) b⟩
    · cases hg

/-- C67: every derivation in a `MapStore` is `Checked`: its inputs are stored, and its output paths are what the
store calculates now. It is assumed of the hash function that derivations of the history with the same path
have the same replacements (as derivations with the same text do). -/
theorem C67_checked (H : Bytes → Bytes) (ds : List Derivation) (hm : ∀ d ∈ ds, Maps d)
    (hdet : ∀ d ∈ ds, ∀ d' ∈ ds, ∀ p, drvPath H d = .ok p → drvPath H d' = .ok p →
      ∀ R, calculateDrvReplacement H d R = calculateDrvReplacement H d' R) (p : Bytes) (d : Derivation) :
    let ms := (MapStore.history H newMapStore ds).2
    ms.get p = .ok d → Checked H ms p d := by
  refine history_checked H (· ∈ ds) hm (fun d d' p h h' => hdet d h d' h' p) ds _ mInv_new (fun d h => h) ?_ p d
  intro p d h
  simp [newMapStore, MapStore.get, GoMap.get?] at h

/-- A toy hash function. -/
def zeroHash : Bytes → Bytes := fun _ => List.replicate 32 0

/-- A fixed-output derivation without inputs. -/
def fetchDrv (name : Bytes) : Derivation where
  name := []
  outputs := [(b!"out", ⟨b!"/nix/store/" ++ dHash ++ b!"-" ++ name, b!"r:sha256", b!"ff"⟩)]
  inputSources := []
  inputDerivations := []
  platform := b!"builtin"
  builder := b!"builtin:fetchurl"
  arguments := []
  env := [(b!"name", name)]

/-- A derivation that uses some of them. -/
def userDrv (inputs : List Bytes) : Derivation where
  name := []
  outputs := [(b!"out", ⟨b!"/nix/store/" ++ dHash ++ b!"-user", [], []⟩)]
  inputSources := []
  inputDerivations := inputs.map fun n => (b!"/nix/store/" ++ dHash ++ b!"-" ++ n ++ b!".drv", [b!"out"])
  platform := b!"x86_64-linux"
  builder := b!"/bin/sh"
  arguments := []
  env := [(b!"name", b!"user"), (b!"out", [])]

theorem sampleHistory : (MapStore.history zeroHash newMapStore [fetchDrv b!"a", fetchDrv b!"b", userDrv [b!"a", b!"b"], userDrv [b!"c"]]).1.map (·.2) =
    [.ok (b!"/nix/store/" ++ dHash ++ b!"-a.drv"), .ok (b!"/nix/store/" ++ dHash ++ b!"-b.drv"),
     .ok (b!"/nix/store/" ++ dHash ++ b!"-user.drv"), .err (.msg "unable to find referred input drv path")] := by
  decide +kernel

example : (∀ d ∈ [fetchDrv b!"a", fetchDrv b!"b", userDrv [b!"a", b!"b"]], d.outputs.keys.Nodup ∧ d.inputDerivations.keys.Nodup ∧ d.env.keys.Nodup) ∧
    (∀ d ∈ [fetchDrv b!"a", fetchDrv b!"b", userDrv [b!"a", b!"b"]], ∀ d' ∈ [fetchDrv b!"a", fetchDrv b!"b", userDrv [b!"a", b!"b"]],
      drvPath zeroHash d = drvPath zeroHash d' → d = d') := by
  decide +kernel

/-! ## C68 -/

/-- The Badger database and the `MapStore` have the same contents: texts instead of derivations. -/
structure Agrees (ms : MapStore) (db : Badger) : Prop where
  drvs : ∀ p, db.get? (b!"drv:" ++ p) = (ms.drvs.get? p).map fun d => (printed d false d.inputDerivations).text
  replacements : ∀ p, db.get? (b!"replacement:" ++ p) = ms.drvReplacements.get? p

theorem agrees_new : Agrees newMapStore [] := ⟨fun _ => rfl, fun _ => rfl⟩

theorem drv_key {p q : Bytes} : (b!"drv:" ++ p = b!"replacement:" ++ q) ↔ False := by simp

theorem agrees_insert {ms : MapStore} {db : Badger} (h : Agrees ms db) (p r : Bytes) (d : Derivation) :
    Agrees ⟨ms.drvs.insert p d, ms.drvReplacements.insert p r⟩
      (GoMap.insert (GoMap.insert db (b!"drv:" ++ p) (printed d false d.inputDerivations).text) (b!"replacement:" ++ p) r) := by
  constructor
  · intro q
    rw [GoMap.get?_insert, GoMap.get?_insert, if_neg (by simp)]
    simp only
    rw [GoMap.get?_insert]
    by_cases hq : p = q
    · subst hq; simp
    · rw [if_neg (by simpa using hq), if_neg (by simpa using hq)]
      exact h.drvs q
  · intro q
    show _ = GoMap.get? (ms.drvReplacements.insert p r) q
    rw [GoMap.get?_insert]
    by_cases hq : p = q
    · subst hq; rw [if_pos rfl, GoMap.get?_insert, if_pos rfl]
    · rw [if_neg (by simpa using hq), GoMap.get?_insert, if_neg (by simp), GoMap.get?_insert, if_neg hq]
      exact h.replacements q

theorem has_agrees {ms : MapStore} {db : Badger} (h : Agrees ms db) : db.has = ms.has := by
  funext p
  rw [badger_has]
  unfold MapStore.has
  rw [h.drvs p, Option.isSome_map]

theorem isFixed_fixedOutput {d : Derivation} (h : IsFixed d) : fixedOutput d ≠ none := by
  obtain ⟨o, h1, h2⟩ := h
  unfold fixedOutput
  rw [h1]
  simp [GoMap.get?, h2]

/-- The replacements that `BadgerStore.Put` loads suffice for derivations with at most one input. -/
theorem put_agrees (H : Bytes → Bytes) {ms : MapStore} {db : Badger} (hi : MInv ms) (h : Agrees ms db) (d : Derivation)
    (hd : d.inputDerivations.length ≤ 1 ∨ IsFixed d) :
    (Badger.put H d db).1 = (MapStore.put H d ms).1 ∧ Agrees (MapStore.put H d ms).2 (Badger.put H d db).2 := by
  unfold Badger.put MapStore.put
  unfold Badger.putPath MapStore.putPath
  rw [has_agrees h]
  cases hv : validateInStore ms.has d with
  | err e => exact ⟨rfl, h⟩
  | panic => exact ⟨rfl, h⟩
  | ok u =>
    simp only [Res.bind_ok]
    have hin : ∀ i ∈ d.inputDerivations, (ms.drvs.get? i.1).isSome = true := by
      have e : ms.has = fun p => .ok (ms.drvs.get? p).isSome := rfl
      rw [e] at hv
      exact ((validateInStore_iff _ d).1 hv).2
    have hload : ∃ R, db.loadReplacements d.inputDerivations.keys = .ok R ∧
        calculateOutputPaths H d R = calculateOutputPaths H d ms.drvReplacements ∧
        calculateDrvReplacement H d R = calculateDrvReplacement H d ms.drvReplacements := by
      cases hk : d.inputDerivations with
      | nil =>
        have ha : ∀ strip, aterm d strip [] = aterm d strip ms.drvReplacements := fun strip =>
          aterm_restrict (by rw [hk]; intro i hi; cases hi) strip
        exact ⟨[], rfl, calculateOutputPaths_repl H (fun _ => ha true), calculateDrvReplacement_repl H (fun _ => ha false)⟩
      | cons i l =>
        have h1 := hi _ (hin i (by rw [hk]; simp))
        cases hr : ms.drvReplacements.get? i.1 with
        | none => exact absurd hr h1
        | some r =>
          refine ⟨[(i.1, r)], ?_, ?_⟩
          · simp only [GoMap.keys, List.map_cons, Badger.loadReplacements]
            rw [h.replacements, hr]
          rcases hd with hd | hd
          · rw [hk] at hd
            have hl : l = [] := by
              cases l with
              | nil => rfl
              | cons a l => simp at hd
            have ha : ∀ strip, aterm d strip [(i.1, r)] = aterm d strip ms.drvReplacements := by
              intro strip
              apply aterm_restrict
              rw [hk, hl]
              intro j hj
              have : j = i := by simpa using hj
              subst this
              rw [hr]
              simp [GoMap.get?]
            exact ⟨calculateOutputPaths_repl H (fun _ => ha true), calculateDrvReplacement_repl H (fun _ => ha false)⟩
          · constructor
            · apply calculateOutputPaths_repl
              rintro ⟨o, ho, h0⟩
              obtain ⟨o', ho', h0'⟩ := hd
              rw [ho'] at ho
              have : o = (b!"out", o') := by simpa using ho
              subst this
              exact absurd h0 h0'
            · apply calculateDrvReplacement_repl
              intro hf
              exact absurd hf (isFixed_fixedOutput hd)
    obtain ⟨R, h1, h2, h3⟩ := hload
    rw [h1]
    simp only [Res.bind_ok]
    have h4 : checkOutputPaths H d R = checkOutputPaths H d ms.drvReplacements := by
      unfold checkOutputPaths; rw [h2]
    rw [h4]
    cases checkOutputPaths H d ms.drvReplacements with
    | err e => exact ⟨rfl, h⟩
    | panic => exact ⟨rfl, h⟩
    | ok u =>
      simp only [Res.bind_ok]
      cases drvPath H d with
      | err e => exact ⟨rfl, h⟩
      | panic => exact ⟨rfl, h⟩
      | ok p =>
        simp only [Res.bind_ok, aterm_nil]
        obtain ⟨r, hr⟩ := calculateDrvReplacement_ok H (d := d) (R := ms.drvReplacements) (fun i hin' => hi _ (hin i hin'))
        rw [h3, hr]
        exact ⟨rfl, agrees_insert h p r d⟩

theorem history_agrees (H : Bytes → Bytes) (ds : List Derivation) : ∀ ms db, MInv ms → Agrees ms db →
    (∀ d ∈ ds, d.inputDerivations.length ≤ 1 ∨ IsFixed d) →
    (Badger.history H db ds).1 = (MapStore.history H ms ds).1 ∧ Agrees (MapStore.history H ms ds).2 (Badger.history H db ds).2 := by
  induction ds with
  | nil => intro ms db _ h _; exact ⟨rfl, h⟩
  | cons d ds ih =>
    intro ms db hi h hd
    obtain ⟨h1, h2⟩ := put_agrees H hi h d (hd d (by simp))
    obtain ⟨h3, h4⟩ := ih _ _ (put_inv H hi d) h2 (fun x hx => hd x (by simp [hx]))
    simp only [Badger.history, MapStore.history]
    rw [h1, h3]
    exact ⟨rfl, h4⟩

/-- C68 is false as stated. `BadgerStore` does not accept any derivation with two input derivations or more that
is not a fixed-output derivation, whatever it has stored: it loads one replacement only. -/
theorem C68_refuted_never (H : Bytes → Bytes) (db : Badger) (d : Derivation) (hm : Maps d) (h2 : 2 ≤ d.inputDerivations.length)
    (hf : ∃ o ∈ d.outputs, o.2.hashAlgorithm = []) : (∀ p, (Badger.put H d db).1 ≠ .ok p) ∧ (Badger.put H d db).2 = db := by
  have key : ∀ x, Badger.putPath H db d ≠ .ok x := by
    intro x hx
    unfold Badger.putPath at hx
    simp only [Res.bind_eq_ok] at hx
    obtain ⟨_, _, R, hR, _, hc, p, hp, _⟩ := hx
    have hn : d.getName ≠ [] := by
      intro h0
      unfold drvPath at hp
      rw [aterm_nil, Res.bind_ok, if_pos h0] at hp
      cases hp
    cases hk : d.inputDerivations with
    | nil => rw [hk] at h2; simp at h2
    | cons i l =>
      cases l with
      | nil => rw [hk] at h2; simp at h2
      | cons j l =>
        have hne : j.1 ≠ i.1 := by
          have := hm.inputDerivations
          rw [hk] at this
          simp only [GoMap.keys, List.map_cons, List.nodup_cons, List.mem_cons, not_or] at this
          exact fun e => this.1.1 e.symm
        rw [hk] at hR
        simp only [GoMap.keys, List.map_cons, Badger.loadReplacements] at hR
        split at hR
        · cases hR
        rename_i r hr
        have hR' := Res.ok.inj hR
        obtain ⟨e, he⟩ := (C88_fails_iff H d R hm hn).2 ⟨hf, by rw [← hR']; simp, j, by rw [hk]; simp, by
          rw [← hR']
          simp [GoMap.get?, hne.symm]⟩
        unfold checkOutputPaths at hc
        rw [he] at hc
        cases hc
  unfold Badger.put
  cases hp : Badger.putPath H db d with
  | err e => simp
  | panic => simp
  | ok x => exact absurd hp (key x)

/-- C68: so there is a history on which the stores differ (with a toy hash function). -/
theorem C68_refuted : ∃ (H : Bytes → Bytes) (ds : List Derivation) (p : Bytes),
    (MapStore.history H newMapStore ds).2.has p = .ok true ∧ (Badger.history H [] ds).2.has p = .ok false := by
  exact ⟨zeroHash, [fetchDrv b!"a", fetchDrv b!"b", userDrv [b!"a", b!"b"]], b!"/nix/store/" ++ dHash ++ b!"-user.drv",
    by decide +kernel, by decide +kernel⟩

/-- C68, what holds: on histories of derivations with at most one input derivation, or of fixed-output derivations,
the stores accept the same, with the same errors, `Has` is the same, and `Get` is the same for the derivations that
can be written and read back (C56). Missing: derivations with more input derivations (refuted). -/
theorem C68_agree_partial (H : Bytes → Bytes) (jsonName : Bytes → Res (Option Bytes)) (ds : List Derivation)
    (hd : ∀ d ∈ ds, d.inputDerivations.length ≤ 1 ∨ IsFixed d) :
    (Badger.history H [] ds).1 = (MapStore.history H newMapStore ds).1 ∧ ∀ p,
    let ms := (MapStore.history H newMapStore ds).2
    let db := (Badger.history H [] ds).2
    db.has p = ms.has p ∧
    ((∃ e, ms.get p = .err e) ↔ ms.has p = .ok false) ∧
    (ms.has p = .ok false → ∃ e, Badger.getDrv jsonName db p = .err e) ∧
    ∀ d, ms.get p = .ok d → Maps d → d.validate = .ok () → RawClosed d →
      (∀ j, (b!"__json", j) ∈ d.env → jsonName j = .ok (some d.name) ∧ d.name ≠ []) →
      (b!"__json" ∉ d.env.keys → d.name = []) →
      ∃ d', Badger.getDrv jsonName db p = .ok d' ∧ Same d d' := by
  obtain ⟨h1, h2⟩ := history_agrees H ds newMapStore [] mInv_new agrees_new hd
  refine ⟨h1, ?_⟩
  intro p ms db
  refine ⟨by rw [has_agrees h2], ?_, ?_, ?_⟩
  · unfold MapStore.get MapStore.has
    cases ms.drvs.get? p with
    | none => simp
    | some d => simp
  · intro h
    unfold MapStore.has at h
    unfold Badger.getDrv
    rw [h2.drvs p]
    cases hg : (MapStore.history H newMapStore ds).2.drvs.get? p with
    | none => exact ⟨_, rfl⟩
    | some d => rw [hg] at h; simp at h
  · intro d hg hm hv hr hj hn
    unfold MapStore.get at hg
    unfold Badger.getDrv
    rw [h2.drvs p]
    cases hg' : (MapStore.history H newMapStore ds).2.drvs.get? p with
    | none => rw [hg'] at hg; cases hg
    | some d0 =>
      rw [hg'] at hg
      have := Res.ok.inj hg
      subst this
      obtain ⟨b, d', hw, hrd, hs⟩ := C56_roundtrip jsonName d0 hm hv hr hj hn
      obtain ⟨cs, hc1, hc2⟩ := write_chunks d0
      refine ⟨d', ?_, hs⟩
      simp only [Option.map_some]
      rw [← hrd]
      have : (printed d0 false d0.inputDerivations).text = b := by
        unfold Derivation.write at hw
        rw [hc1] at hw
        have hw' : writeChunks cs ⟨[], none⟩ = (.ok (), ⟨b, none⟩) := hw
        rw [writeChunks_none, hc2] at hw'
        simpa using hw'
      rw [this]

example : (∀ d ∈ [fetchDrv b!"a", userDrv [b!"a"]], d.inputDerivations.length ≤ 1) ∧
    (Badger.history zeroHash [] [fetchDrv b!"a", userDrv [b!"a"]]).1.map (·.2) =
      [.ok (b!"/nix/store/" ++ dHash ++ b!"-a.drv"), .ok (b!"/nix/store/" ++ dHash ++ b!"-user.drv")] := by
  decide +kernel

/-! ## C69 -/

/-- C69 is false as stated: for `..` the store looks at the parent of its directory, for the empty path and for
`/` at the directory itself. -/
theorem C69_refuted : (newFSStore b!"/drvs/x").getFilepath b!".." = b!"/drvs" ∧
    (newFSStore b!"/drvs/x").getFilepath [] = b!"/drvs/x" ∧ (newFSStore b!"/drvs/x").getFilepath b!"/" = b!"/drvs/x" := by
  decide +kernel

/-- C69, what holds: for every path, the store looks at a direct child of its directory, at the directory itself or
at its parent. Missing: only the first (refuted). -/
theorem C69_near_partial (dir p : Bytes) (hd : dir.head? = some 47) :
    (∃ n, n ≠ [] ∧ n ≠ b!"." ∧ n ≠ b!".." ∧ 47 ∉ n ∧ FSStore.getFilepath ⟨dir⟩ p = childPath (clean dir) n) ∨
    FSStore.getFilepath ⟨dir⟩ p = clean dir ∨ FSStore.getFilepath ⟨dir⟩ p = clean (dir ++ b!"/..") := by
  unfold FSStore.getFilepath
  simp only
  have h0 : dir ≠ [] := by intro e; rw [e] at hd; cases hd
  have hroot : ∀ n, n ≠ [] → pathJoin dir n = clean (dir ++ b!"/" ++ n) := by
    intro n hn
    unfold pathJoin
    rw [if_neg (fun h => h0 h.1), if_neg h0, if_neg hn]
  rcases pathBase_cases p with h | ⟨h1, h2⟩
  · right; left
    rw [h, pathJoin_rooted hd (by simp), clean_rooted _ hd]
    have : (splitByte b!"/" 47).foldl (cleanStep true) (cleanComps dir).reverse = (cleanComps dir).reverse := rfl
    rw [this, List.reverse_reverse]
  · by_cases hdot : pathBase p = b!"."
    · right; left
      rw [hdot, pathJoin_rooted hd (by simp), clean_rooted _ hd]
      have : (splitByte b!"." 47).foldl (cleanStep true) (cleanComps dir).reverse = (cleanComps dir).reverse := rfl
      rw [this, List.reverse_reverse]
    · by_cases hdd : pathBase p = b!".."
      · right; right
        rw [hdd, hroot _ (by simp)]
        simp
      · left
        exact ⟨pathBase p, h1, hdot, hdd, h2, pathJoin_child hd ⟨h1, hdot, hdd, h2⟩⟩

/-- the last component of a path -/
theorem pathBase_last {q n : Bytes} (k : Nat) (hn : n ≠ []) (h47 : (47 : UInt8) ∉ n) (hq : q = [] ∨ q.getLast? = some 47) :
    pathBase (q ++ n ++ List.replicate k 47) = n := by
  obtain ⟨x, xs, hx⟩ := List.exists_cons_of_ne_nil (l := n.reverse) (by simpa using hn)
  have hx47 : ∀ y ∈ n.reverse, y ≠ 47 := by
    intro y hy e
    subst e
    exact h47 (by simpa using hy)
  have hdrop : ∀ k, (List.replicate k (47 : UInt8) ++ (n.reverse ++ q.reverse)).dropWhile (· == 47) = n.reverse ++ q.reverse := by
    intro k
    induction k with
    | zero =>
      rw [List.replicate_zero, List.nil_append, hx, List.cons_append,
        List.dropWhile_cons_of_neg (by simpa using hx47 x (by rw [hx]; simp))]
    | succ k ih => rw [List.replicate_succ, List.cons_append, List.dropWhile_cons_of_pos (by simp), ih]
  have htake : (n.reverse ++ q.reverse).takeWhile (· != 47) = n.reverse := by
    have : q.reverse.takeWhile (· != 47) = [] := by
      rcases hq with rfl | hq
      · rfl
      · obtain ⟨y, ys, hy⟩ := List.exists_cons_of_ne_nil (l := q.reverse) (by
          intro e; simp at e; subst e; simp at hq)
        rw [← List.head?_reverse, hy] at hq
        simp at hq
        rw [hy, hq, List.takeWhile_cons_of_neg (by simp)]
    rw [List.takeWhile_append_of_pos (by intro y hy; simpa using hx47 y hy), this, List.append_nil]
  unfold pathBase
  rw [if_neg (by simp [hn])]
  simp only [List.reverse_append, List.reverse_replicate]
  rw [hdrop, if_neg (by simp [hn]), List.reverse_reverse, htake, List.reverse_reverse]

/-- every path is made of slashes only, or has a last component -/
theorem last_component (p : Bytes) : (∀ c ∈ p, c = 47) ∨ ∃ q n k, p = q ++ n ++ List.replicate k 47 ∧ n ≠ [] ∧
    (47 : UInt8) ∉ n ∧ (q = [] ∨ q.getLast? = some 47) := by
  have key : ∀ r : Bytes, (∀ c ∈ r, c = 47) ∨ ∃ q n k, r = List.replicate k 47 ++ (n ++ q) ∧ n ≠ [] ∧
      (47 : UInt8) ∉ n ∧ (q = [] ∨ q.head? = some 47) := by
    intro r
    induction r with
    | nil => left; simp
    | cons x r ih =>
      by_cases hx : x = 47
      · rcases ih with h | ⟨q, n, k, h1, h2, h3, h4⟩
        · left; intro c hc
          rcases List.mem_cons.1 hc with rfl | hc
          · exact hx
          · exact h c hc
        · right; exact ⟨q, n, k + 1, by rw [List.replicate_succ, h1, hx]; rfl, h2, h3, h4⟩
      · right
        refine ⟨(x :: r).dropWhile (· != 47), (x :: r).takeWhile (· != 47), 0, by simp [List.takeWhile_append_dropWhile], ?_, ?_, ?_⟩
        · rw [List.takeWhile_cons_of_pos (by simpa using hx)]; simp
        · intro h
          have := List.all_takeWhile (p := fun c : UInt8 => c != 47) (l := x :: r)
          rw [List.all_eq_true] at this
          simpa using this 47 h
        · cases hd : (x :: r).dropWhile (· != 47) with
          | nil => exact .inl rfl
          | cons y ys =>
            right
            have := List.head_dropWhile_not (fun c : UInt8 => c != 47) (l := x :: r) (by rw [hd]; simp)
            simp only [hd, List.head_cons] at this
            simpa using this
  rcases key p.reverse with h | ⟨q, n, k, h1, h2, h3, h4⟩
  · left; intro c hc; exact h c (by simpa using hc)
  · right
    refine ⟨q.reverse, n.reverse, k, ?_, by simpa using h2, by simpa using h3, ?_⟩
    · have := congrArg List.reverse h1
      simpa using this
    · rcases h4 with rfl | h4
      · exact .inl rfl
      · right; rw [List.getLast?_reverse]; exact h4

/-- C69, exactly: the store looks at the entry of its directory that is called like the last component of the path, except that a path without component
(empty, or slashes only) or ending in `.` stands for the directory itself, and one ending in `..` for its parent. -/
theorem C69_exact (dir p : Bytes) (hd : dir.head? = some 47) :
    ((∀ c ∈ p, c = 47) → FSStore.getFilepath ⟨dir⟩ p = clean dir) ∧
    (∀ q n k, p = q ++ n ++ List.replicate k 47 → n ≠ [] → 47 ∉ n → (q = [] ∨ q.getLast? = some 47) →
      FSStore.getFilepath ⟨dir⟩ p = if n = b!"." then clean dir else if n = b!".." then clean (dir ++ b!"/..")
        else childPath (clean dir) n) ∧
    ((∀ c ∈ p, c = 47) ∨ ∃ q n k, p = q ++ n ++ List.replicate k 47 ∧ n ≠ [] ∧ 47 ∉ n ∧ (q = [] ∨ q.getLast? = some 47)) := by
  have h0 : dir ≠ [] := by intro e; rw [e] at hd; cases hd
  have hself : ∀ b : Bytes, b ≠ [] → (splitByte b 47).foldl (cleanStep true) (cleanComps dir).reverse = (cleanComps dir).reverse →
      pathJoin dir b = clean dir := by
    intro b hb h
    rw [pathJoin_rooted hd hb, clean_rooted _ hd, h, List.reverse_reverse]
  refine ⟨fun h => ?_, fun q n k hp hn h47 hq => ?_, last_component p⟩
  · unfold FSStore.getFilepath
    simp only
    have hb : pathBase p = b!"." ∨ pathBase p = b!"/" := by
      unfold pathBase
      by_cases hp : p = []
      · left; rw [if_pos hp]
      · right
        rw [if_neg hp]
        have : p.reverse.dropWhile (· == 47) = [] := by
          have hall : ∀ l : Bytes, (∀ c ∈ l, c = 47) → l.dropWhile (· == 47) = [] := by
            intro l
            induction l with
            | nil => intro _; rfl
            | cons x l ih =>
              intro hl
              rw [List.dropWhile_cons_of_pos (by simpa using hl x (by simp))]
              exact ih fun c hc => hl c (by simp [hc])
          exact hall _ fun c hc => h c (by simpa using hc)
        simp [this]
    rcases hb with hb | hb
    · rw [hb]; exact hself _ (by simp) rfl
    · rw [hb]; exact hself _ (by simp) rfl
  · unfold FSStore.getFilepath
    simp only
    rw [hp, pathBase_last k hn h47 hq]
    by_cases hdot : n = b!"."
    · rw [if_pos hdot, hdot]; exact hself _ (by simp) rfl
    · rw [if_neg hdot]
      by_cases hdd : n = b!".."
      · rw [if_pos hdd, hdd]
        unfold pathJoin
        rw [if_neg (fun h => h0 h.1), if_neg h0, if_neg (by simp)]
        simp
      · rw [if_neg hdd]
        exact pathJoin_child hd ⟨hn, hdot, hdd, h47⟩

/-- The last component of a store path. -/
theorem storePath_base {p : Bytes} (h : IsStorePath p) : ∃ n, p = b!"/nix/store/" ++ n ∧ pathBase p = n ∧ Good n := by
  obtain ⟨h, n, rfl, ⟨hl, hh⟩, hn0, hn⟩ := h
  have hslash : (47 : UInt8) ∉ h ++ b!"-" ++ n := by
    simp only [List.mem_append, not_or]
    refine ⟨⟨fun hm => ?_, by decide⟩, fun hm => ?_⟩
    · exact absurd (hh 47 hm) (by decide)
    · exact absurd (hn 47 hm) (by decide)
  have hlen : (h ++ b!"-" ++ n).length ≥ 33 := by simp [hl]; omega
  have hne : ∀ x : Bytes, x.length < 33 → h ++ b!"-" ++ n ≠ x := by
    intro x hx e
    rw [e] at hlen; omega
  refine ⟨h ++ b!"-" ++ n, by simp, ?_, hne _ (by simp), hne _ (by simp), hne _ (by simp), hslash⟩
  rw [← pathBase_child b!"/nix/store" (hne [] (by simp)) hslash]
  simp

/-- C69, what holds: for store paths it is the direct child with the name of the store path, and different for
different paths. -/
theorem C69_store_path_partial (dir : Bytes) (hd : dir.head? = some 47) (p : Bytes) (hp : IsStorePath p) :
    (∃ n, p = b!"/nix/store/" ++ n ∧ FSStore.getFilepath ⟨dir⟩ p = childPath (clean dir) n) ∧
    ∀ p', IsStorePath p' → FSStore.getFilepath ⟨dir⟩ p = FSStore.getFilepath ⟨dir⟩ p' → p = p' := by
  have key : ∀ p, IsStorePath p → ∃ n, p = b!"/nix/store/" ++ n ∧ FSStore.getFilepath ⟨dir⟩ p = childPath (clean dir) n := by
    intro p hp
    obtain ⟨n, h1, h2, h3⟩ := storePath_base hp
    refine ⟨n, h1, ?_⟩
    unfold FSStore.getFilepath
    simp only
    rw [h2, pathJoin_child hd h3]
  refine ⟨key p hp, ?_⟩
  intro p' hp' he
  obtain ⟨n, h1, h2⟩ := key p hp
  obtain ⟨n', h1', h2'⟩ := key p' hp'
  rw [h2, h2'] at he
  rw [h1, h1', childPath_inj he]

example : (b!"/var//drvs/").head? = some 47 ∧
    FSStore.getFilepath ⟨b!"/var//drvs/"⟩ (b!"/nix/store/" ++ dHash ++ b!"-x.drv") = b!"/var/drvs/" ++ dHash ++ b!"-x.drv" := by
  decide +kernel

example : FSStore.getFilepath ⟨b!"/drvs/x"⟩ b!"a/b//" = b!"/drvs/x/b" ∧ b!"a/b//" = b!"a/" ++ b!"b" ++ List.replicate 2 47 := by
  decide +kernel

/-! ## C90 -/

/-- C90: `FSStore.Has` is true exactly for regular files, false exactly if there is no file, and an error
for anything else. -/
theorem C90_has (os : Fs) (fs : FSStore) (p : Bytes) :
    (fs.has os p = .ok true ↔ os.lstat (fs.getFilepath p) = .ok (some .regular)) ∧
    (fs.has os p = .ok false ↔ os.lstat (fs.getFilepath p) = .ok none) ∧
    ((∃ e, fs.has os p = .err e) ↔ (∃ e, os.lstat (fs.getFilepath p) = .err e) ∨
      ∃ k, os.lstat (fs.getFilepath p) = .ok (some k) ∧ k ≠ .regular) := by
  unfold FSStore.has
  cases os.lstat (fs.getFilepath p) with
  | err e => simp
  | panic => simp
  | ok o =>
    cases o with
    | none => simp
    | some k =>
      by_cases hk : k = .regular
      · simp [hk]
      · simp [hk]

/-- C90: a derivation whose text is in the file with the name of its path is found there by its path: `Has` is true,
and `Get` delivers it. -/
theorem C90_get (H : Bytes → Bytes) (jsonName : Bytes → Res (Option Bytes)) (os : Fs) (dir : Bytes) (hd : dir.head? = some 47)
    (d : Derivation) (hm : Maps d) (hv : d.validate = .ok ()) (hr : RawClosed d)
    (hj : ∀ j, (b!"__json", j) ∈ d.env → jsonName j = .ok (some d.name) ∧ d.name ≠ [])
    (hn : b!"__json" ∉ d.env.keys → d.name = []) (hc : d.getName ≠ [] ∧ NameChars d.getName) (p n t : Bytes)
    (hp : drvPath H d = .ok p) (hpn : p = b!"/nix/store/" ++ n) (ht : d.write ⟨[], none⟩ = (.ok (), ⟨t, none⟩))
    (hl : os.lstat (childPath (clean dir) n) = .ok (some .regular))
    (ho : os.openFile (childPath (clean dir) n) = .ok ⟨t, .eof⟩) :
    FSStore.has os ⟨dir⟩ p = .ok true ∧ ∃ d', FSStore.get jsonName os ⟨dir⟩ p = .ok d' ∧ Same d d' := by
  obtain ⟨_, _, p', _, _, _, hp', _, hsp⟩ := C65_drv_path H d hm hc.1 hc.2
  rw [hp] at hp'
  have := Res.ok.inj hp'
  subst this
  obtain ⟨n', h1, h2⟩ := (C69_store_path_partial dir hd p hsp).1
  have hnn : n' = n := by
    rw [hpn] at h1
    exact (List.append_cancel_left h1).symm
  subst hnn
  constructor
  · rw [(C90_has os ⟨dir⟩ p).1, h2]; exact hl
  · obtain ⟨b, d', hw, hrd, hs⟩ := C56_roundtrip jsonName d hm hv hr hj hn
    rw [ht] at hw
    have : t = b := by simpa using hw
    subst this
    refine ⟨d', ?_, hs⟩
    unfold FSStore.get
    rw [h2, ho, Res.bind_ok]
    simp only [hrd]

/-- C90: a file that `Get` cannot read as a derivation is not delivered, and `Get` delivers nothing but what the
file contains. -/
theorem C90_get_iff (jsonName : Bytes → Res (Option Bytes)) (os : Fs) (fs : FSStore) (p : Bytes) (d : Derivation) :
    fs.get jsonName os p = .ok d ↔ ∃ s, os.openFile (fs.getFilepath p) = .ok s ∧ readDerivation jsonName s = .ok d := by
  unfold FSStore.get
  rw [Res.bind_eq_ok]
  constructor
  · rintro ⟨s, h1, h2⟩
    refine ⟨s, h1, ?_⟩
    cases hr : readDerivation jsonName s with
    | ok d' => rw [hr] at h2; exact h2
    | err e => rw [hr] at h2; cases h2
    | panic => rw [hr] at h2; cases h2
  · rintro ⟨s, h1, h2⟩
    exact ⟨s, h1, by rw [h2]⟩

/-! ## C70 -/

/-- C70: `HTTPStore.Get` succeeds exactly if the request can be made, the response is of class 2xx, its body can
be read to the end and is a derivation: the one that is returned. -/
theorem C70_get (jsonName : Bytes → Res (Option Bytes)) (request : Bytes → GoUrl.URL → Res Response) (hs : HTTPStore)
    (p : Bytes) (d : Derivation) : hs.get jsonName request p = .ok d ↔
      ∃ u resp, hs.constructRequest p = .ok u ∧ request b!"GET" u = .ok resp ∧ 200 ≤ resp.status ∧ resp.status ≤ 299 ∧
        resp.body.term = .eof ∧ readDerivation jsonName resp.body = .ok d := by
  unfold HTTPStore.get
  rw [Res.bind_eq_ok]
  apply exists_congr
  intro u
  rw [exists_and_left]
  apply and_congr_right
  intro _
  rw [Res.bind_eq_ok]
  apply exists_congr
  intro resp
  apply and_congr_right
  intro _
  split
  · rename_i h
    simp only [reduceCtorEq, false_iff]
    rintro ⟨h1, h2, _⟩
    omega
  · rename_i h
    split
    · rename_i h'
      simp only [reduceCtorEq, false_iff]
      rintro ⟨_, _, h3, _⟩
      exact h' h3
    · rename_i h'
      have h' : resp.body.term = .eof := by simpa using h'
      have hb : (⟨resp.body.data, .eof⟩ : Stream) = resp.body := by rw [← h']
      rw [hb]
      cases hr : readDerivation jsonName resp.body with
      | ok d' => simp only [Res.ok.injEq]; exact ⟨fun h => ⟨by omega, by omega, h', h⟩, fun h => h.2.2.2⟩
      | err e => simp
      | panic => simp

/-- C70: if the request can be made, `HTTPStore.Has` is true exactly for 2xx, false exactly for 404, and an error for
any other status and if there is no response; if it cannot be made, `Has` is an error. -/
theorem C70_has (request : Bytes → GoUrl.URL → Res Response) (hs : HTTPStore) (p : Bytes) :
    (∀ u, hs.constructRequest p = .ok u →
      (hs.has request p = .ok true ↔ ∃ resp, request b!"HEAD" u = .ok resp ∧ 200 ≤ resp.status ∧ resp.status ≤ 299) ∧
      (hs.has request p = .ok false ↔ ∃ resp, request b!"HEAD" u = .ok resp ∧ resp.status = 404) ∧
      ((∃ e, hs.has request p = .err e) ↔ (∃ e, request b!"HEAD" u = .err e) ∨
        ∃ resp, request b!"HEAD" u = .ok resp ∧ resp.status ≠ 404 ∧ ¬ (200 ≤ resp.status ∧ resp.status ≤ 299))) ∧
    (∀ e, hs.constructRequest p = .err e → hs.has request p = .err e) := by
  refine ⟨fun u hu => ?_, fun e he => by unfold HTTPStore.has; rw [he]; rfl⟩
  unfold HTTPStore.has
  rw [hu, Res.bind_ok]
  cases hq : request b!"HEAD" u with
  | err e =>
    have : (Res.err e : Res Response) >>= (fun resp => if resp.status = 404 then Res.ok false
      else if resp.status ≥ 200 ∧ resp.status < 300 then .ok true else .err (.msg "bad status code")) = .err e := rfl
    rw [this]; simp
  | panic =>
    have : (Res.panic : Res Response) >>= (fun resp => if resp.status = 404 then Res.ok false
      else if resp.status ≥ 200 ∧ resp.status < 300 then .ok true else .err (.msg "bad status code")) = .panic := rfl
    rw [this]; simp
  | ok resp =>
    rw [Res.bind_ok]
    simp only [Res.ok.injEq, exists_eq_left']
    by_cases h4 : resp.status = 404
    · simp [h4]
    · rw [if_neg h4]
      by_cases h2 : resp.status ≥ 200 ∧ resp.status < 300
      · rw [if_pos h2]
        simp only [h4]
        refine ⟨by simp; omega, by simp, ?_⟩
        simp; intro h; omega
      · rw [if_neg h2]
        refine ⟨by simp; omega, by simp [h4], ?_⟩
        simp [h4]; omega

/-- C70: for store paths, the request is made for the path of the base URL followed by the name of the
store path. -/
theorem C70_url (hs : HTTPStore) (p : Bytes) (hp : IsStorePath p) : ∃ n, p = b!"/nix/store/" ++ n ∧
    (hs.baseURL.path.head? = some 47 →
      hs.getURL p = { hs.baseURL with path := childPath (clean hs.baseURL.path) n }) ∧
    (hs.baseURL.path = [] → hs.getURL p = { hs.baseURL with path := n }) := by
  obtain ⟨n, h1, h2, h3⟩ := storePath_base hp
  refine ⟨n, h1, ?_, ?_⟩
  · intro hb
    unfold HTTPStore.getURL
    rw [h2, pathJoin_child hb h3]
  · intro hb
    unfold HTTPStore.getURL
    suffices h : pathJoin hs.baseURL.path (pathBase p) = n by rw [h]
    unfold pathJoin
    rw [h2, hb, if_neg (fun h => h3.1 h.2), if_pos rfl]
    have hh : n.head? ≠ some 47 := by
      intro h
      cases n with
      | nil => cases h
      | cons a l =>
        have : a = 47 := by simpa using h
        subst this
        exact h3.2.2.2 (by simp)
    have hc : cleanComps n = [n] := by
      unfold cleanComps
      rw [splitByte_self h3.2.2.2]
      simp only [List.foldl_cons, List.foldl_nil]
      rw [cleanStep_good h3]
      rfl
    unfold clean
    rw [if_neg hh, hc]
    rfl

example : (HTTPStore.getURL ⟨{ GoUrl.URL.zero with path := b!"/drvs/" }⟩ (b!"/nix/store/" ++ dHash ++ b!"-x.drv")).path =
    b!"/drvs/" ++ dHash ++ b!"-x.drv" := by
  decide +kernel

/-! ## C71 -/

/-- C70, C90: these two stores are only read from: `Put` is an error for every derivation. -/
theorem C90_read_only (fs : FSStore) (hs : HTTPStore) (d : Derivation) : (∃ e, fs.put d = .err e) ∧ ∃ e, hs.put d = .err e :=
  ⟨⟨_, rfl⟩, _, rfl⟩

/-- C71 is false as stated: for every `badger` URL `NewFromURI` opens the on-disk store at the empty path,
neither the documented path nor a store in memory. -/
theorem C71_refuted (uri : Bytes) (u : GoUrl.URL) (hu : GoUrl.parse uri = .ok u) (hs : u.scheme = b!"badger") :
    newFromURI uri = .ok (.badger []) ∧ documented u ≠ some (.badger []) := by
  constructor
  · unfold newFromURI
    rw [hu]
    simp only
    rw [if_neg (by rw [hs]; decide), if_pos hs]
  · unfold documented
    rw [if_neg (by rw [hs]; decide), if_pos hs]
    split
    · simp
    · rename_i h
      simp [h]

/-- C71, what holds: any other URL gives the documented store, or an error if there is none for its scheme. Missing:
`badger` URLs (refuted). -/
theorem C71_dispatch_partial (uri : Bytes) (u : GoUrl.URL) (hu : GoUrl.parse uri = .ok u) (hs : u.scheme ≠ b!"badger") :
    (∀ o, newFromURI uri = .ok o ↔ documented u = some o) ∧ (documented u = none → ∃ e, newFromURI uri = .err e) := by
  unfold newFromURI documented newFSStore
  rw [hu]
  simp only [hs, if_false]
  by_cases h1 : u.scheme = []
  · simp [h1, Storepath.storeDir]
  by_cases h2 : u.scheme = b!"file"
  · simp [h2, Storepath.storeDir]
  by_cases h3 : u.scheme = b!"http"
  · simp [h3]
  by_cases h4 : u.scheme = b!"https"
  · simp [h4]
  simp [h1, h2, h3, h4]

/-- C71: what cannot be parsed as a URL is an error. -/
theorem C71_unparsable (uri : Bytes) (e : Err) (hu : GoUrl.parse uri = .err e) :
    ∃ e, newFromURI uri = .err e := by
  unfold newFromURI; rw [hu]; exact ⟨_, rfl⟩

example : GoUrl.parse b!"badger:///x" = .ok { GoUrl.URL.zero with scheme := b!"badger", path := b!"/x" } ∧
    newFromURI b!"badger:///x" = .ok (.badger []) ∧ newFromURI b!"ftp://h/x" = .err (.msg "unknown scheme") ∧
    newFromURI b!"/x" = .ok (.fs ⟨b!"/x"⟩) ∧ newFromURI b!"file://" = .ok (.fs ⟨b!"/nix/store"⟩) ∧
    newFromURI b!"HTTPS://h:8/x" =
      .ok (.http ⟨{ GoUrl.URL.zero with scheme := b!"https", host := b!"h:8", path := b!"/x" }⟩) ∧
    newFromURI b!":x" = .err (.msg "unable to parse uri") := by decide +kernel

end Verif.Props
