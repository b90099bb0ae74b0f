import Verif.Spec.MapConc
import Verif.Props.Store

/-!
# `MapStore` with any number of goroutines (C147)
-/

namespace Verif.Props
open Verif.GoLib Verif.Derivation Verif.Store

/-- A call that runs to its end without interruption. -/
def mrun : MProg → MapStore → SOut × MapStore
  | .ret o, ms => (o, ms)
  | .acc _ _ f k, ms => mrun (k ms) (f ms)

theorem mrun_hasLoop (k : MProg) (ms : MapStore) : ∀ l : List Bytes, mrun (mapHasLoop k l) ms =
    match checkInputs ms.has l with
    | .ok () => mrun k ms
    | .err e => (.put (.err e), ms)
    | .panic => (.put .panic, ms) := by
  intro l
  induction l with
  | nil => rfl
  | cons p l ih =>
    simp only [mapHasLoop, mrun, checkInputs, id]
    cases hp : ms.has p with
    | err e => rfl
    | panic => rfl
    | ok b => cases b with
      | false => rfl
      | true => simpa using ih

theorem mrun_prog (H : Bytes → Bytes) (op : SOp) (ms : MapStore) : mrun (op.mapProg H) ms = op.mapSeq H ms := by
  cases op with
  | get p => rfl
  | has p => rfl
  | put d =>
    simp only [SOp.mapProg, SOp.mapSeq, MapStore.put, MapStore.putPath, validateInStore]
    cases hv : d.validate with
    | err e => rfl
    | panic => rfl
    | ok u =>
      cases u
      simp only [mrun_hasLoop]
      cases hc : checkInputs ms.has d.inputDerivations.keys with
      | err e => rfl
      | panic => rfl
      | ok u =>
        cases u
        simp only [mapPutRest, mrun, id]
        cases ho : checkOutputPaths H d ms.drvReplacements with
        | err e => simp [Bind.bind, Res.bind, ho, mrun]
        | panic => simp [Bind.bind, Res.bind, ho, mrun]
        | ok u =>
          cases u
          cases hp : drvPath H d with
          | err e => simp [Bind.bind, Res.bind, ho, hp, mrun]
          | panic => simp [Bind.bind, Res.bind, ho, hp, mrun]
          | ok p =>
            simp only [Bind.bind, Res.bind, ho, hp, mrun, mapPutReplacement, id]
            cases hr : calculateDrvReplacement H d ms.drvReplacements with
            | err e => rfl
            | panic => rfl
            | ok r => rfl

/-- What holds of every execution in which the `Put`s are alone. -/
structure MInvariant (H : Bytes → Bytes) {ι : Type} [DecidableEq ι] (h : List (Ev ι)) (s : MSys ι) (e : List (LEv ι)) (A : MapStore) (c : ι → CSt) : Prop where
  hist : e.filterMap LEv.ev? = h
  lin : e.foldlM (mapLinStep H) newMapStore = some A
  client : ∀ i, e.foldlM (mapClientStep i) CSt.idle = some (c i)
  idle : ∀ i, s.threads i = none → c i = .idle
  opened : ∀ i t, s.threads i = some t → ∃ op, Open h i op ∧
    ((op.isPut = true ∧ (∀ j, j ≠ i → s.threads j = none) ∧ ∃ o, mrun t.prog s.store = (o, A) ∧ c i = .effective o) ∨
     (op.isPut = false ∧ s.store = A ∧ ((∃ o, t.prog = .ret o ∧ c i = .effective o) ∨ (t.prog = op.mapProg H ∧ c i = .called op))))
  quiet : (∀ i, s.threads i = none) → s.store = A

theorem open_snoc {ι : Type} {h : List (Ev ι)} {i : ι} {op : SOp} (ho : Open h i op) (x : Ev ι) (hx : ∀ o, x ≠ .ret i o) : Open (h ++ [x]) i op := by
  obtain ⟨h1, h2, rfl, hn⟩ := ho
  refine ⟨h1, h2 ++ [x], by simp, ?_⟩
  intro o hm
  rcases List.mem_append.1 hm with hm | hm
  · exact hn o hm
  · exact hx o (List.mem_singleton.1 hm).symm

theorem open_new {ι : Type} (h : List (Ev ι)) (i : ι) (op : SOp) : Open (h ++ [.inv i op]) i op :=
  ⟨h, [], by simp, by simp⟩

theorem alone_prefix {ι : Type} {h : List (Ev ι)} {x : Ev ι} (ha : PutsAlone (h ++ [x])) : PutsAlone h := by
  intro h1 i op h2 j op' he ho
  exact ha h1 i op (h2 ++ [x]) j op' (by rw [he]; simp) ho

theorem setM_self {ι : Type} [DecidableEq ι] (t : ι → Option MThread) (i : ι) (p : Option MThread) : setMThread t i p i = p := by simp [setMThread]
theorem setM_ne {ι : Type} [DecidableEq ι] (t : ι → Option MThread) {i j : ι} (p : Option MThread) (h : j ≠ i) : setMThread t i p j = t j := by simp [setMThread, h]

/-- The state of the clients after one of them went on. -/
def setC {ι : Type} [DecidableEq ι] (c : ι → CSt) (i : ι) (x : CSt) : ι → CSt := fun j => if j = i then x else c j

theorem client_snoc {ι : Type} [DecidableEq ι] {e : List (LEv ι)} {c : ι → CSt} (hc : ∀ i, e.foldlM (mapClientStep i) CSt.idle = some (c i))
    (x : LEv ι) (i : ι) (y : CSt) (hi : mapClientStep i (c i) x = some y) (hj : ∀ j, j ≠ i → mapClientStep j (c j) x = some (c j)) :
    ∀ j, (e ++ [x]).foldlM (mapClientStep j) CSt.idle = some (setC c i y j) := by
  intro j
  rw [List.foldlM_append, hc j]
  by_cases h : j = i
  · subst h; simp [setC, hi]
  · simp [setC, h, hj j h]

theorem lin_snoc {ι : Type} {H : Bytes → Bytes} {e : List (LEv ι)} {A B : MapStore} (he : e.foldlM (mapLinStep H) newMapStore = some A)
    (x : LEv ι) (hx : mapLinStep H A x = some B) : (e ++ [x]).foldlM (mapLinStep H) newMapStore = some B := by
  rw [List.foldlM_append, he]; simp [hx]

theorem map_invariant (H : Bytes → Bytes) {ι : Type} [DecidableEq ι] {h : List (Ev ι)} {s : MSys ι} (hr : MRun H h s) (ha : PutsAlone h) :
    ∃ e A c, MInvariant H h s e A c := by
  induction hr with
  | init => exact ⟨[], newMapStore, fun _ => .idle, rfl, rfl, fun _ => rfl, fun _ _ => rfl, fun i t ht => by simp at ht, fun _ => rfl⟩
  | @inv h s i op _ hn ih =>
    obtain ⟨e, A, c, hI⟩ := ih (alone_prefix ha)
    have hnp : ∀ j t, s.threads j = some t → op.isPut = false ∧ s.store = A := by
      intro j t ht
      obtain ⟨op', ho', hd⟩ := hI.opened j t ht
      obtain ⟨h1, h2⟩ := ha h i op [] j op' (by simp) ho'
      rcases hd with hd | hd
      · rw [hd.1] at h2; cases h2
      · exact ⟨h1, hd.2.1⟩
    have hstore : s.store = A := by
      by_cases hq : ∀ j, s.threads j = none
      · exact hI.quiet hq
      · obtain ⟨j, hj⟩ := Classical.not_forall.1 hq
        obtain ⟨t, ht⟩ := Option.ne_none_iff_exists'.1 hj
        exact (hnp j t ht).2
    have hc1 := client_snoc hI.client (.ev (.inv i op)) i (.called op) (by simp [mapClientStep, hI.idle i hn])
      (fun j hj => by simp [mapClientStep, Ne.symm hj])
    have hl1 := lin_snoc hI.lin (.ev (.inv i op)) (B := A) rfl
    cases hp : op.isPut with
    | false =>
      refine ⟨e ++ [.ev (.inv i op)], A, setC c i (.called op), ?_, hl1, hc1, ?_, ?_, fun _ => hstore⟩
      · simp [List.filterMap_append, hI.hist, LEv.ev?]
      · intro j hj
        by_cases hji : j = i
        · subst hji; dsimp only at hj; rw [setM_self] at hj; cases hj
        · dsimp only at hj; rw [setM_ne _ _ hji] at hj; simp [setC, hji, hI.idle j hj]
      · intro j t ht
        by_cases hji : j = i
        · subst hji
          dsimp only at ht; rw [setM_self] at ht
          cases ht
          exact ⟨op, open_new h j op, .inr ⟨hp, hstore, .inr ⟨rfl, by simp [setC]⟩⟩⟩
        · dsimp only at ht; rw [setM_ne _ _ hji] at ht
          obtain ⟨op', ho', hd⟩ := hI.opened j t ht
          obtain ⟨-, h2⟩ := ha h i op [] j op' (by simp) ho'
          refine ⟨op', open_snoc ho' _ (by intro o ho; cases ho), .inr ?_⟩
          rcases hd with hd | hd
          · rw [hd.1] at h2; cases h2
          · refine ⟨hd.1, hstore, ?_⟩
            simpa [setC, hji] using hd.2.2
    | true =>
      have hall : ∀ j, s.threads j = none := by
        intro j
        cases ht : s.threads j with
        | none => rfl
        | some t => have := (hnp j t ht).1; rw [hp] at this; cases this
      have hc2 := client_snoc hc1 (.lin i op (op.mapSeq H A).1) i (.effective (op.mapSeq H A).1) (by simp [mapClientStep, setC])
        (fun j hj => by simp [mapClientStep, Ne.symm hj])
      have hl2 := lin_snoc hl1 (.lin i op (op.mapSeq H A).1) (B := (op.mapSeq H A).2) (by simp [mapLinStep])
      refine ⟨_, (op.mapSeq H A).2, _, ?_, hl2, hc2, ?_, ?_, ?_⟩
      · simp [List.filterMap_append, hI.hist, LEv.ev?]
      · intro j hj
        by_cases hji : j = i
        · subst hji; dsimp only at hj; rw [setM_self] at hj; cases hj
        · simp [setC, hji, hI.idle j (hall j)]
      · intro j t ht
        by_cases hji : j = i
        · subst hji
          dsimp only at ht; rw [setM_self] at ht
          cases ht
          refine ⟨op, open_new h j op, .inl ⟨hp, fun k hk => by dsimp only; rw [setM_ne _ _ hk]; exact hall k, (op.mapSeq H A).1, ?_, by simp [setC]⟩⟩
          show mrun (op.mapProg H) s.store = _
          rw [mrun_prog, hstore]
        · dsimp only at ht; rw [setM_ne _ _ hji, hall j] at ht; cases ht
      · intro hq
        have := hq i
        dsimp only at this; rw [setM_self] at this
        cases this
  | @begin h s i cl w f k _ ht ih =>
    obtain ⟨e, A, c, hI⟩ := ih ha
    refine ⟨e, A, c, hI.hist, hI.lin, hI.client, ?_, ?_, ?_⟩
    · intro j hj
      by_cases hji : j = i
      · subst hji; dsimp only at hj; rw [setM_self] at hj; cases hj
      · dsimp only at hj; rw [setM_ne _ _ hji] at hj; exact hI.idle j hj
    · intro j t ht'
      by_cases hji : j = i
      · subst hji
        dsimp only at ht'; rw [setM_self] at ht'
        cases ht'
        obtain ⟨op, ho, hd⟩ := hI.opened j _ ht
        refine ⟨op, ho, ?_⟩
        rcases hd with hd | hd
        · exact .inl ⟨hd.1, fun k' hk => by dsimp only; rw [setM_ne _ _ hk]; exact hd.2.1 k' hk, hd.2.2⟩
        · exact .inr hd
      · dsimp only at ht'; rw [setM_ne _ _ hji] at ht'
        obtain ⟨op, ho, hd⟩ := hI.opened j _ ht'
        refine ⟨op, ho, ?_⟩
        rcases hd with hd | hd
        · have := hd.2.1 i (Ne.symm hji); rw [ht] at this; cases this
        · exact .inr hd
    · intro hq
      have := hq i
      dsimp only at this; rw [setM_self] at this
      cases this
  | @done h s i cl w f k _ ht ih =>
    obtain ⟨e, A, c, hI⟩ := ih ha
    obtain ⟨op, ho, hd⟩ := hI.opened i _ ht
    rcases hd with ⟨hp, hal, o, hm, hce⟩ | ⟨hp, hst, hd⟩
    · refine ⟨e, A, c, hI.hist, hI.lin, hI.client, ?_, ?_, ?_⟩
      · intro j hj
        by_cases hji : j = i
        · subst hji; dsimp only at hj; rw [setM_self] at hj; cases hj
        · exact hI.idle j (hal j hji)
      · intro j t ht'
        by_cases hji : j = i
        · subst hji
          dsimp only at ht'; rw [setM_self] at ht'
          cases ht'
          exact ⟨op, ho, .inl ⟨hp, fun k' hk => by dsimp only; rw [setM_ne _ _ hk]; exact hal k' hk, o, hm, hce⟩⟩
        · dsimp only at ht'; rw [setM_ne _ _ hji, hal j hji] at ht'; cases ht'
      · intro hq
        have := hq i
        dsimp only at this; rw [setM_self] at this
        cases this
    · rcases hd with ⟨o, hd, -⟩ | ⟨hprog, hcc⟩
      · cases hd
      · have hf : f = id ∧ k s.store = .ret (op.mapSeq H A).1 ∧ (op.mapSeq H A).2 = A := by
          cases op with
          | put d => cases hp
          | get p => simp only [SOp.mapProg, MProg.acc.injEq] at hprog; obtain ⟨-, -, rfl, rfl⟩ := hprog; exact ⟨rfl, by rw [hst]; rfl, rfl⟩
          | has p => simp only [SOp.mapProg, MProg.acc.injEq] at hprog; obtain ⟨-, -, rfl, rfl⟩ := hprog; exact ⟨rfl, by rw [hst]; rfl, rfl⟩
        obtain ⟨rfl, hk, hA⟩ := hf
        have hc2 := client_snoc hI.client (.lin i op (op.mapSeq H A).1) i (.effective (op.mapSeq H A).1) (by simp [mapClientStep, hcc])
          (fun j hj => by simp [mapClientStep, Ne.symm hj])
        have hl2 := lin_snoc hI.lin (.lin i op (op.mapSeq H A).1) (B := A) (by simp [mapLinStep, hA])
        refine ⟨_, A, _, ?_, hl2, hc2, ?_, ?_, fun _ => hst⟩
        · simp [List.filterMap_append, hI.hist, LEv.ev?]
        · intro j hj
          by_cases hji : j = i
          · subst hji; dsimp only at hj; rw [setM_self] at hj; cases hj
          · dsimp only at hj; rw [setM_ne _ _ hji] at hj; simp [setC, hji, hI.idle j hj]
        · intro j t ht'
          by_cases hji : j = i
          · subst hji
            dsimp only at ht'; rw [setM_self] at ht'
            cases ht'
            exact ⟨op, ho, .inr ⟨hp, hst, .inl ⟨_, hk, by simp [setC]⟩⟩⟩
          · dsimp only at ht'; rw [setM_ne _ _ hji] at ht'
            obtain ⟨op', ho', hd'⟩ := hI.opened j _ ht'
            refine ⟨op', ho', ?_⟩
            rcases hd' with hd' | hd'
            · have := hd'.2.1 i (Ne.symm hji); rw [ht] at this; cases this
            · exact .inr ⟨hd'.1, hst, by simpa [setC, hji] using hd'.2.2⟩
  | @ret h s i o _ ht ih =>
    obtain ⟨e, A, c, hI⟩ := ih (alone_prefix ha)
    obtain ⟨op, ho, hd⟩ := hI.opened i _ ht
    have hce : c i = .effective o ∧ s.store = A := by
      rcases hd with ⟨hp, hal, o', hm, hce⟩ | ⟨hp, hst, hd⟩
      · simp only [mrun, Prod.mk.injEq] at hm
        rw [hm.1]; exact ⟨hce, hm.2⟩
      · rcases hd with ⟨o', hd, h2⟩ | ⟨hprog, -⟩
        · simp only [MProg.ret.injEq] at hd; rw [hd]; exact ⟨h2, hst⟩
        · cases op <;> simp [SOp.mapProg, SOp.isPut] at hprog hp
    have hc2 := client_snoc hI.client (.ev (.ret i o)) i .idle (by simp [mapClientStep, hce.1]) (fun j hj => by simp [mapClientStep, Ne.symm hj])
    refine ⟨_, A, _, ?_, lin_snoc hI.lin (.ev (.ret i o)) (B := A) rfl, hc2, ?_, ?_, fun _ => hce.2⟩
    · simp [List.filterMap_append, hI.hist, LEv.ev?]
    · intro j hj
      by_cases hji : j = i
      · subst hji; simp [setC]
      · dsimp only at hj; rw [setM_ne _ _ hji] at hj; simp [setC, hji, hI.idle j hj]
    · intro j t ht'
      by_cases hji : j = i
      · subst hji; dsimp only at ht'; rw [setM_self] at ht'; cases ht'
      · dsimp only at ht'; rw [setM_ne _ _ hji] at ht'
        obtain ⟨op', ho', hd'⟩ := hI.opened j _ ht'
        refine ⟨op', open_snoc ho' _ (by intro o' h'; cases h'; exact hji rfl), ?_⟩
        rcases hd' with hd' | hd'
        · have := hd'.2.1 i (Ne.symm hji); rw [ht] at this; cases this
        · exact .inr ⟨hd'.1, hd'.2.1, by simpa [setC, hji] using hd'.2.2⟩

/-- C147, if no `Put` overlaps another call: there is no data race, every call returns what it returns when the calls are executed one after the other, each at
a moment between its call and its return, and, when no call is under way, the store is the one after them. -/
theorem C147_alone (sha256 : Bytes → Bytes) {ι : Type} [DecidableEq ι] {h : List (Ev ι)} {s : MSys ι} (hr : MRun sha256 h s) (ha : PutsAlone h) :
    ¬ s.Race ∧ ∃ ms, MapLinearizable sha256 h ms ∧ ((∀ i, s.threads i = none) → s.store = ms) := by
  obtain ⟨e, A, c, hI⟩ := map_invariant sha256 hr ha
  refine ⟨?_, A, ⟨e, hI.hist, hI.lin, fun i => ⟨c i, hI.client i⟩⟩, hI.quiet⟩
  rintro ⟨i, j, cl, w, f, k, w', f', k', hij, hi, hj, hw⟩
  have nowrite : ∀ (op : SOp) c w f k, op.isPut = false → MProg.acc c w f k = op.mapProg sha256 → w = false := by
    intro op c w f k hp he
    cases op with
    | put d => cases hp
    | get p => simp only [SOp.mapProg, MProg.acc.injEq] at he; exact he.2.1
    | has p => simp only [SOp.mapProg, MProg.acc.injEq] at he; exact he.2.1
  have key : ∀ i j cl w f k x, i ≠ j → s.threads i = some ⟨.acc cl w f k, true⟩ → s.threads j = some x → w = false := by
    intro i j cl w f k x hij hi hj
    obtain ⟨op, -, hd⟩ := hI.opened i _ hi
    rcases hd with hd | ⟨hp, -, hd⟩
    · have := hd.2.1 j (Ne.symm hij); rw [hj] at this; cases this
    · rcases hd with ⟨o, hd, -⟩ | ⟨hd, -⟩
      · cases hd
      · exact nowrite op cl w f k hp hd
  have h1 := key i j cl w f k _ hij hi hj
  have h2 := key j i cl w' f' k' _ (Ne.symm hij) hj hi
  rcases hw with hw | hw
  · rw [h1] at hw; cases hw
  · rw [h2] at hw; cases hw

/-- A goroutine alone gets, by reading, from one point of its call to another. -/
inductive Reads (ms : MapStore) : MProg → MProg → Prop where
  | refl (p : MProg) : Reads ms p p
  | step (c : Cell) (k : MapStore → MProg) (q : MProg) : Reads ms (k ms) q → Reads ms (.acc c false id k) q

theorem reads_run (H : Bytes → Bytes) {ι : Type} [DecidableEq ι] (i : ι) {ms : MapStore} {p q : MProg} (hp : Reads ms p q) :
    ∀ {h : List (Ev ι)} {t : ι → Option MThread}, MRun H h ⟨ms, setMThread t i (some ⟨p, false⟩)⟩ → MRun H h ⟨ms, setMThread t i (some ⟨q, false⟩)⟩ := by
  have hset : ∀ (t : ι → Option MThread) x y, setMThread (setMThread t i x) i y = setMThread t i y := by
    intro t x y; funext j; by_cases h : j = i <;> simp [setMThread, h]
  induction hp with
  | refl p => intro h t hr; exact hr
  | step c k q _ ih =>
    intro h t hr
    have h1 := MRun.begin i c false id k hr (by simp [setMThread])
    have h2 := MRun.done i c false id k h1 (by simp [setMThread])
    simp only [hset, id] at h2
    exact ih h2

theorem reads_hasLoop {ms : MapStore} (k : MProg) (q : MProg) (hk : Reads ms k q) : ∀ l : List Bytes, checkInputs ms.has l = .ok () → Reads ms (mapHasLoop k l) q := by
  intro l
  induction l with
  | nil => intro _; exact hk
  | cons p l ih =>
    intro h
    simp only [checkInputs] at h
    refine .step _ _ _ ?_
    cases hp : ms.has p with
    | err e => rw [hp] at h; cases h
    | panic => rw [hp] at h; cases h
    | ok b =>
      cases b with
      | false => rw [hp] at h; cases h
      | true => rw [hp] at h; simpa using ih (by simpa using h)

/-- Every accepted `Put` comes to the point where it assigns to `drvs`. -/
theorem reads_put (H : Bytes → Bytes) {ms : MapStore} {d : Derivation} {p : Bytes} (hp : (MapStore.put H d ms).1 = .ok p) :
    ∃ f k, Reads ms ((SOp.put d).mapProg H) (.acc .drvs true f k) := by
  have hpp : ms.putPath H d = .ok p := by
    unfold MapStore.put at hp
    cases hq : ms.putPath H d with
    | err e => rw [hq] at hp; cases hp
    | panic => rw [hq] at hp; cases hp
    | ok q =>
      rw [hq] at hp
      cases hr : calculateDrvReplacement H d ms.drvReplacements with
      | err e => simp [hr] at hp
      | panic => simp [hr] at hp
      | ok r => simp [hr] at hp; rw [hp]
  unfold MapStore.putPath validateInStore at hpp
  cases hv : d.validate with
  | err e => rw [hv] at hpp; cases hpp
  | panic => rw [hv] at hpp; cases hpp
  | ok u =>
    cases u
    rw [hv] at hpp
    cases hc : checkInputs ms.has d.inputDerivations.keys with
    | err e => simp [Bind.bind, Res.bind, hc] at hpp
    | panic => simp [Bind.bind, Res.bind, hc] at hpp
    | ok u =>
      cases u
      cases ho : checkOutputPaths H d ms.drvReplacements with
      | err e => simp [Bind.bind, Res.bind, hc, ho] at hpp
      | panic => simp [Bind.bind, Res.bind, hc, ho] at hpp
      | ok u =>
        cases u
        simp only [Bind.bind, Res.bind, hc, ho] at hpp
        refine ⟨fun ms => ⟨ms.drvs.insert p d, ms.drvReplacements⟩, fun _ => mapPutReplacement H d p, ?_⟩
        simp only [SOp.mapProg, hv]
        refine reads_hasLoop _ _ (.step _ _ _ ?_) _ hc
        simp only [ho, hpp]
        exact .refl _

/-- An accepted call comes to a point where it accesses `drvs`. -/
theorem reads_any (H : Bytes → Bytes) {ms : MapStore} {op : SOp} (hop : ∀ d, op = .put d → ∃ p, (MapStore.put H d ms).1 = .ok p) :
    ∃ w f k, Reads ms (op.mapProg H) (.acc .drvs w f k) := by
  cases op with
  | get p => exact ⟨_, _, _, .refl _⟩
  | has p => exact ⟨_, _, _, .refl _⟩
  | put d => obtain ⟨p, hp⟩ := hop d rfl; obtain ⟨f, k, h⟩ := reads_put H hp; exact ⟨_, f, k, h⟩

/-- C147, otherwise: whenever a `Put` is made that would be accepted and another goroutine meanwhile calls any method (if it is `Put`, one that would be
accepted), a data race is possible. -/
theorem C147_race_partial (sha256 : Bytes → Bytes) {ι : Type} [DecidableEq ι] {h : List (Ev ι)} {s : MSys ι} (hr : MRun sha256 h s)
    (hq : ∀ i, s.threads i = none) {i j : ι} (hij : i ≠ j) {d : Derivation} {p : Bytes} (hput : (MapStore.put sha256 d s.store).1 = .ok p)
    (op : SOp) (hop : ∀ d', op = .put d' → ∃ p', (MapStore.put sha256 d' s.store).1 = .ok p') :
    ∃ s', MRun sha256 (h ++ [.inv i (.put d), .inv j op]) s' ∧ s'.Race := by
  obtain ⟨f, k, h1⟩ := reads_put sha256 hput
  obtain ⟨w, f', k', h2⟩ := reads_any sha256 hop
  have r1 := reads_run sha256 i h1 (MRun.inv i (.put d) hr (hq i))
  have r2 := MRun.begin i .drvs true f k r1 (by simp [setMThread])
  have r3 := MRun.inv j op r2 (by simp [setMThread, Ne.symm hij, hq j])
  have r4 := reads_run sha256 j h2 r3
  have r5 := MRun.begin j .drvs w f' k' r4 (by simp [setMThread])
  refine ⟨_, by simpa using r5, ?_⟩
  exact ⟨i, j, .drvs, true, f, k, w, f', k', hij, by simp [setMThread, hij], by simp [setMThread], .inl rfl⟩

/-- C147 as stated is false: two goroutines that put the same derivation into a new store race. -/
theorem C147_refuted_partial : ∃ (d : Derivation) (s : MSys Nat),
    MRun zeroHash [.inv 1 (.put d), .inv 2 (.put d)] s ∧ s.Race ∧ (MapStore.put zeroHash d newMapStore).1 = .ok (b!"/nix/store/" ++ dHash ++ b!"-a.drv") := by
  have hp : (MapStore.put zeroHash (fetchDrv b!"a") newMapStore).1 = .ok (b!"/nix/store/" ++ dHash ++ b!"-a.drv") := by decide +kernel
  obtain ⟨s, h1, h2⟩ := C147_race_partial zeroHash (ι := Nat) (.init) (fun _ => rfl) (show (1 : Nat) ≠ 2 by decide) hp (.put (fetchDrv b!"a"))
    (fun d' h => by cases h; exact ⟨_, hp⟩)
  exact ⟨_, s, h1, h2, hp⟩

theorem open_nil {ι : Type} (i : ι) (op : SOp) : ¬ Open ([] : List (Ev ι)) i op := by
  rintro ⟨h1, h2, h, -⟩
  simp at h

theorem open_inv {ι : Type} {h : List (Ev ι)} {i j : ι} {op op' : SOp} (ho : Open (h ++ [.inv i op]) j op') : (j = i ∧ op' = op) ∨ Open h j op' := by
  obtain ⟨h1, h2, he, hn⟩ := ho
  rcases List.eq_nil_or_concat h2 with rfl | ⟨h2', x, rfl⟩
  · have := List.append_inj' he rfl
    simp only [List.cons.injEq, Ev.inv.injEq] at this
    exact .inl ⟨this.2.1.1.symm, this.2.1.2.symm⟩
  · rw [List.concat_eq_append, ← List.cons_append, ← List.append_assoc] at he
    obtain ⟨h3, -⟩ := List.append_inj' he rfl
    refine .inr ⟨h1, h2', h3, fun o hm => hn o ?_⟩
    rw [List.concat_eq_append]
    exact List.mem_append_left _ hm

theorem open_ret {ι : Type} {h : List (Ev ι)} {i j : ι} {o : SOut} {op' : SOp} (ho : Open (h ++ [.ret i o]) j op') : j ≠ i ∧ Open h j op' := by
  obtain ⟨h1, h2, he, hn⟩ := ho
  rcases List.eq_nil_or_concat h2 with rfl | ⟨h2', x, rfl⟩
  · have := List.append_inj' he rfl
    simp at this
  · rw [List.concat_eq_append, ← List.cons_append, ← List.append_assoc] at he
    obtain ⟨h3, h4⟩ := List.append_inj' he rfl
    simp only [List.cons.injEq, and_true] at h4
    subst h4
    refine ⟨?_, h1, h2', h3, fun o hm => hn o ?_⟩
    · rintro rfl
      exact hn o (by simp)
    · rw [List.concat_eq_append]
      exact List.mem_append_left _ hm

theorem alone_nil {ι : Type} : PutsAlone ([] : List (Ev ι)) := by
  intro h1 i op h2 j op' h
  simp at h

theorem alone_inv {ι : Type} {h : List (Ev ι)} (ha : PutsAlone h) (i : ι) (op : SOp) (hn : ∀ j op', Open h j op' → op.isPut = false ∧ op'.isPut = false) :
    PutsAlone (h ++ [.inv i op]) := by
  intro h1 i' op1 h2 j op' he ho
  rcases List.eq_nil_or_concat h2 with rfl | ⟨h2', x, rfl⟩
  · obtain ⟨h3, h4⟩ := List.append_inj' he rfl
    simp only [List.cons.injEq, Ev.inv.injEq, and_true] at h4
    subst h3
    rw [← h4.2]
    exact hn j op' ho
  · rw [List.concat_eq_append, ← List.cons_append, ← List.append_assoc] at he
    obtain ⟨h3, -⟩ := List.append_inj' he rfl
    exact ha h1 i' op1 h2' j op' h3 ho

theorem alone_ret {ι : Type} {h : List (Ev ι)} (ha : PutsAlone h) (i : ι) (o : SOut) : PutsAlone (h ++ [.ret i o]) := by
  intro h1 i' op1 h2 j op' he ho
  rcases List.eq_nil_or_concat h2 with rfl | ⟨h2', x, rfl⟩
  · have := List.append_inj' he rfl
    simp at this
  · rw [List.concat_eq_append, ← List.cons_append, ← List.append_assoc] at he
    obtain ⟨h3, -⟩ := List.append_inj' he rfl
    exact ha h1 i' op1 h2' j op' h3 ho

theorem run_to_end (H : Bytes → Bytes) {ι : Type} [DecidableEq ι] (i : ι) : ∀ (p : MProg) {h : List (Ev ι)} {ms : MapStore} {t : ι → Option MThread},
    MRun H h ⟨ms, setMThread t i (some ⟨p, false⟩)⟩ → t i = none → MRun H (h ++ [.ret i (mrun p ms).1]) ⟨(mrun p ms).2, t⟩ := by
  have hset : ∀ (t : ι → Option MThread) x y, setMThread (setMThread t i x) i y = setMThread t i y := by
    intro t x y; funext j; by_cases h : j = i <;> simp [setMThread, h]
  intro p
  induction p with
  | ret o =>
    intro h ms t hr ht
    have := MRun.ret i o hr (by simp [setMThread])
    simp only [hset] at this
    have he : setMThread t i none = t := by funext j; by_cases h : j = i <;> simp [setMThread, h, ht]
    rw [he] at this
    exact this
  | acc c w f k ih =>
    intro h ms t hr ht
    have h1 := MRun.begin i c w f k hr (by simp [setMThread])
    have h2 := MRun.done i c w f k h1 (by simp [setMThread])
    simp only [hset] at h2
    exact ih ms h2 ht

theorem run_alone (H : Bytes → Bytes) {ι : Type} [DecidableEq ι] (i : ι) (op : SOp) {h : List (Ev ι)} {s : MSys ι} (hr : MRun H h s)
    (hn : ∀ j, s.threads j = none) : ∃ o s', MRun H (h ++ [.inv i op] ++ [.ret i o]) s' ∧ ∀ j, s'.threads j = none :=
  ⟨_, _, run_to_end H i _ (MRun.inv i op hr (hn i)) (hn i), hn⟩

/-- A `Put`, then a `Get` and a `Has` at the same time, both reading: the hypotheses of `C147_alone`. -/
example : ∃ (o : SOut) (s : MSys Nat), MRun zeroHash [.inv 1 (.put (fetchDrv b!"a")), .ret 1 o, .inv 1 (.get b!"x"), .inv 2 (.has b!"y")] s ∧
    PutsAlone [Ev.inv 1 (.put (fetchDrv b!"a")), .ret 1 o, .inv 1 (.get b!"x"), .inv 2 (.has b!"y")] ∧
    (∃ p q, s.threads 1 = some ⟨p, true⟩ ∧ s.threads 2 = some ⟨q, true⟩) := by
  obtain ⟨o, s, h1, hn⟩ := run_alone zeroHash (1 : Nat) (.put (fetchDrv b!"a")) .init (fun _ => rfl)
  have h2 := MRun.inv 1 (.get b!"x") h1 (hn 1)
  have h3 := MRun.begin 1 _ _ _ _ h2 rfl
  have h4 := MRun.inv 2 (.has b!"y") h3 (hn 2)
  have h5 := MRun.begin 2 _ _ _ _ h4 rfl
  refine ⟨o, _, by simpa using h5, ?_, _, _, rfl, rfl⟩
  have a1 := alone_inv (alone_nil (ι := Nat)) 1 (.put (fetchDrv b!"a")) (fun j op' h => (open_nil _ _ h).elim)
  have a2 := alone_ret a1 1 o
  have n2 : ∀ j op', ¬ Open ([] ++ [Ev.inv 1 (.put (fetchDrv b!"a"))] ++ [.ret 1 o]) j op' := by
    intro j op' h
    obtain ⟨hj, h⟩ := open_ret h
    rcases open_inv h with h | h
    · exact hj h.1
    · exact open_nil _ _ h
  have a3 := alone_inv a2 1 (.get b!"x") (fun j op' h => (n2 j op' h).elim)
  exact alone_inv a3 2 (.has b!"y") (fun j op' h => by
    rcases open_inv h with h | h
    · exact ⟨rfl, by rw [h.2]; rfl⟩
    · exact (n2 j op' h).elim)

end Verif.Props
