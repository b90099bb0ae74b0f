import Verif.Spec.Sqlite

/-!
# The store database (C78)

All histories start with the empty tables and run with foreign keys enforced, except in `C78_without_foreign_keys`.
-/

namespace Verif.Props
open Verif.Sqlite
open Nix

theorem nodup_map_inj {α β : Type} {f : α → β} {l : List α} (h : (l.map f).Nodup) {a b : α} (ha : a ∈ l) (hb : b ∈ l)
    (he : f a = f b) : a = b := by
  induction l with
  | nil => cases ha
  | cons x l ih =>
    rw [List.map_cons, List.nodup_cons] at h
    rcases List.mem_cons.1 ha with ha' | ha'
    · rcases List.mem_cons.1 hb with hb' | hb'
      · rw [ha', hb']
      · exact absurd (List.mem_map.2 ⟨b, hb', by rw [← he, ha']⟩) h.1
    · rcases List.mem_cons.1 hb with hb' | hb'
      · exact absurd (List.mem_map.2 ⟨a, ha', by rw [he, hb']⟩) h.1
      · exact ih h.2 ha' hb'

theorem nodup_filter_unique {α β : Type} [DecidableEq β] {f : α → β} {l : List α} (h : (l.map f).Nodup) {a : α} (ha : a ∈ l) :
    l.filter (fun x => decide (f x = f a)) = [a] := by
  induction l with
  | nil => cases ha
  | cons x l ih =>
    rw [List.map_cons, List.nodup_cons] at h
    rw [List.filter_cons]
    by_cases hx : f x = f a
    · have : x = a := by
        rcases List.mem_cons.1 ha with ha' | ha'
        · exact ha'.symm
        · exact absurd (List.mem_map.2 ⟨a, ha', hx.symm⟩) h.1
      subst this
      rw [if_pos (by simp)]
      have : l.filter (fun y => decide (f y = f x)) = [] := by
        rw [List.filter_eq_nil_iff]
        intro y hy hxy
        exact h.1 (List.mem_map.2 ⟨y, hy, by simpa using hxy⟩)
      rw [this]
    · rw [if_neg (by simpa using hx)]
      rcases List.mem_cons.1 ha with ha' | ha'
      · exact absurd (by rw [ha']) hx
      · exact ih h.2 ha'

/-- The invariant: integrity, and every id was given out. -/
structure NInv (db : DB) : Prop extends Integrity db where
  bound : ∀ r ∈ db.paths, 1 ≤ r.id ∧ r.id ≤ db.seq

theorem ninv_empty : NInv Nix.empty := by
  refine ⟨⟨?_, ?_, ?_, ?_, ?_, ?_⟩, ?_⟩ <;> simp [Nix.empty]

theorem nodup_insertOrReplace {R K : Type} [DecidableEq K] (key : R → K) (r : R) (t : List R) (h : (t.map key).Nodup) :
    ((insertOrReplace key r t).map key).Nodup := by
  unfold insertOrReplace
  rw [List.map_append, List.nodup_append]
  refine ⟨?_, by simp, ?_⟩
  · exact h.sublist ((List.filter_sublist).map key)
  · intro a ha b hb
    obtain ⟨x, hx, rfl⟩ := List.mem_map.1 ha
    have := (List.mem_filter.1 hx).2
    simp only [List.map_cons, List.map_nil, List.mem_singleton] at hb
    rw [hb]
    simpa using this

theorem mem_insertOrReplace {R K : Type} [DecidableEq K] (key : R → K) (r : R) (t : List R) (x : R) :
    x ∈ insertOrReplace key r t ↔ x = r ∨ (x ∈ t ∧ key x ≠ key r) := by
  unfold insertOrReplace
  simp only [List.mem_append, List.mem_filter, List.mem_singleton, decide_eq_true_eq]
  exact or_comm

theorem idKnown_iff (db : DB) (i : Int) : idKnown true db i = true ↔ ∃ r ∈ db.paths, r.id = i := by
  simp [idKnown]

theorem ninv_register {gap : Nat} {a : PathParams} {db : DB} (h : NInv db) : NInv (registerValidPath gap a db).2 := by
  unfold registerValidPath
  split
  · exact h
  · rename_i hn
    simp only [List.any_eq_true, decide_eq_true_eq, not_exists, not_and] at hn
    refine ⟨⟨?_, ?_, h.refs, ?_, h.outs, ?_⟩, ?_⟩
    · simp only [List.map_append, List.map_cons, List.map_nil]
      rw [List.nodup_append]
      refine ⟨h.paths, by simp, ?_⟩
      intro x hx y hy
      obtain ⟨r, hr, rfl⟩ := List.mem_map.1 hx
      rw [List.mem_singleton.1 hy]
      exact hn r hr
    · simp only [List.map_append, List.map_cons, List.map_nil]
      rw [List.nodup_append]
      refine ⟨h.ids, by simp, ?_⟩
      intro x hx y hy
      obtain ⟨r, hr, rfl⟩ := List.mem_map.1 hx
      rw [List.mem_singleton.1 hy]
      have := (h.bound r hr).2
      omega
    · intro e he
      obtain ⟨⟨r, hr, h1⟩, r', hr', h2⟩ := h.refEnds e he
      exact ⟨⟨r, List.mem_append_left _ hr, h1⟩, r', List.mem_append_left _ hr', h2⟩
    · intro o ho
      obtain ⟨r, hr, h1⟩ := h.outDrvs o ho
      exact ⟨r, List.mem_append_left _ hr, h1⟩
    · intro r hr
      rcases List.mem_append.1 hr with hr | hr
      · have := h.bound r hr
        simp only []
        omega
      · rw [List.mem_singleton.1 hr]
        simp only []
        omega

/-- The row after `UpdatePathInfo`. -/
def updRow (n : Option Int) (h : Bytes) (u : Option Int) (s c : Option Bytes) (p : Bytes) (r : PathRow) : PathRow :=
  if r.path = p then { r with narSize := n, hash := h, ultimate := u, sigs := s, ca := c } else r

theorem updRow_id (n h u s c p) (r : PathRow) : (updRow n h u s c p r).id = r.id := by unfold updRow; split <;> rfl
theorem updRow_path (n h u s c p) (r : PathRow) : (updRow n h u s c p r).path = r.path := by unfold updRow; split <;> rfl

theorem update_eq (n h u s c p) (db : DB) : updatePathInfo n h u s c p db = { db with paths := db.paths.map (updRow n h u s c p) } := rfl

theorem ninv_update {n h u s c p} {db : DB} (hi : NInv db) : NInv (updatePathInfo n h u s c p db) := by
  rw [update_eq]
  have hex : ∀ i : Int, (∃ r ∈ db.paths, r.id = i) → ∃ r ∈ db.paths.map (updRow n h u s c p), r.id = i := by
    rintro i ⟨r, hr, rfl⟩
    exact ⟨_, List.mem_map.2 ⟨r, hr, rfl⟩, updRow_id ..⟩
  refine ⟨⟨?_, ?_, hi.refs, ?_, hi.outs, ?_⟩, ?_⟩
  · have : (db.paths.map (updRow n h u s c p)).map (·.path) = db.paths.map (·.path) := by
      rw [List.map_map]; apply List.map_congr_left; intro r _; exact updRow_path ..
    simp only [this]; exact hi.paths
  · have : (db.paths.map (updRow n h u s c p)).map (·.id) = db.paths.map (·.id) := by
      rw [List.map_map]; apply List.map_congr_left; intro r _; exact updRow_id ..
    simp only [this]; exact hi.ids
  · intro e he
    exact ⟨hex _ (hi.refEnds e he).1, hex _ (hi.refEnds e he).2⟩
  · intro o ho
    exact hex _ (hi.outDrvs o ho)
  · intro r hr
    obtain ⟨x, hx, rfl⟩ := List.mem_map.1 hr
    rw [updRow_id]; exact hi.bound x hx

theorem ninv_addReference {a b : Int} {db : DB} (h : NInv db) : NInv (addReference true a b db).2 := by
  unfold addReference
  split
  · rename_i hk
    rw [Bool.and_eq_true, idKnown_iff, idKnown_iff] at hk
    refine ⟨⟨h.paths, h.ids, ?_, ?_, h.outs, h.outDrvs⟩, h.bound⟩
    · have := nodup_insertOrReplace id (a, b) db.refs (by rw [List.map_id]; exact h.refs)
      rw [List.map_id] at this; exact this
    · intro e he
      rcases (mem_insertOrReplace _ _ _ _).1 he with rfl | ⟨he, _⟩
      · exact hk
      · exact h.refEnds e he
  · exact h

theorem ninv_addOutput {d : Int} {i p : Bytes} {db : DB} (h : NInv db) : NInv (addDerivationOutput true d i p db).2 := by
  unfold addDerivationOutput
  split
  · rename_i hk
    rw [idKnown_iff] at hk
    refine ⟨⟨h.paths, h.ids, h.refs, h.refEnds, ?_, ?_⟩, h.bound⟩
    · exact nodup_insertOrReplace _ _ _ h.outs
    · intro o ho
      rcases (mem_insertOrReplace _ _ _ _).1 ho with rfl | ⟨ho, _⟩
      · exact hk
      · exact h.outDrvs o ho
  · exact h

/-- `InvalidatePath` of a registered path. -/
theorem invalidate_eq {p : Bytes} {db : DB} (hi : NInv db) {r : PathRow} (hr : r ∈ db.paths) (hp : r.path = p) :
    invalidatePath true p db =
      if ∃ e ∈ db.refs, e.2 = r.id ∧ e.1 ≠ r.id then (.err (.msg "FOREIGN KEY constraint failed"), db)
      else (.ok (), { db with
        paths := db.paths.filter fun x => x.path ≠ p
        refs := db.refs.filter fun e => e.1 ≠ r.id
        outs := db.outs.filter fun o => o.drv ≠ r.id }) := by
  unfold invalidatePath
  have hf : db.paths.find? (fun r => decide (r.path = p)) = some r := by
    cases hf : db.paths.find? (fun r => decide (r.path = p)) with
    | none =>
      have := List.find?_eq_none.1 hf r hr
      simp [hp] at this
    | some r' =>
      have h1 := List.find?_some hf
      have h2 := List.mem_of_find?_eq_some hf
      rw [nodup_map_inj hi.paths h2 hr (by rw [hp]; simpa using h1)]
  rw [hf]
  have hany : (true && (db.refs.filter fun e => !(decide (e.1 = r.id) && decide (e.2 = r.id))).any fun x => decide (x.2 = r.id)) = true ↔
      ∃ e ∈ db.refs, e.2 = r.id ∧ e.1 ≠ r.id := by
    simp only [Bool.true_and, List.any_eq_true, List.mem_filter, decide_eq_true_eq, Bool.not_eq_true', Bool.and_eq_false_iff,
      decide_eq_false_iff_not]
    constructor
    · rintro ⟨e, ⟨he, h1 | h1⟩, h2⟩
      · exact ⟨e, he, h2, h1⟩
      · exact absurd h2 h1
    · rintro ⟨e, he, h2, h1⟩
      exact ⟨e, ⟨he, .inl h1⟩, h2⟩
  simp only [hany]
  by_cases h : ∃ e ∈ db.refs, e.2 = r.id ∧ e.1 ≠ r.id
  · rw [if_pos h, if_pos h]
  · rw [if_neg h, if_neg h]
    have e1 : ((db.refs.filter fun e => !(decide (e.1 = r.id) && decide (e.2 = r.id))).filter fun x => decide (x.1 ≠ r.id)) =
        db.refs.filter fun e => decide (e.1 ≠ r.id) := by
      rw [List.filter_filter]
      apply List.filter_congr
      intro e _
      by_cases he : e.1 = r.id <;> simp [he]
    simp only [if_true, e1]

/-- `InvalidatePath` of a path that is not registered. -/
theorem invalidate_none {p : Bytes} {db : DB} (h : ∀ r ∈ db.paths, r.path ≠ p) : invalidatePath true p db = (.ok (), db) := by
  unfold invalidatePath
  have : db.paths.find? (fun r => decide (r.path = p)) = none := by
    rw [List.find?_eq_none]; intro r hr; simpa using h r hr
  rw [this]

theorem ninv_invalidate {p : Bytes} {db : DB} (h : NInv db) : NInv (invalidatePath true p db).2 := by
  by_cases hex : ∃ r ∈ db.paths, r.path = p
  · obtain ⟨r, hr, hp⟩ := hex
    rw [invalidate_eq h hr hp]
    split
    · exact h
    · rename_i hno
      have keep : ∀ i : Int, (∃ x ∈ db.paths, x.id = i) → i ≠ r.id →
          ∃ x ∈ db.paths.filter (fun x => decide (x.path ≠ p)), x.id = i := by
        rintro i ⟨x, hx, rfl⟩ hne
        refine ⟨x, List.mem_filter.2 ⟨hx, ?_⟩, rfl⟩
        rw [decide_eq_true_eq]
        intro hxp
        exact hne (by rw [nodup_map_inj h.paths hx hr (by rw [hxp, hp])])
      refine ⟨⟨?_, ?_, ?_, ?_, ?_, ?_⟩, ?_⟩
      · exact h.paths.sublist (List.filter_sublist.map _)
      · exact h.ids.sublist (List.filter_sublist.map _)
      · exact h.refs.sublist List.filter_sublist
      · intro e he
        obtain ⟨he, h1⟩ := List.mem_filter.1 he
        rw [decide_eq_true_eq] at h1
        refine ⟨keep _ (h.refEnds e he).1 h1, keep _ (h.refEnds e he).2 ?_⟩
        intro h2
        exact hno ⟨e, he, h2, h1⟩
      · exact h.outs.sublist (List.filter_sublist.map _)
      · intro o ho
        obtain ⟨ho, h1⟩ := List.mem_filter.1 ho
        rw [decide_eq_true_eq] at h1
        exact keep _ (h.outDrvs o ho) h1
      · intro x hx
        exact h.bound x (List.mem_filter.1 hx).1
  · rw [invalidate_none (by intro r hr hp; exact hex ⟨r, hr, hp⟩)]
    exact h

theorem ninv_step {db : DB} (h : NInv db) (o : Op) : NInv (step true db o).2 := by
  cases o with
  | register gap a => exact ninv_register h
  | update n hh u s c p => exact ninv_update h
  | addReference a b => exact ninv_addReference h
  | invalidate p => exact ninv_invalidate h
  | addOutput d i p => exact ninv_addOutput h

theorem ninv_run {db : DB} (h : NInv db) (ops : List Op) : NInv (run true db ops) := by
  induction ops generalizing db with
  | nil => exact h
  | cons o os ih => exact ih (ninv_step h o)

/-! ## What the queries return -/

/-- The columns `QueryPathInfo` returns. -/
def cols (r : PathRow) : Int × Bytes × Int × Option Bytes × Option Int × Option Int × Option Bytes × Option Bytes :=
  (r.id, r.hash, r.registrationTime, r.deriver, r.narSize, r.ultimate, r.sigs, r.ca)

theorem info_some {db : DB} (hi : NInv db) {r : PathRow} (hr : r ∈ db.paths) : queryPathInfo db r.path = some (cols r) := by
  unfold queryPathInfo
  rw [nodup_filter_unique (f := fun x : PathRow => x.path) hi.paths hr]
  rfl

theorem info_none {db : DB} {p : Bytes} : queryPathInfo db p = none ↔ ∀ r ∈ db.paths, r.path ≠ p := by
  unfold queryPathInfo
  rw [List.head?_eq_none_iff, List.map_eq_nil_iff, List.filter_eq_nil_iff]
  simp

theorem info_eq_some {db : DB} (hi : NInv db) {p : Bytes} {x} : queryPathInfo db p = some x ↔ ∃ r ∈ db.paths, r.path = p ∧ cols r = x := by
  constructor
  · intro h
    by_cases hex : ∃ r ∈ db.paths, r.path = p
    · obtain ⟨r, hr, rfl⟩ := hex
      rw [info_some hi hr] at h
      exact ⟨r, hr, rfl, Option.some.inj h⟩
    · rw [info_none.2 (fun r hr hp => hex ⟨r, hr, hp⟩)] at h
      cases h
  · rintro ⟨r, hr, rfl, rfl⟩
    exact info_some hi hr

theorem pathId_iff {db : DB} (hi : NInv db) {p : Bytes} {i : Int} : pathId db p = some i ↔ ∃ r ∈ db.paths, r.path = p ∧ r.id = i := by
  unfold pathId
  rw [Option.map_eq_some_iff]
  constructor
  · rintro ⟨x, hx, rfl⟩
    obtain ⟨r, hr, hp, rfl⟩ := (info_eq_some hi).1 hx
    exact ⟨r, hr, hp, rfl⟩
  · rintro ⟨r, hr, rfl, rfl⟩
    exact ⟨_, info_some hi hr, rfl⟩

theorem mem_queryReferences {db : DB} {c : Int} {p : Bytes} :
    p ∈ queryReferences db c ↔ ∃ r ∈ db.paths, r.path = p ∧ (c, r.id) ∈ db.refs := by
  unfold queryReferences
  simp only [List.mem_flatMap, List.mem_filter, List.mem_map, decide_eq_true_eq]
  constructor
  · rintro ⟨⟨e1, e2⟩, ⟨he, rfl⟩, r, ⟨hr, h2⟩, hp⟩
    exact ⟨r, hr, hp, by simpa [← h2] using he⟩
  · rintro ⟨r, hr, hp, he⟩
    exact ⟨(c, r.id), ⟨he, rfl⟩, r, ⟨hr, rfl⟩, hp⟩

theorem mem_queryReferrers {db : DB} (hi : NInv db) {q p : Bytes} :
    p ∈ queryReferrers db q ↔ ∃ t ∈ db.paths, t.path = q ∧ ∃ r ∈ db.paths, r.path = p ∧ (r.id, t.id) ∈ db.refs := by
  unfold queryReferrers
  by_cases hex : ∃ t ∈ db.paths, t.path = q
  · obtain ⟨t, ht, rfl⟩ := hex
    rw [nodup_filter_unique (f := fun x : PathRow => x.path) hi.paths ht]
    simp only [List.map_cons, List.map_nil, List.mem_flatMap, List.mem_filter, List.mem_map, decide_eq_true_eq]
    constructor
    · rintro ⟨⟨e1, e2⟩, ⟨he, rfl⟩, r, ⟨hr, h2⟩, hp⟩
      exact ⟨t, ht, rfl, r, hr, hp, by simpa [← h2] using he⟩
    · rintro ⟨t', ht', hq, r, hr, hp, he⟩
      have : t' = t := nodup_map_inj hi.paths ht' ht hq
      subst this
      exact ⟨(r.id, t'.id), ⟨he, rfl⟩, r, ⟨hr, rfl⟩, hp⟩
  · have : db.paths.filter (fun r => decide (r.path = q)) = [] := by
      rw [List.filter_eq_nil_iff]; intro r hr h; exact hex ⟨r, hr, by simpa using h⟩
    rw [this]
    simp only [List.map_nil, List.not_mem_nil, false_iff]
    rintro ⟨t, ht, hq, _⟩
    exact hex ⟨t, ht, hq⟩

theorem mem_queryOutputs {db : DB} {d : Int} {i p : Bytes} : (i, p) ∈ queryDerivationOutputs db d ↔ (⟨d, i, p⟩ : OutRow) ∈ db.outs := by
  unfold queryDerivationOutputs
  simp only [List.mem_map, List.mem_filter, decide_eq_true_eq, Prod.mk.injEq]
  constructor
  · rintro ⟨⟨od, oi, op⟩, ⟨ho, rfl⟩, rfl, rfl⟩
    exact ho
  · intro ho
    exact ⟨_, ⟨ho, rfl⟩, rfl, rfl⟩

theorem nodup_flatMap_single {α β : Type} {l : List α} {f : α → List β} (hl : l.Nodup) (h1 : ∀ a ∈ l, (f a).Nodup)
    (h2 : ∀ a ∈ l, ∀ b ∈ l, ∀ x, x ∈ f a → x ∈ f b → a = b) : (l.flatMap f).Nodup := by
  induction l with
  | nil => simp
  | cons a l ih =>
    rw [List.nodup_cons] at hl
    rw [List.flatMap_cons, List.nodup_append]
    refine ⟨h1 a (by simp), ih hl.2 (fun b hb => h1 b (by simp [hb])) (fun b hb c hc => h2 b (by simp [hb]) c (by simp [hc])), ?_⟩
    intro x hx y hy hxy
    subst hxy
    obtain ⟨b, hb, hxb⟩ := List.mem_flatMap.1 hy
    have := h2 a (by simp) b (by simp [hb]) x hx hxb
    subst this
    exact hl.1 hb

/-! ## The theorems -/

/-- C78: after any history, paths and ids are unique, references and derivation outputs belong to registered paths. -/
theorem C78_integrity (ops : List Op) : Integrity (run true Nix.empty ops) := (ninv_run ninv_empty ops).toIntegrity

/-- C78: no id is ever used for two paths, even after the first was invalidated. -/
theorem C78_ids (ops more : List Op) (p q : Bytes) (i : Int)
    (h1 : pathId (run true Nix.empty ops) p = some i) (h2 : pathId (run true Nix.empty (ops ++ more)) q = some i) : p = q := by
  have hrun : run true Nix.empty (ops ++ more) = run true (run true Nix.empty ops) more := by
    clear h1 h2
    generalize Nix.empty = db
    induction ops generalizing db with
    | nil => rfl
    | cons o os ih => exact ih _
  rw [hrun] at h2
  have key : ∀ (more : List Op) (db : DB), NInv db → i ≤ db.seq → (∀ r ∈ db.paths, r.id = i → r.path = p) →
      ∀ r ∈ (run true db more).paths, r.id = i → r.path = p := by
    intro more
    induction more with
    | nil => intro db _ _ h; exact h
    | cons o os ih =>
      intro db hi hle h
      refine ih _ (ninv_step hi o) ?_ ?_
      · cases o with
        | register gap a => simp only [step, registerValidPath]; split <;> simp only [] <;> omega
        | update n hh u s c p => exact hle
        | addReference a b => simp only [step, addReference]; split <;> exact hle
        | invalidate p => 
          simp only [step, invalidatePath]
          split
          · exact hle
          · split <;> exact hle
        | addOutput d i p => simp only [step, addDerivationOutput]; split <;> exact hle
      · cases o with
        | register gap a =>
          simp only [step, registerValidPath]
          split
          · exact h
          · intro r hr
            rcases List.mem_append.1 hr with hr | hr
            · exact h r hr
            · rw [List.mem_singleton.1 hr]
              intro he
              simp only [] at he
              omega
        | update n hh u s c p' =>
          intro r hr
          obtain ⟨x, hx, rfl⟩ := List.mem_map.1 hr
          have e1 := updRow_id n hh u s c p' x
          have e2 := updRow_path n hh u s c p' x
          unfold updRow at e1 e2
          rw [e1, e2]
          exact h x hx
        | addReference a b => simp only [step, addReference]; split <;> exact h
        | invalidate p' =>
          intro r hr
          refine h r ?_
          simp only [step, invalidatePath] at hr
          split at hr
          · exact hr
          · split at hr
            · exact hr
            · exact (List.mem_filter.1 hr).1
        | addOutput d i p => simp only [step, addDerivationOutput]; split <;> exact h
  have hi := ninv_run ninv_empty ops
  obtain ⟨r, hr, rfl, rfl⟩ := (pathId_iff hi).1 h1
  obtain ⟨r', hr', rfl, he⟩ := (pathId_iff (ninv_run hi more)).1 h2
  refine (key more _ hi (hi.bound r hr).2 ?_ r' hr' he).symm
  intro x hx hxe
  rw [nodup_map_inj hi.ids hx hr hxe]

/-- C78: `QueryReferrers` and `QueryReferences` are the two directions of one relation between registered paths, and list every
path once. -/
theorem C78_references (ops : List Op) (p q : Bytes) :
    (p ∈ queryReferrers (run true Nix.empty ops) q ↔
      ∃ i, pathId (run true Nix.empty ops) p = some i ∧ q ∈ queryReferences (run true Nix.empty ops) i) ∧
    (∀ i, q ∈ queryReferences (run true Nix.empty ops) i →
      (∃ j, pathId (run true Nix.empty ops) q = some j) ∧ ∃ r, pathId (run true Nix.empty ops) r = some i) ∧
    (queryReferrers (run true Nix.empty ops) q).Nodup ∧ ∀ i, (queryReferences (run true Nix.empty ops) i).Nodup := by
  have hi := ninv_run ninv_empty ops
  generalize run true Nix.empty ops = db at hi
  have hone : ∀ (i : Int) (g : PathRow → Bool), ((db.paths.filter fun r => decide (i = r.id)).map (·.path)).Nodup := by
    intro i g
    exact hi.paths.sublist (List.filter_sublist.map _)
  have hun : ∀ (i j : Int) (x : Bytes), x ∈ (db.paths.filter fun r => decide (i = r.id)).map (·.path) →
      x ∈ (db.paths.filter fun r => decide (j = r.id)).map (·.path) → i = j := by
    intro i j x h1 h2
    obtain ⟨a, ha, rfl⟩ := List.mem_map.1 h1
    obtain ⟨b, hb, he⟩ := List.mem_map.1 h2
    obtain ⟨ha, h3⟩ := List.mem_filter.1 ha
    obtain ⟨hb, h4⟩ := List.mem_filter.1 hb
    have := nodup_map_inj hi.paths hb ha he
    subst this
    simp only [decide_eq_true_eq] at h3 h4
    rw [h3, h4]
  refine ⟨?_, ?_, ?_, ?_⟩
  · rw [mem_queryReferrers hi]
    constructor
    · rintro ⟨t, ht, rfl, r, hr, rfl, he⟩
      exact ⟨r.id, (pathId_iff hi).2 ⟨r, hr, rfl, rfl⟩, mem_queryReferences.2 ⟨t, ht, rfl, he⟩⟩
    · rintro ⟨i, h1, h2⟩
      obtain ⟨r, hr, rfl, rfl⟩ := (pathId_iff hi).1 h1
      obtain ⟨t, ht, rfl, he⟩ := mem_queryReferences.1 h2
      exact ⟨t, ht, rfl, r, hr, rfl, he⟩
  · intro i h
    obtain ⟨t, ht, rfl, he⟩ := mem_queryReferences.1 h
    obtain ⟨⟨r, hr, h1⟩, _⟩ := hi.refEnds _ he
    exact ⟨⟨t.id, (pathId_iff hi).2 ⟨t, ht, rfl, rfl⟩⟩, r.path, (pathId_iff hi).2 ⟨r, hr, rfl, h1⟩⟩
  · unfold queryReferrers
    split
    · simp
    · refine nodup_flatMap_single (hi.refs.sublist List.filter_sublist) (fun a _ => hone _ (fun _ => true)) ?_
      intro a ha b hb x hxa hxb
      have h1 := (List.mem_filter.1 ha).2
      have h2 := (List.mem_filter.1 hb).2
      simp only [decide_eq_true_eq] at h1 h2
      exact Prod.ext (hun _ _ x hxa hxb) (by rw [h1, h2])
  · intro i
    unfold queryReferences
    refine nodup_flatMap_single (hi.refs.sublist List.filter_sublist) (fun a _ => hone _ (fun _ => true)) ?_
    intro a ha b hb x hxa hxb
    have h1 := (List.mem_filter.1 ha).2
    have h2 := (List.mem_filter.1 hb).2
    simp only [decide_eq_true_eq] at h1 h2
    exact Prod.ext (by rw [h1, h2]) (hun _ _ x hxa hxb)

/-- C78: `RegisterValidPath` succeeds exactly for a path that is not registered; then `QueryPathInfo` returns its arguments with an id
that no path has, and nothing refers to it or is referred to by it. Everything else stays as it was; so does everything if it
fails. -/
theorem C78_register (ops : List Op) (gap : Nat) (a : PathParams) :
    let db := run true Nix.empty ops
    let db' := (registerValidPath gap a db).2
    ((registerValidPath gap a db).1 = .ok () ↔ queryPathInfo db a.path = none) ∧
    ((registerValidPath gap a db).1 ≠ .ok () → db' = db) ∧
    ((registerValidPath gap a db).1 = .ok () →
      (∃ i, queryPathInfo db' a.path = some (i, a.hash, a.registrationTime, a.deriver, a.narSize, a.ultimate, a.sigs, a.ca) ∧
        (∀ q, pathId db q ≠ some i) ∧ queryReferences db' i = [] ∧ queryDerivationOutputs db' i = []) ∧
      queryReferrers db' a.path = [] ∧
      (∀ q, q ≠ a.path → queryPathInfo db' q = queryPathInfo db q) ∧
      (∀ i q, q ∈ queryReferences db' i ↔ q ∈ queryReferences db i) ∧
      (∀ i x, x ∈ queryDerivationOutputs db' i ↔ x ∈ queryDerivationOutputs db i)) := by
  intro db db'
  have hi : NInv db := ninv_run ninv_empty ops
  have hi' : NInv db' := ninv_register hi
  by_cases hex : queryPathInfo db a.path = none
  · have hno := info_none.1 hex
    have e : registerValidPath gap a db = (.ok (), { db with
        seq := db.seq + gap + 1
        paths := db.paths ++ [⟨((db.seq + gap + 1 : Nat) : Int), a.path, a.hash, a.registrationTime, a.deriver, a.narSize, a.ultimate, a.sigs, a.ca⟩] }) := by
      unfold registerValidPath
      rw [if_neg]
      simp only [List.any_eq_true, decide_eq_true_eq, not_exists, not_and]
      exact hno
    have e' : db' = { db with
        seq := db.seq + gap + 1
        paths := db.paths ++ [⟨((db.seq + gap + 1 : Nat) : Int), a.path, a.hash, a.registrationTime, a.deriver, a.narSize, a.ultimate, a.sigs, a.ca⟩] } := by
      show (registerValidPath gap a db).2 = _
      rw [e]
    have hfresh : ∀ r ∈ db.paths, r.id ≠ ((db.seq + gap + 1 : Nat) : Int) := by
      intro r hr
      have := (hi.bound r hr).2
      omega
    refine ⟨⟨fun _ => hex, fun _ => by rw [e]⟩, fun h => absurd (by rw [e]) h, fun _ => ?_⟩
    have hnew : (⟨((db.seq + gap + 1 : Nat) : Int), a.path, a.hash, a.registrationTime, a.deriver, a.narSize, a.ultimate, a.sigs, a.ca⟩ : PathRow) ∈ db'.paths := by
      rw [e']; simp
    have hrefs : db'.refs = db.refs := by rw [e']
    have houts : db'.outs = db.outs := by rw [e']
    have hold : ∀ r ∈ db.paths, r ∈ db'.paths := by intro r hr; rw [e']; exact List.mem_append_left _ hr
    have hcase : ∀ r ∈ db'.paths, r ∈ db.paths ∨ r = ⟨((db.seq + gap + 1 : Nat) : Int), a.path, a.hash, a.registrationTime, a.deriver, a.narSize, a.ultimate, a.sigs, a.ca⟩ := by
      intro r hr
      rw [e'] at hr
      rcases List.mem_append.1 hr with hr | hr
      · exact .inl hr
      · exact .inr (List.mem_singleton.1 hr)
    refine ⟨⟨((db.seq + gap + 1 : Nat) : Int), ?_, ?_, ?_, ?_⟩, ?_, ?_, ?_, ?_⟩
    · exact info_some hi' hnew
    · intro q hq
      obtain ⟨r, hr, _, h2⟩ := (pathId_iff hi).1 hq
      exact hfresh r hr h2
    · rw [List.eq_nil_iff_forall_not_mem]
      intro q hq
      obtain ⟨r, _, _, he⟩ := mem_queryReferences.1 hq
      rw [hrefs] at he
      obtain ⟨⟨r', hr', h1⟩, _⟩ := hi.refEnds _ he
      exact hfresh r' hr' h1
    · rw [List.eq_nil_iff_forall_not_mem]
      rintro ⟨x, y⟩ hq
      have he := mem_queryOutputs.1 hq
      rw [houts] at he
      obtain ⟨r', hr', h1⟩ := hi.outDrvs _ he
      exact hfresh r' hr' h1
    · rw [List.eq_nil_iff_forall_not_mem]
      intro q hq
      obtain ⟨t, ht, htp, r, _, _, he⟩ := (mem_queryReferrers hi').1 hq
      have : t = _ := nodup_map_inj hi'.paths ht hnew htp
      rw [hrefs] at he
      obtain ⟨_, r', hr', h1⟩ := hi.refEnds _ he
      rw [this] at h1
      exact hfresh r' hr' h1
    · intro q hq
      by_cases hex2 : ∃ r ∈ db.paths, r.path = q
      · obtain ⟨r, hr, rfl⟩ := hex2
        rw [info_some hi hr, info_some hi' (hold r hr)]
      · rw [info_none.2 (fun r hr h => hex2 ⟨r, hr, h⟩), info_none.2]
        intro r hr h
        rcases hcase r hr with hr | rfl
        · exact hex2 ⟨r, hr, h⟩
        · exact hq h.symm
    · intro i q
      rw [mem_queryReferences, mem_queryReferences, hrefs]
      constructor
      · rintro ⟨r, hr, hp, he⟩
        rcases hcase r hr with hr | rfl
        · exact ⟨r, hr, hp, he⟩
        · obtain ⟨_, r', hr', h1⟩ := hi.refEnds _ he
          exact absurd h1 (hfresh r' hr')
      · rintro ⟨r, hr, hp, he⟩
        exact ⟨r, hold r hr, hp, he⟩
    · rintro i ⟨x, y⟩
      rw [mem_queryOutputs, mem_queryOutputs, houts]
  · have e : registerValidPath gap a db = (.err (.msg "UNIQUE constraint failed: ValidPaths.path"), db) := by
      unfold registerValidPath
      rw [if_pos]
      rw [info_none] at hex
      simp only [List.any_eq_true, decide_eq_true_eq]
      by_cases h : ∃ x ∈ db.paths, x.path = a.path
      · exact h
      · exact absurd (fun r hr hp => h ⟨r, hr, hp⟩) hex
    refine ⟨⟨fun h => ?_, fun h => absurd h hex⟩, fun _ => ?_, fun h => ?_⟩
    · rw [e] at h; cases h
    · show (registerValidPath gap a db).2 = db; rw [e]
    · rw [e] at h; cases h

/-- C78: `AddReference` succeeds exactly if both ids belong to registered paths; then the reference is there in addition to
what was. If it fails nothing changes. -/
theorem C78_addReference (ops : List Op) (a b : Int) :
    let db := run true Nix.empty ops
    let db' := (addReference true a b db).2
    ((addReference true a b db).1 = .ok () ↔ (∃ p, pathId db p = some a) ∧ ∃ q, pathId db q = some b) ∧
    ((addReference true a b db).1 ≠ .ok () → db' = db) ∧
    ((addReference true a b db).1 = .ok () →
      (∀ i q, q ∈ queryReferences db' i ↔ q ∈ queryReferences db i ∨ (i = a ∧ pathId db q = some b)) ∧
      (∀ q, queryPathInfo db' q = queryPathInfo db q) ∧
      (∀ i, queryDerivationOutputs db' i = queryDerivationOutputs db i)) := by
  intro db db'
  have hi : NInv db := ninv_run ninv_empty ops
  have hk : ∀ i, (∃ p, pathId db p = some i) ↔ idKnown true db i = true := by
    intro i
    rw [idKnown_iff]
    constructor
    · rintro ⟨p, hp⟩
      obtain ⟨r, hr, _, h⟩ := (pathId_iff hi).1 hp
      exact ⟨r, hr, h⟩
    · rintro ⟨r, hr, h⟩
      exact ⟨r.path, (pathId_iff hi).2 ⟨r, hr, rfl, h⟩⟩
  rw [hk, hk]
  show _ ∧ (_ → (addReference true a b db).2 = db) ∧ _
  by_cases h : idKnown true db a = true ∧ idKnown true db b = true
  · have e : addReference true a b db = (.ok (), { db with refs := insertOrReplace id (a, b) db.refs }) := by
      unfold addReference; rw [if_pos (by rw [Bool.and_eq_true]; exact h)]
    have e' : db' = { db with refs := insertOrReplace id (a, b) db.refs } := by
      show (addReference true a b db).2 = _; rw [e]
    refine ⟨⟨fun _ => h, fun _ => by rw [e]⟩, fun hne => absurd (by rw [e]) hne, fun _ => ⟨?_, ?_, ?_⟩⟩
    · intro i q
      rw [mem_queryReferences, mem_queryReferences, pathId_iff hi, e']
      simp only [mem_insertOrReplace, id, Prod.mk.injEq]
      constructor
      · rintro ⟨r, hr, hp, ⟨h1, h2⟩ | ⟨he, _⟩⟩
        · exact .inr ⟨h1, r, hr, hp, h2⟩
        · exact .inl ⟨r, hr, hp, he⟩
      · rintro (⟨r, hr, hp, he⟩ | ⟨rfl, r, hr, hp, rfl⟩)
        · refine ⟨r, hr, hp, ?_⟩
          by_cases heq : i = a ∧ r.id = b
          · exact .inl heq
          · exact .inr ⟨he, by simpa using heq⟩
        · exact ⟨r, hr, hp, .inl ⟨rfl, rfl⟩⟩
    · intro q; rw [e']; rfl
    · intro i; rw [e']; rfl
  · have e : addReference true a b db = (.err (.msg "FOREIGN KEY constraint failed"), db) := by
      unfold addReference; rw [if_neg (by rw [Bool.and_eq_true]; exact h)]
    refine ⟨⟨fun h' => ?_, fun h' => absurd h' h⟩, fun _ => by rw [e], fun h' => ?_⟩
    · rw [e] at h'; cases h'
    · rw [e] at h'; cases h'

/-- C78: `InvalidatePath` fails exactly if another path refers to it, and changes nothing then. Otherwise the path, its references and its
outputs are gone and everything else is as it was. -/
theorem C78_invalidate (ops : List Op) (p : Bytes) :
    let db := run true Nix.empty ops
    let db' := (invalidatePath true p db).2
    ((invalidatePath true p db).1 = .ok () ↔ ∀ q, q ∈ queryReferrers db p → q = p) ∧
    ((invalidatePath true p db).1 ≠ .ok () → db' = db) ∧
    ((invalidatePath true p db).1 = .ok () →
      queryPathInfo db' p = none ∧ queryReferrers db' p = [] ∧
      (∀ q, q ≠ p → queryPathInfo db' q = queryPathInfo db q) ∧
      (∀ i, pathId db p = some i → queryReferences db' i = [] ∧ queryDerivationOutputs db' i = []) ∧
      (∀ i, pathId db p ≠ some i → (∀ q, q ∈ queryReferences db' i ↔ q ∈ queryReferences db i) ∧
        ∀ x, x ∈ queryDerivationOutputs db' i ↔ x ∈ queryDerivationOutputs db i)) := by
  intro db db'
  have hi : NInv db := ninv_run ninv_empty ops
  have hi' : NInv db' := ninv_invalidate hi
  by_cases hex : ∃ r ∈ db.paths, r.path = p
  · obtain ⟨r, hr, rfl⟩ := hex
    have e := invalidate_eq hi hr rfl
    have hpid : pathId db r.path = some r.id := (pathId_iff hi).2 ⟨r, hr, rfl, rfl⟩
    have hiff : (∀ q, q ∈ queryReferrers db r.path → q = r.path) ↔ ¬ ∃ e ∈ db.refs, e.2 = r.id ∧ e.1 ≠ r.id := by
      constructor
      · rintro h ⟨⟨e1, e2⟩, he, h2, h1⟩
        obtain ⟨⟨x, hx, hx1⟩, _⟩ := hi.refEnds _ he
        have := h x.path ((mem_queryReferrers hi).2 ⟨r, hr, rfl, x, hx, rfl, by rw [hx1, ← h2]; exact he⟩)
        exact h1 (by rw [← nodup_map_inj hi.paths hx hr this]; exact hx1.symm)
      · intro h q hq
        obtain ⟨t, ht, htp, x, hx, rfl, he⟩ := (mem_queryReferrers hi).1 hq
        have : t = r := nodup_map_inj hi.paths ht hr htp
        subst this
        by_cases hxe : x.id = t.id
        · rw [nodup_map_inj hi.ids hx ht hxe]
        · exact absurd ⟨_, he, rfl, hxe⟩ h
    by_cases hb : ∃ e ∈ db.refs, e.2 = r.id ∧ e.1 ≠ r.id
    · rw [if_pos hb] at e
      refine ⟨⟨fun h => ?_, fun h => absurd hb (hiff.1 h)⟩, fun _ => ?_, fun h => ?_⟩
      · rw [e] at h; cases h
      · show (invalidatePath true r.path db).2 = db; rw [e]
      · rw [e] at h; cases h
    · rw [if_neg hb] at e
      have hdel : db' = { db with
          paths := db.paths.filter fun x => x.path ≠ r.path
          refs := db.refs.filter fun e => e.1 ≠ r.id
          outs := db.outs.filter fun o => o.drv ≠ r.id } := by
        show (invalidatePath true r.path db).2 = _; rw [e]
      have hmem : ∀ x, x ∈ db'.paths ↔ x ∈ db.paths ∧ x.path ≠ r.path := by
        intro x; rw [hdel]; simp [List.mem_filter]
      have hmref : ∀ x, x ∈ db'.refs ↔ x ∈ db.refs ∧ x.1 ≠ r.id := by
        intro x; rw [hdel]; simp [List.mem_filter]
      have hmout : ∀ x, x ∈ db'.outs ↔ x ∈ db.outs ∧ x.drv ≠ r.id := by
        intro x; rw [hdel]; simp [List.mem_filter]
      refine ⟨⟨fun _ => hiff.2 hb, fun _ => by rw [e]⟩, fun h => absurd (by rw [e]) h, fun _ => ⟨?_, ?_, ?_, ?_, ?_⟩⟩
      · rw [info_none]; intro x hx; exact ((hmem x).1 hx).2
      · rw [List.eq_nil_iff_forall_not_mem]
        intro q hq
        obtain ⟨t, ht, htp, _⟩ := (mem_queryReferrers hi').1 hq
        exact ((hmem t).1 ht).2 htp
      · intro q hq
        by_cases hex2 : ∃ x ∈ db.paths, x.path = q
        · obtain ⟨x, hx, rfl⟩ := hex2
          rw [info_some hi hx, info_some hi' ((hmem x).2 ⟨hx, hq⟩)]
        · rw [info_none.2 (fun x hx h => hex2 ⟨x, hx, h⟩), info_none.2]
          intro x hx h
          exact hex2 ⟨x, ((hmem x).1 hx).1, h⟩
      · intro i h
        rw [hpid] at h
        cases h
        constructor
        · rw [List.eq_nil_iff_forall_not_mem]
          intro q hq
          obtain ⟨x, _, _, he⟩ := mem_queryReferences.1 hq
          exact ((hmref _).1 he).2 rfl
        · rw [List.eq_nil_iff_forall_not_mem]
          rintro ⟨x, y⟩ hq
          exact ((hmout _).1 (mem_queryOutputs.1 hq)).2 rfl
      · intro i h
        have hne : i ≠ r.id := fun h' => h (by rw [hpid, h'])
        constructor
        · intro q
          rw [mem_queryReferences, mem_queryReferences]
          constructor
          · rintro ⟨x, hx, hp, he⟩
            exact ⟨x, ((hmem x).1 hx).1, hp, ((hmref _).1 he).1⟩
          · rintro ⟨x, hx, hp, he⟩
            refine ⟨x, (hmem x).2 ⟨hx, ?_⟩, hp, (hmref _).2 ⟨he, hne⟩⟩
            intro hxp
            have := nodup_map_inj hi.paths hx hr hxp
            subst this
            exact hb ⟨_, he, rfl, hne⟩
        · rintro ⟨x, y⟩
          rw [mem_queryOutputs, mem_queryOutputs, hmout]
          exact ⟨fun h => h.1, fun h => ⟨h, hne⟩⟩
  · have hno : ∀ r ∈ db.paths, r.path ≠ p := fun r hr h => hex ⟨r, hr, h⟩
    have e := invalidate_none hno
    have e' : db' = db := by show (invalidatePath true p db).2 = db; rw [e]
    have hempty : ∀ q, q ∉ queryReferrers db p := by
      intro q hq
      obtain ⟨t, ht, htp, _⟩ := (mem_queryReferrers hi).1 hq
      exact hno t ht htp
    have hpid : pathId db p = none := by unfold pathId; rw [info_none.2 hno]; rfl
    refine ⟨⟨fun _ q hq => absurd hq (hempty q), fun _ => by rw [e]⟩, fun _ => e', fun _ => ⟨?_, ?_, ?_, ?_, ?_⟩⟩
    · rw [e']; exact info_none.2 hno
    · rw [e', List.eq_nil_iff_forall_not_mem]; exact hempty
    · intro q _; rw [e']
    · intro i h; rw [hpid] at h; cases h
    · intro i _; rw [e']; exact ⟨fun _ => Iff.rfl, fun _ => Iff.rfl⟩

/-- C78: `UpdatePathInfo` sets size, hash, ultimate, signatures and ca of that path if it is registered, keeps its id, registration time and
deriver, and changes nothing else. -/
theorem C78_update (ops : List Op) (n : Option Int) (h : Bytes) (u : Option Int) (s c : Option Bytes) (p : Bytes) :
    let db := run true Nix.empty ops
    let db' := updatePathInfo n h u s c p db
    queryPathInfo db' p = (queryPathInfo db p).map (fun x => (x.1, h, x.2.2.1, x.2.2.2.1, n, u, s, c)) ∧
    (∀ q, q ≠ p → queryPathInfo db' q = queryPathInfo db q) ∧
    (∀ i q, q ∈ queryReferences db' i ↔ q ∈ queryReferences db i) ∧
    (∀ i, queryDerivationOutputs db' i = queryDerivationOutputs db i) := by
  intro db db'
  have hi : NInv db := ninv_run ninv_empty ops
  have hi' : NInv db' := ninv_update hi
  have hnone : ∀ q, (∀ r ∈ db.paths, r.path ≠ q) → queryPathInfo db' q = none := by
    intro q hq
    rw [info_none]
    intro r hr
    obtain ⟨x, hx, rfl⟩ := List.mem_map.1 hr
    have := updRow_path n h u s c p x
    unfold updRow at this
    rw [this]
    exact hq x hx
  have hsome : ∀ r ∈ db.paths, queryPathInfo db' r.path = some (cols (updRow n h u s c p r)) := by
    intro r hr
    have := info_some hi' (r := updRow n h u s c p r) (List.mem_map.2 ⟨r, hr, rfl⟩)
    rwa [updRow_path] at this
  refine ⟨?_, ?_, ?_, fun _ => rfl⟩
  · by_cases hex : ∃ r ∈ db.paths, r.path = p
    · obtain ⟨r, hr, rfl⟩ := hex
      rw [hsome r hr, info_some hi hr]
      simp [updRow, cols]
    · have hno : ∀ r ∈ db.paths, r.path ≠ p := fun r hr h => hex ⟨r, hr, h⟩
      rw [hnone p hno, info_none.2 hno]; rfl
  · intro q hq
    by_cases hex : ∃ r ∈ db.paths, r.path = q
    · obtain ⟨r, hr, rfl⟩ := hex
      rw [hsome r hr, info_some hi hr]
      simp [updRow, hq]
    · have hno : ∀ r ∈ db.paths, r.path ≠ q := fun r hr h => hex ⟨r, hr, h⟩
      rw [hnone q hno, info_none.2 hno]
  · intro i q
    rw [mem_queryReferences, mem_queryReferences]
    constructor
    · rintro ⟨r, hr, rfl, he⟩
      obtain ⟨x, hx, rfl⟩ := List.mem_map.1 hr
      refine ⟨x, hx, (updRow_path n h u s c p x).symm, ?_⟩
      have := updRow_id n h u s c p x
      unfold updRow at this
      rw [this] at he
      exact he
    · rintro ⟨r, hr, rfl, he⟩
      exact ⟨updRow n h u s c p r, List.mem_map.2 ⟨r, hr, rfl⟩, updRow_path .., by rw [updRow_id]; exact he⟩

/-- C78: `AddDerivationOutput` succeeds exactly if the derivation is registered; then the output has that path, instead of the one it had before.
`QueryValidDerivers` is the other direction of `QueryDerivationOutputs`. -/
theorem C78_outputs (ops : List Op) (d : Int) (id p : Bytes) :
    let db := run true Nix.empty ops
    let db' := (addDerivationOutput true d id p db).2
    ((addDerivationOutput true d id p db).1 = .ok () ↔ ∃ q, pathId db q = some d) ∧
    ((addDerivationOutput true d id p db).1 ≠ .ok () → db' = db) ∧
    ((addDerivationOutput true d id p db).1 = .ok () →
      (∀ i x y, (x, y) ∈ queryDerivationOutputs db' i ↔
        (i = d ∧ x = id ∧ y = p) ∨ ((x, y) ∈ queryDerivationOutputs db i ∧ ¬(i = d ∧ x = id))) ∧
      (∀ q, queryPathInfo db' q = queryPathInfo db q) ∧
      (∀ i, queryReferences db' i = queryReferences db i)) ∧
    (∀ i x y y', (x, y) ∈ queryDerivationOutputs db i → (x, y') ∈ queryDerivationOutputs db i → y = y') ∧
    (∀ i q, (i, q) ∈ queryValidDerivers db p ↔ pathId db q = some i ∧ ∃ x, (x, p) ∈ queryDerivationOutputs db i) := by
  intro db db'
  have hi : NInv db := ninv_run ninv_empty ops
  have hk : (∃ q, pathId db q = some d) ↔ idKnown true db d = true := by
    rw [idKnown_iff]
    constructor
    · rintro ⟨p, hp⟩
      obtain ⟨r, hr, _, h⟩ := (pathId_iff hi).1 hp
      exact ⟨r, hr, h⟩
    · rintro ⟨r, hr, h⟩
      exact ⟨r.path, (pathId_iff hi).2 ⟨r, hr, rfl, h⟩⟩
  have h45 : (∀ i x y y', (x, y) ∈ queryDerivationOutputs db i → (x, y') ∈ queryDerivationOutputs db i → y = y') ∧
      (∀ i q, (i, q) ∈ queryValidDerivers db p ↔ pathId db q = some i ∧ ∃ x, (x, p) ∈ queryDerivationOutputs db i) := by
    refine ⟨?_, ?_⟩
    · intro i x y y' h1 h2
      have := nodup_map_inj hi.outs (mem_queryOutputs.1 h1) (mem_queryOutputs.1 h2) rfl
      injection this
    · intro i q
      rw [pathId_iff hi]
      unfold queryValidDerivers
      simp only [List.mem_flatMap, List.mem_filter, List.mem_map, decide_eq_true_eq, Prod.mk.injEq, mem_queryOutputs]
      constructor
      · rintro ⟨⟨od, oi, op⟩, ⟨ho, h1⟩, r, ⟨hr, h2⟩, h3, h4⟩
        simp only at h1 h2
        subst h1 h2 h3
        exact ⟨⟨r, hr, h4, rfl⟩, oi, ho⟩
      · rintro ⟨⟨r, hr, rfl, rfl⟩, x, hx⟩
        exact ⟨⟨r.id, x, p⟩, ⟨hx, rfl⟩, r, ⟨hr, rfl⟩, rfl, rfl⟩
  rw [hk]
  show _ ∧ (_ → (addDerivationOutput true d id p db).2 = db) ∧ _
  by_cases h : idKnown true db d = true
  · have e : addDerivationOutput true d id p db = (.ok (), { db with outs := insertOrReplace (fun x => (x.drv, x.id)) ⟨d, id, p⟩ db.outs }) := by
      unfold addDerivationOutput; rw [if_pos h]
    have e' : db' = { db with outs := insertOrReplace (fun x => (x.drv, x.id)) ⟨d, id, p⟩ db.outs } := by
      show (addDerivationOutput true d id p db).2 = _; rw [e]
    refine ⟨⟨fun _ => h, fun _ => by rw [e]⟩, fun hne => absurd (by rw [e]) hne, fun _ => ⟨?_, ?_, ?_⟩, h45⟩
    · intro i x y
      rw [mem_queryOutputs, mem_queryOutputs, e']
      simp only [mem_insertOrReplace, OutRow.mk.injEq, ne_eq, Prod.mk.injEq]
    · intro q; rw [e']; rfl
    · intro i; rw [e']; rfl
  · have e : addDerivationOutput true d id p db = (.err (.msg "FOREIGN KEY constraint failed"), db) := by
      unfold addDerivationOutput; rw [if_neg h]
    refine ⟨⟨fun h' => ?_, fun h' => absurd h' h⟩, fun _ => by rw [e], fun h' => ?_, h45⟩
    · rw [e] at h'; cases h'
    · rw [e] at h'; cases h'

/-- Parameters used in the examples. -/
def samplePath (p : Bytes) : PathParams := ⟨p, b!"h", 1, none, none, none, none, none⟩

/-- C78: `NixV10` does not switch foreign keys on. Without them a path that others refer to can be invalidated (the reference
vanishes), and a reference can be added between ids that no path has: it appears once paths get these ids. -/
theorem C78_without_foreign_keys :
    (∃ ops p q i, pathId (run false Nix.empty ops) p = some i ∧ q ≠ p ∧ p ∈ queryReferrers (run false Nix.empty ops) q ∧
      q ∈ queryReferences (run false Nix.empty ops) i ∧ (invalidatePath false q (run false Nix.empty ops)).1 = .ok () ∧
      queryReferences (invalidatePath false q (run false Nix.empty ops)).2 i = [] ∧
      ¬ Integrity (invalidatePath false q (run false Nix.empty ops)).2) ∧
    (addReference false 1 2 Nix.empty).1 = .ok () ∧
    queryReferences (run false Nix.empty [.addReference 1 2, .register 0 (samplePath b!"/a"), .register 0 (samplePath b!"/b")]) 1 = [b!"/b"] := by
  refine ⟨⟨[.register 0 (samplePath b!"/a"), .register 0 (samplePath b!"/b"), .addReference 1 2], b!"/a", b!"/b", 1, ?_, ?_, ?_, ?_, ?_, ?_, ?_⟩, ?_, ?_⟩
  · decide
  · decide
  · decide
  · decide
  · decide
  · decide
  · intro h
    have := (h.refEnds (1, 2) (by decide)).2
    revert this
    decide
  · decide
  · decide

/-- A history used in the examples: a self reference, a cycle broken, an output. -/
def sampleNix : List Op :=
  [.register 0 (samplePath b!"/a"), .register 2 (samplePath b!"/b"), .register 0 (samplePath b!"/a"), .addReference 1 4, .addReference 1 1,
   .addReference 1 7, .addOutput 1 b!"out" b!"/b", .invalidate b!"/b", .update (some 5) b!"x" none none none b!"/b"]

example : let db := run true Nix.empty sampleNix
    pathId db b!"/a" = some 1 ∧ queryPathInfo db b!"/b" = some (4, b!"x", 1, none, some 5, none, none, none) ∧
    queryReferences db 1 = [b!"/b", b!"/a"] ∧ queryReferrers db b!"/b" = [b!"/a"] ∧ queryReferrers db b!"/a" = [b!"/a"] ∧
    queryValidDerivers db b!"/b" = [(1, b!"/a")] ∧ (invalidatePath true b!"/b" db).1 ≠ .ok () ∧ (invalidatePath true b!"/a" db).1 = .ok () ∧
    queryReferrers (invalidatePath true b!"/a" db).2 b!"/b" = [] ∧ queryDerivationOutputs (invalidatePath true b!"/a" db).2 1 = [] := by
  refine ⟨?_, ?_, ?_, ?_, ?_, ?_, ?_, ?_, ?_, ?_⟩ <;> first | decide | rfl

end Verif.Props
