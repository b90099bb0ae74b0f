import Verif.Spec.Sqlite

/-!
# The databases (C76, C77, C78, C94, C95)
-/

namespace Verif.Props
open Verif.Sqlite

/-! ## C76 -/

theorem filter_insertOrReplace {R K : Type} [DecidableEq K] (key : R → K) (r : R) (t : List R) (k : K) :
    (insertOrReplace key r t).filter (fun x => key x = k) = if key r = k then [r] else t.filter (fun x => key x = k) := by
  unfold insertOrReplace
  rw [List.filter_append, List.filter_filter]
  by_cases h : key r = k
  · rw [if_pos h]
    have : (t.filter fun a => decide (key a = k) && decide (key a ≠ key r)) = [] := by
      rw [List.filter_eq_nil_iff]
      intro a _
      simp [h]
    rw [this]
    simp [h]
  · rw [if_neg h]
    have : (t.filter fun a => decide (key a = k) && decide (key a ≠ key r)) = t.filter fun a => decide (key a = k) := by
      apply List.filter_congr
      intro a _
      by_cases ha : key a = k
      · simp [ha, Ne.symm h]
      · simp [ha]
    rw [this]
    simp [h]

theorem queryCache_upsert (r : Fetcher.Row) (t : List Fetcher.Row) (d k : Bytes) :
    Fetcher.queryCache (Fetcher.upsertCache r t) d k =
      if r.domain = d ∧ r.key = k then [(r.value, r.timestamp)] else Fetcher.queryCache t d k := by
  have e : (fun x : Fetcher.Row => decide (x.domain = d) && decide (x.key = k)) = fun x => decide ((x.domain, x.key) = (d, k)) := by
    funext x; simp
  unfold Fetcher.queryCache Fetcher.upsertCache
  rw [e, filter_insertOrReplace (fun x : Fetcher.Row => (x.domain, x.key))]
  by_cases h : r.domain = d ∧ r.key = k
  · rw [if_pos h, if_pos (by simp [h])]; rfl
  · rw [if_neg h, if_neg (by simpa using h)]

/-- C76: after any history, `QueryCache` returns exactly the value and time of the last `UpsertCache` for the
domain and key; what the database contained before if there was none (nothing for an empty database). -/
theorem C76_fetcher (t : List Fetcher.Row) (calls : List Fetcher.Row) (domain key : Bytes) :
    Fetcher.queryCache (Fetcher.history t calls) domain key =
      match Fetcher.last calls domain key with
      | some r => [(r.value, r.timestamp)]
      | none => Fetcher.queryCache t domain key := by
  induction calls generalizing t with
  | nil => rfl
  | cons r calls ih =>
    have : Fetcher.history t (r :: calls) = Fetcher.history (Fetcher.upsertCache r t) calls := rfl
    rw [this, ih]
    unfold Fetcher.last
    rw [List.reverse_cons, List.find?_append]
    cases calls.reverse.find? (fun r => decide (r.domain = domain) && decide (r.key = key)) with
    | some x => rfl
    | none =>
      simp only [Option.none_or, List.find?_cons, List.find?_nil]
      rw [queryCache_upsert]
      by_cases h : r.domain = domain ∧ r.key = key
      · rw [if_pos h]; simp [h]
      · rw [if_neg h]
        have : (decide (r.domain = domain) && decide (r.key = key)) = false := by simpa using h
        rw [this]

theorem C76_empty (calls : List Fetcher.Row) (domain key : Bytes) :
    Fetcher.queryCache (Fetcher.history [] calls) domain key =
      ((Fetcher.last calls domain key).map fun r => (r.value, r.timestamp)).toList := by
  rw [C76_fetcher]
  cases Fetcher.last calls domain key <;> rfl

example : Fetcher.queryCache (Fetcher.history [] [⟨b!"d", b!"k", b!"1", 5⟩, ⟨b!"d", b!"x", b!"2", 6⟩, ⟨b!"d", b!"k", b!"3", 4⟩]) b!"d" b!"k" =
    [(b!"3", 4)] := by decide

/-! ## C95 -/

theorem queryAttribute_insertRow (r : Eval.Row) (t : List Eval.Row) (p : Int) (n : Bytes) :
    Eval.queryAttribute (Eval.insertRow r t) p (some n) =
      if r.parent = p ∧ r.name = some n then some (r.typ, r.value, r.context) else Eval.queryAttribute t p (some n) := by
  unfold Eval.queryAttribute Eval.insertRow
  rw [List.filter_append, List.filter_filter]
  by_cases h : r.parent = p ∧ r.name = some n
  · rw [if_pos h]
    have : (t.filter fun a => (decide (a.parent = p) && a.name.isSome && decide (a.name = some n)) &&
        !(decide (a.parent = r.parent) && a.name.isSome && decide (a.name = r.name))) = [] := by
      rw [List.filter_eq_nil_iff]
      intro a _
      rw [h.1, h.2]
      simp only [Bool.and_eq_true, decide_eq_true_eq, Bool.not_eq_true', not_and, and_imp]
      intro h1 _ h3
      simp [h1, h3]
    rw [this]
    simp [h.1, h.2]
  · rw [if_neg h]
    have : (t.filter fun a => (decide (a.parent = p) && a.name.isSome && decide (a.name = some n)) &&
        !(decide (a.parent = r.parent) && a.name.isSome && decide (a.name = r.name))) =
        t.filter fun a => (decide (a.parent = p) && a.name.isSome && decide (a.name = some n)) := by
      apply List.filter_congr
      intro a _
      by_cases ha : a.parent = p ∧ a.name = some n
      · rw [ha.1, ha.2]
        have : ¬ (p = r.parent ∧ some n = r.name) := fun h' => h ⟨h'.1.symm, h'.2.symm⟩
        simp only [decide_true, Option.isSome_some, Bool.true_and, Bool.and_true]
        rw [Bool.not_eq_true', Bool.eq_false_iff]
        simpa using this
      · have : (decide (a.parent = p) && a.name.isSome && decide (a.name = some n)) = false := by
          rw [Bool.eq_false_iff]
          simp only [ne_eq, Bool.and_eq_true, decide_eq_true_eq, not_and]
          exact fun h1 h2 => ha ⟨h1.1, h2⟩
        rw [this]; rfl
    rw [this]
    have : ([r].filter fun a => (decide (a.parent = p) && a.name.isSome && decide (a.name = some n))) = [] := by
      rw [List.filter_eq_nil_iff]
      intro a ha
      rw [List.mem_singleton.1 ha]
      simp only [Bool.and_eq_true, decide_eq_true_eq, not_and]
      exact fun h1 h2 => h ⟨h1.1, h2⟩
    rw [this, List.append_nil]

/-- C95: after any history of the evaluation cache, `QueryAttribute` returns type, value and context of the last insertion
for the parent and name (context NULL if it was inserted without). -/
theorem C95_attribute (calls : List Eval.Call) (parent : Int) (name : Bytes) :
    Eval.queryAttribute (calls.foldl Eval.step []) parent (some name) =
      (Eval.last calls parent name).map fun c => (c.typ, c.value, c.context.join) := by
  have key : ∀ (calls : List Eval.Call) (t : List Eval.Row), Eval.queryAttribute (calls.foldl Eval.step t) parent (some name) =
      match Eval.last calls parent name with
      | some c => some (c.typ, c.value, c.context.join)
      | none => Eval.queryAttribute t parent (some name) := by
    intro calls
    induction calls with
    | nil => intro t; rfl
    | cons c calls ih =>
      intro t
      rw [List.foldl_cons, ih]
      unfold Eval.last
      rw [List.reverse_cons, List.find?_append]
      cases calls.reverse.find? (fun c => decide (c.parent = parent) && decide (c.name = some name)) with
      | some x => rfl
      | none =>
        simp only [Option.none_or, List.find?_cons, List.find?_nil]
        have hs : Eval.step t c = Eval.insertRow ⟨c.parent, c.name, c.typ, c.value, c.context.join⟩ t := by
          unfold Eval.step Eval.insertAttribute Eval.insertAttributeWithContext
          cases c.context <;> rfl
        rw [hs, queryAttribute_insertRow]
        by_cases h : c.parent = parent ∧ c.name = some name
        · rw [if_pos h]; simp [h]
        · rw [if_neg h]
          have : (decide (c.parent = parent) && decide (c.name = some name)) = false := by simpa using h
          rw [this]
  rw [key]
  cases Eval.last calls parent name <;> rfl

/-- C95: `QueryAttribute` without a name finds nothing, whatever was inserted. -/
theorem C95_null_name (calls : List Eval.Call) (parent : Int) : Eval.queryAttribute (calls.foldl Eval.step []) parent none = none := by
  unfold Eval.queryAttribute
  have : ((calls.foldl Eval.step []).filter fun x : Eval.Row => decide (x.parent = parent) && x.name.isSome && decide (x.name = none)) = [] := by
    rw [List.filter_eq_nil_iff]
    intro a _
    cases a.name <;> simp
  rw [this]; rfl

/-- C95: the names that `QueryAttributes` lists for a parent are exactly those inserted, each name once (NULL as often as it
was inserted). -/
theorem C95_names (calls : List Eval.Call) (parent : Int) :
    (∀ n, some n ∈ Eval.queryAttributes (calls.foldl Eval.step []) parent ↔ (Eval.last calls parent n).isSome) ∧
    (∀ n, (Eval.queryAttributes (calls.foldl Eval.step []) parent).count (some n) ≤ 1) ∧
    (Eval.queryAttributes (calls.foldl Eval.step []) parent).count none =
      calls.countP (fun c => decide (c.parent = parent) && c.name.isNone) := by
  have hcount : ∀ (t : List Eval.Row) (n : Option Bytes), (Eval.queryAttributes t parent).count n =
      t.countP (fun x => decide (x.parent = parent) && decide (x.name = n)) := by
    intro t n
    unfold Eval.queryAttributes
    rw [List.count_eq_countP, List.countP_map, List.countP_filter]
    apply List.countP_congr
    intro a _
    simp only [Function.comp_apply, Bool.and_eq_true, beq_iff_eq, decide_eq_true_eq]
    exact and_comm
  have hrow : ∀ (r : Eval.Row) (t : List Eval.Row) (n : Bytes),
      (Eval.insertRow r t).countP (fun x => decide (x.parent = parent) && decide (x.name = some n)) =
      if r.parent = parent ∧ r.name = some n then 1 else t.countP (fun x => decide (x.parent = parent) && decide (x.name = some n)) := by
    intro r t n
    unfold Eval.insertRow
    rw [List.countP_append, List.countP_filter]
    by_cases h : r.parent = parent ∧ r.name = some n
    · rw [if_pos h]
      have e1 : t.countP (fun a => (decide (a.parent = parent) && decide (a.name = some n)) &&
          !(decide (a.parent = r.parent) && a.name.isSome && decide (a.name = r.name))) = 0 := by
        rw [List.countP_eq_zero]
        intro a _
        rw [h.1, h.2]
        simp only [Bool.and_eq_true, decide_eq_true_eq, Bool.not_eq_true', not_and, and_imp]
        intro h1 h2
        simp [h1, h2]
      rw [e1]
      simp [h.1, h.2]
    · rw [if_neg h]
      have e1 : t.countP (fun a => (decide (a.parent = parent) && decide (a.name = some n)) &&
          !(decide (a.parent = r.parent) && a.name.isSome && decide (a.name = r.name))) =
          t.countP (fun a => (decide (a.parent = parent) && decide (a.name = some n))) := by
        apply List.countP_congr
        intro a _
        by_cases ha : a.parent = parent ∧ a.name = some n
        · rw [ha.1, ha.2]
          have : ¬ (parent = r.parent ∧ some n = r.name) := fun h' => h ⟨h'.1.symm, h'.2.symm⟩
          simp only [decide_true, Option.isSome_some, Bool.true_and, Bool.and_true]
          rw [Bool.not_eq_true', Bool.eq_false_iff]
          simpa using this
        · have : (decide (a.parent = parent) && decide (a.name = some n)) = false := by simpa using ha
          rw [this]; simp
      have e2 : [r].countP (fun a => (decide (a.parent = parent) && decide (a.name = some n))) = 0 := by
        rw [List.countP_eq_zero]
        intro a ha
        rw [List.mem_singleton.1 ha]
        simpa using h
      rw [e1, e2]; rfl
  have hs : ∀ t (c : Eval.Call), Eval.step t c = Eval.insertRow ⟨c.parent, c.name, c.typ, c.value, c.context.join⟩ t := by
    intro t c
    unfold Eval.step Eval.insertAttribute Eval.insertAttributeWithContext
    cases c.context <;> rfl
  have hall : ∀ (calls : List Eval.Call) (t : List Eval.Row) (n : Bytes),
      (calls.foldl Eval.step t).countP (fun x => decide (x.parent = parent) && decide (x.name = some n)) =
      if (Eval.last calls parent n).isSome then 1 else t.countP (fun x => decide (x.parent = parent) && decide (x.name = some n)) := by
    intro calls
    induction calls with
    | nil => intro t n; simp [Eval.last]
    | cons c calls ih =>
      intro t n
      rw [List.foldl_cons, ih, hs, hrow]
      unfold Eval.last
      rw [List.reverse_cons, List.find?_append]
      cases calls.reverse.find? (fun c => decide (c.parent = parent) && decide (c.name = some n)) with
      | some x => rfl
      | none =>
        simp only [Option.none_or, List.find?_cons, List.find?_nil]
        by_cases h : c.parent = parent ∧ c.name = some n
        · simp [h]
        · have : (decide (c.parent = parent) && decide (c.name = some n)) = false := by simpa using h
          simp only [h, this, if_false]
  refine ⟨?_, ?_, ?_⟩
  · intro n
    rw [← List.count_pos_iff, hcount, hall]
    cases (Eval.last calls parent n).isSome <;> simp
  · intro n
    rw [hcount, hall]
    split <;> simp
  · rw [hcount]
    have : ∀ (calls : List Eval.Call) (t : List Eval.Row),
        (calls.foldl Eval.step t).countP (fun x => decide (x.parent = parent) && decide (x.name = none)) =
        t.countP (fun x => decide (x.parent = parent) && decide (x.name = none)) +
          calls.countP (fun c => decide (c.parent = parent) && c.name.isNone) := by
      intro calls
      induction calls with
      | nil => intro t; rfl
      | cons c calls ih =>
        intro t
        rw [List.foldl_cons, ih, hs, List.countP_cons]
        unfold Eval.insertRow
        rw [List.countP_append, List.countP_filter]
        have e1 : t.countP (fun a => (decide (a.parent = parent) && decide (a.name = none)) &&
            !(decide (a.parent = c.parent) && a.name.isSome && decide (a.name = c.name))) =
            t.countP (fun a => (decide (a.parent = parent) && decide (a.name = none))) := by
          apply List.countP_congr
          intro a _
          cases a.name <;> simp
        rw [e1]
        have e2 : [(⟨c.parent, c.name, c.typ, c.value, c.context.join⟩ : Eval.Row)].countP
            (fun a => (decide (a.parent = parent) && decide (a.name = none))) =
            if (decide (c.parent = parent) && c.name.isNone) = true then 1 else 0 := by
          rw [List.countP_singleton]
          cases c.name <;> simp
        rw [e2]
        omega
    rw [this]; simp

example : let t := [(⟨0, some b!"a", 1, none, some none⟩ : Eval.Call), ⟨0, none, 1, none, none⟩, ⟨0, some b!"a", 2, some b!"v", none⟩].foldl Eval.step []
    Eval.queryAttribute t 0 (some b!"a") = some (2, some b!"v", none) ∧ Eval.queryAttributes t 0 = [none, some b!"a"] := by decide

/-! ## C77 -/

section BinCache
open BinCache

theorem bc_induct (fk : Bool) {P : List (Op × Res Int) → DB → Prop} {db0 : DB} (h0 : P [] db0)
    (hs : ∀ hist db o, P hist db → P (hist ++ [(o, (step fk db o).1)]) (step fk db o).2) (ops : List Op) :
    P (run fk db0 ops).1 (run fk db0 ops).2 := by
  have key : ∀ (ops : List Op) (hist : List (Op × Res Int)) (db : DB), P hist db →
      P (hist ++ (run fk db ops).1) (run fk db ops).2 := by
    intro ops
    induction ops with
    | nil => intro hist db h; simpa [run] using h
    | cons o os ih =>
      intro hist db h
      have := ih _ _ (hs hist db o h)
      simpa [run] using this
  exact key ops [] db0 h0

theorem knownNar_snoc (c : Int) (h : Bytes) (hist : List (Op × Res Int)) (x : Op × Res Int) :
    knownNar c h (hist ++ [x]) = narStep c h (knownNar c h hist) x := by
  simp [knownNar, List.foldl_append]

/-- The row that a record is stored as. -/
def narRow (c : Int) (h : Bytes) (r : NarRec) : NarRow := ⟨c, h, r.info, r.timestamp, r.present⟩

def NarInv (hist : List (Op × Res Int)) (db : DB) : Prop := ∀ c h,
  db.nars.filter (fun x => decide ((x.cache, x.hashPart) = (c, h))) = ((knownNar c h hist).map (narRow c h)).toList ∧
  ∀ r, knownNar c h hist = some r → r.present = 0 ∨ r.present = 1

theorem narInv_put {fk : Bool} {hist : List (Op × Res Int)} {db : DB} (hi : NarInv hist db) (c' : Int) (h' : Bytes) (r : NarRec)
    (hp : r.present = 0 ∨ r.present = 1) (o : Op)
    (hok : ∀ i cur c h, narStep c h cur (o, .ok i) = if c' = c ∧ h' = h then some r else cur)
    (herr : ∀ e cur c h, narStep c h cur (o, .err e) = cur) :
    NarInv (hist ++ [(o, (putNar fk (narRow c' h' r) db).1.bind fun _ => .ok 0)]) (putNar fk (narRow c' h' r) db).2 := by
  intro c h
  rw [knownNar_snoc]
  unfold putNar
  split
  · simp only [Res.bind, hok]
    rw [filter_insertOrReplace (fun x : NarRow => (x.cache, x.hashPart))]
    by_cases he : c' = c ∧ h' = h
    · obtain ⟨rfl, rfl⟩ := he
      rw [if_pos (by rfl), if_pos ⟨rfl, rfl⟩]
      exact ⟨rfl, fun x hx => by cases hx; exact hp⟩
    · rw [if_neg (by simpa [narRow] using he), if_neg he]
      exact hi c h
  · simp only [Res.bind, herr]
    exact hi c h

theorem narInv_step (fk : Bool) (hist : List (Op × Res Int)) (db : DB) (o : Op) (hi : NarInv hist db) :
    NarInv (hist ++ [(o, (step fk db o).1)]) (step fk db o).2 := by
  cases o with
  | insertCache gap url ts sd w p =>
    intro c h
    rw [knownNar_snoc]
    simp only [step, insertCache]
    split <;> exact hi c h
  | insertNar c' h' i ts =>
    exact narInv_put hi c' h' ⟨1, i, ts⟩ (.inr rfl) _ (fun _ _ _ _ => rfl) (fun _ _ _ _ => rfl)
  | insertMissingNAR c' h' ts =>
    exact narInv_put hi c' h' ⟨0, noInfo, ts⟩ (.inl rfl) _ (fun _ _ _ _ => rfl) (fun _ _ _ _ => rfl)
  | purgeNars t t2 =>
    intro c h
    obtain ⟨h1, h2⟩ := hi c h
    rw [knownNar_snoc]
    simp only [step, purgeNars, narStep]
    rw [List.filter_filter]
    have e : (fun a : NarRow => decide ((a.cache, a.hashPart) = (c, h)) &&
          !((decide (a.present = 0) && decide (a.timestamp < t)) || (decide (a.present = 1) && decide (a.timestamp < t2)))) =
        fun a : NarRow => !((decide (a.present = 0) && decide (a.timestamp < t)) || (decide (a.present = 1) && decide (a.timestamp < t2))) &&
          decide ((a.cache, a.hashPart) = (c, h)) := by funext a; rw [Bool.and_comm]
    rw [e, ← List.filter_filter, h1]
    cases hk : knownNar c h hist with
    | none => simp
    | some r =>
      have hp := h2 r hk
      simp only [Option.map_some, Option.toList_some, List.filter_cons, List.filter_nil, narRow, Option.filter_some]
      rcases hp with hp | hp
      · simp only [hp]
        by_cases hlt : r.timestamp < t <;> simp [hlt, hp, narRow]
      · simp only [hp]
        by_cases hlt : r.timestamp < t2 <;> simp [hlt, hp, narRow]
  | insertRealisation c' o' x ts =>
    intro c h
    rw [knownNar_snoc]
    simp only [step, insertRealisation, putRealisation]
    split <;> exact hi c h
  | insertMissingRealisation c' o' ts =>
    intro c h
    rw [knownNar_snoc]
    simp only [step, insertMissingRealisation, putRealisation]
    split <;> exact hi c h
  | updateLastPurge v =>
    intro c h
    rw [knownNar_snoc]
    exact hi c h

/-- C77: after any history of calls on an empty database, `QueryNar` returns the last record for the cache and hash part, unless it was
purged since, if it is newer than the threshold for its presence, and nothing else. -/
theorem C77_query (fk : Bool) (ops : List Op) (cache : Int) (hashPart : Bytes) (t0 t1 : Int) :
    queryNar (run fk empty ops).2 cache hashPart t0 t1 =
      (((knownNar cache hashPart (run fk empty ops).1).filter fun r =>
        decide (r.timestamp > if r.present = 0 then t0 else t1)).map fun r => (r.present, r.info)).toList := by
  have hi : NarInv (run fk empty ops).1 (run fk empty ops).2 :=
    bc_induct fk (fun c h => ⟨rfl, by intro r hr; cases hr⟩) (narInv_step fk) ops
  obtain ⟨h1, h2⟩ := hi cache hashPart
  unfold queryNar
  have e : (fun x : NarRow => decide (x.cache = cache) && decide (x.hashPart = hashPart) &&
      ((decide (x.present = 0) && decide (x.timestamp > t0)) || (decide (x.present = 1) && decide (x.timestamp > t1)))) =
      fun x => ((decide (x.present = 0) && decide (x.timestamp > t0)) || (decide (x.present = 1) && decide (x.timestamp > t1))) &&
        decide ((x.cache, x.hashPart) = (cache, hashPart)) := by
    funext x
    rw [Bool.and_comm]
    simp
  rw [e, ← List.filter_filter, h1]
  cases hk : knownNar cache hashPart (run fk empty ops).1 with
  | none => simp
  | some r =>
    have hp := h2 r hk
    simp only [Option.map_some, Option.toList_some, List.filter_cons, List.filter_nil, narRow, Option.filter_some]
    rcases hp with hp | hp
    · simp only [hp]
      by_cases hlt : r.timestamp > t0 <;> simp [hlt, hp]
    · simp only [hp]
      by_cases hlt : r.timestamp > t1 <;> simp [hlt, hp]

/-! ## C94 -/

theorem findSome_snoc {α β : Type} (f : α → Option β) (l : List α) (x : α) :
    (l ++ [x]).reverse.findSome? f = (f x).or (l.reverse.findSome? f) := by
  rw [List.reverse_append, List.findSome?_append]
  simp

structure CacheInv (hist : List (Op × Res Int)) (db : DB) : Prop where
  rows : ∀ url, db.caches.filter (fun c => decide (c.url = url)) =
    ((lastCache url hist).map fun x => (⟨x.1, url, x.2.1, x.2.2.1, x.2.2.2.1, x.2.2.2.2⟩ : CacheRow)).toList
  ids : (db.caches.map (·.id)).Nodup
  bound : ∀ c ∈ db.caches, c.id ≤ (db.seq : Int)
  returned : ∀ url id, Returned hist url id ↔ ∃ c ∈ db.caches, c.url = url ∧ c.id = id

theorem cacheInv_other {hist : List (Op × Res Int)} {db db' : DB} {o : Op} {res : Res Int} (hi : CacheInv hist db)
    (hc : db'.caches = db.caches) (hs : db'.seq = db.seq)
    (ho : ∀ gap url ts sd w p, o ≠ .insertCache gap url ts sd w p) : CacheInv (hist ++ [(o, res)]) db' := by
  refine ⟨?_, by rw [hc]; exact hi.ids, by rw [hc, hs]; exact hi.bound, ?_⟩
  · intro url
    rw [hc, hi.rows url]
    unfold lastCache
    rw [findSome_snoc]
    cases o <;> first | rfl | exact absurd rfl (ho _ _ _ _ _ _)
  · intro url id
    rw [hc, ← hi.returned url id]
    unfold Returned
    constructor
    · rintro ⟨g, ts, sd, w, p, h⟩
      rcases List.mem_append.1 h with h | h
      · exact ⟨g, ts, sd, w, p, h⟩
      · simp only [List.mem_singleton, Prod.mk.injEq] at h
        exact absurd h.1.symm (ho _ _ _ _ _ _)
    · rintro ⟨g, ts, sd, w, p, h⟩
      exact ⟨g, ts, sd, w, p, List.mem_append_left _ h⟩

theorem returned_snoc (hist : List (Op × Res Int)) (gap : Nat) (u : Bytes) (ts : Int) (sd : Bytes) (w p i : Int) (url : Bytes) (id : Int) :
    Returned (hist ++ [(.insertCache gap u ts sd w p, .ok i)]) url id ↔ Returned hist url id ∨ (u = url ∧ i = id) := by
  unfold Returned
  constructor
  · rintro ⟨g, ts', sd', w', p', h⟩
    rcases List.mem_append.1 h with h | h
    · exact .inl ⟨g, ts', sd', w', p', h⟩
    · simp only [List.mem_singleton, Prod.mk.injEq, Op.insertCache.injEq, Res.ok.injEq] at h
      exact .inr ⟨h.1.2.1.symm, h.2.symm⟩
  · rintro (⟨g, ts', sd', w', p', h⟩ | ⟨rfl, rfl⟩)
    · exact ⟨g, ts', sd', w', p', List.mem_append_left _ h⟩
    · exact ⟨gap, ts, sd, w, p, List.mem_append_right _ (by simp)⟩

theorem cacheInv_step (fk : Bool) (hist : List (Op × Res Int)) (db : DB) (o : Op) (hi : CacheInv hist db) :
    CacheInv (hist ++ [(o, (step fk db o).1)]) (step fk db o).2 := by
  cases o with
  | insertCache gap u ts sd w p =>
    simp only [step]
    have hlast : ∀ (i : Int) (url : Bytes), lastCache url (hist ++ [(.insertCache gap u ts sd w p, .ok i)]) =
        if u = url then some (i, ts, sd, w, p) else lastCache url hist := by
      intro i url
      unfold lastCache
      rw [findSome_snoc]
      simp only []
      by_cases h : u = url <;> simp [h]
    cases hf : db.caches.find? (fun c => decide (c.url = u)) with
    | some c =>
      have hcm := List.mem_of_find?_eq_some hf
      have hcu : c.url = u := by simpa using List.find?_some hf
      have e : insertCache gap u ts sd w p db = (c.id, { db with seq := db.seq + gap, caches := db.caches.map fun x =>
          if x.url = u then { x with timestamp := ts, storeDir := sd, wantMassQuery := w, priority := p } else x }) := by
        unfold insertCache; rw [hf]
      rw [e]
      have hurl : ∀ x : CacheRow, (if x.url = u then { x with timestamp := ts, storeDir := sd, wantMassQuery := w, priority := p } else x).url = x.url := by
        intro x; split <;> rfl
      have hid : ∀ x : CacheRow, (if x.url = u then { x with timestamp := ts, storeDir := sd, wantMassQuery := w, priority := p } else x).id = x.id := by
        intro x; split <;> rfl
      refine ⟨?_, ?_, ?_, ?_⟩
      · intro url
        rw [hlast, List.filter_map]
        have e1 : ((fun c : CacheRow => decide (c.url = url)) ∘ fun x : CacheRow =>
            if x.url = u then { x with timestamp := ts, storeDir := sd, wantMassQuery := w, priority := p } else x) =
            fun c => decide (c.url = url) := by
          funext x; simp only [Function.comp_apply, hurl]
        rw [e1]
        by_cases h : u = url
        · subst h
          rw [if_pos rfl]
          have hrows := hi.rows u
          have hmem : c ∈ db.caches.filter (fun c => decide (c.url = u)) := List.mem_filter.2 ⟨hcm, by simp [hcu]⟩
          rw [hrows] at hmem ⊢
          cases hl : lastCache u hist with
          | none => rw [hl] at hmem; simp at hmem
          | some x =>
            rw [hl] at hmem
            simp only [Option.map_some, Option.toList_some, List.mem_singleton] at hmem
            simp [hmem]
        · rw [if_neg h, ← hi.rows url]
          conv => rhs; rw [← List.map_id (List.filter _ _)]
          apply List.map_congr_left
          intro x hx
          have hx' : x.url = url := by simpa using (List.mem_filter.1 hx).2
          rw [if_neg (by rw [hx']; exact fun h' => h h'.symm)]
          rfl
      · simp only [List.map_map]
        have e1 : ((fun x : CacheRow => x.id) ∘ fun x : CacheRow =>
            if x.url = u then { x with timestamp := ts, storeDir := sd, wantMassQuery := w, priority := p } else x) = fun x => x.id := by
          funext x; simp only [Function.comp_apply, hid]
        rw [e1]; exact hi.ids
      · intro x hx
        obtain ⟨y, hy, rfl⟩ := List.mem_map.1 hx
        have := hi.bound y hy
        rw [hid]
        simp only []
        omega
      · intro url id
        rw [returned_snoc, hi.returned]
        constructor
        · rintro (⟨x, hx, h1, h2⟩ | ⟨rfl, rfl⟩)
          · exact ⟨_, List.mem_map.2 ⟨x, hx, rfl⟩, by rw [hurl]; exact h1, by rw [hid]; exact h2⟩
          · exact ⟨_, List.mem_map.2 ⟨c, hcm, rfl⟩, by rw [hurl]; exact hcu, by rw [hid]⟩
        · rintro ⟨x, hx, h1, h2⟩
          obtain ⟨y, hy, rfl⟩ := List.mem_map.1 hx
          rw [hurl] at h1
          rw [hid] at h2
          exact .inl ⟨y, hy, h1, h2⟩
    | none =>
      have hnone := List.find?_eq_none.1 hf
      have e : insertCache gap u ts sd w p db = (((db.seq + gap + 1 : Nat) : Int), { db with seq := db.seq + gap + 1, caches := db.caches ++
          [⟨((db.seq + gap + 1 : Nat) : Int), u, ts, sd, w, p⟩] }) := by
        unfold insertCache; rw [hf]
      rw [e]
      refine ⟨?_, ?_, ?_, ?_⟩
      · intro url
        rw [hlast, List.filter_append, hi.rows url]
        by_cases h : u = url
        · subst h
          rw [if_pos rfl]
          have : lastCache u hist = none := by
            have hr := hi.rows u
            cases hl : lastCache u hist with
            | none => rfl
            | some x =>
              rw [hl] at hr
              have : (⟨x.1, u, x.2.1, x.2.2.1, x.2.2.2.1, x.2.2.2.2⟩ : CacheRow) ∈ db.caches.filter (fun c => decide (c.url = u)) := by
                rw [hr]; simp
              have := hnone _ (List.mem_filter.1 this).1
              simp at this
          rw [this]
          simp
        · rw [if_neg h]
          simp [h]
      · simp only [List.map_append, List.map_cons, List.map_nil]
        rw [List.nodup_append]
        refine ⟨hi.ids, by simp, ?_⟩
        intro a ha b hb
        obtain ⟨x, hx, rfl⟩ := List.mem_map.1 ha
        have := hi.bound x hx
        rw [List.mem_singleton.1 hb]
        omega
      · intro x hx
        rcases List.mem_append.1 hx with hx | hx
        · have := hi.bound x hx
          simp only []
          omega
        · rw [List.mem_singleton.1 hx]; simp
      · intro url id
        rw [returned_snoc, hi.returned]
        constructor
        · rintro (⟨x, hx, h1, h2⟩ | ⟨rfl, rfl⟩)
          · exact ⟨x, List.mem_append_left _ hx, h1, h2⟩
          · exact ⟨_, List.mem_append_right _ (List.mem_singleton.2 rfl), rfl, rfl⟩
        · rintro ⟨x, hx, h1, h2⟩
          rcases List.mem_append.1 hx with hx | hx
          · exact .inl ⟨x, hx, h1, h2⟩
          · rw [List.mem_singleton.1 hx] at h1 h2
            exact .inr ⟨h1, h2⟩
  | insertNar c' h' i ts =>
    refine cacheInv_other hi ?_ ?_ (fun _ _ _ _ _ _ h => nomatch h) <;> simp only [step, insertNar, putNar] <;> split <;> rfl
  | insertMissingNAR c' h' ts =>
    refine cacheInv_other hi ?_ ?_ (fun _ _ _ _ _ _ h => nomatch h) <;> simp only [step, insertMissingNAR, putNar] <;> split <;> rfl
  | purgeNars t t2 => exact cacheInv_other hi rfl rfl (fun _ _ _ _ _ _ h => nomatch h)
  | insertRealisation c' o' x ts =>
    refine cacheInv_other hi ?_ ?_ (fun _ _ _ _ _ _ h => nomatch h) <;> simp only [step, insertRealisation, putRealisation] <;> split <;> rfl
  | insertMissingRealisation c' o' ts =>
    refine cacheInv_other hi ?_ ?_ (fun _ _ _ _ _ _ h => nomatch h) <;> simp only [step, insertMissingRealisation, putRealisation] <;> split <;> rfl
  | updateLastPurge v => exact cacheInv_other hi rfl rfl (fun _ _ _ _ _ _ h => nomatch h)

theorem cacheInv_run (fk : Bool) (ops : List Op) : CacheInv (run fk empty ops).1 (run fk empty ops).2 := by
  refine bc_induct fk ⟨fun url => rfl, by simp [empty], by simp [empty], ?_⟩ (cacheInv_step fk) ops
  intro url id
  simp [Returned, empty]

/-- C94: `InsertCache` returns the same id for the same url and different ids for different ones, over any history. -/
theorem C94_ids (fk : Bool) (ops : List Op) (url1 url2 : Bytes) (id1 id2 : Int)
    (h1 : Returned (run fk empty ops).1 url1 id1) (h2 : Returned (run fk empty ops).1 url2 id2) :
    id1 = id2 ↔ url1 = url2 := by
  have hi := cacheInv_run fk ops
  obtain ⟨a, ha, rfl, rfl⟩ := (hi.returned _ _).1 h1
  obtain ⟨b, hb, rfl, rfl⟩ := (hi.returned _ _).1 h2
  constructor
  · intro he
    have : ∀ (l : List CacheRow), (l.map (·.id)).Nodup → a ∈ l → b ∈ l → a = b := by
      intro l
      induction l with
      | nil => intro _ h; cases h
      | cons x l ih =>
        intro hn ha hb
        rw [List.map_cons, List.nodup_cons] at hn
        rcases List.mem_cons.1 ha with ha' | ha'
        · rcases List.mem_cons.1 hb with hb' | hb'
          · rw [ha', hb']
          · exact absurd (List.mem_map.2 ⟨b, hb', by rw [← he, ha']⟩) hn.1
        · rcases List.mem_cons.1 hb with hb' | hb'
          · exact absurd (List.mem_map.2 ⟨a, ha', by rw [he, hb']⟩) hn.1
          · exact ih hn.2 ha' hb'
    rw [this _ hi.ids ha hb]
  · intro hu
    have h3 := hi.rows a.url
    have m1 : a ∈ (run fk empty ops).2.caches.filter (fun c => decide (c.url = a.url)) := List.mem_filter.2 ⟨ha, by simp⟩
    have m2 : b ∈ (run fk empty ops).2.caches.filter (fun c => decide (c.url = a.url)) := List.mem_filter.2 ⟨hb, by simp [hu]⟩
    rw [h3] at m1 m2
    cases hl : lastCache a.url (run fk empty ops).1 with
    | none => rw [hl] at m1; simp at m1
    | some x =>
      rw [hl] at m1 m2
      simp only [Option.map_some, Option.toList_some, List.mem_singleton] at m1 m2
      rw [m1, m2]

/-- C94: `QueryCache` returns exactly what the last `InsertCache` for the url stored, with the id it returned, if that is newer than the
threshold. -/
theorem C94_query (fk : Bool) (ops : List Op) (url : Bytes) (t : Int) :
    queryCache (run fk empty ops).2 url t =
      (((lastCache url (run fk empty ops).1).filter fun x => decide (x.2.1 > t)).map fun x =>
        (x.1, x.2.2.1, x.2.2.2.1, x.2.2.2.2)).toList := by
  have h := (cacheInv_run fk ops).rows url
  unfold queryCache
  have e : (fun c : CacheRow => decide (c.url = url) && decide (c.timestamp > t)) =
      fun c => decide (c.timestamp > t) && decide (c.url = url) := by funext c; rw [Bool.and_comm]
  rw [e, ← List.filter_filter, h]
  cases lastCache url (run fk empty ops).1 with
  | none => simp
  | some x =>
    simp only [Option.map_some, Option.toList_some, List.filter_cons, List.filter_nil, Option.filter_some]
    by_cases hlt : x.2.1 > t <;> simp [hlt]

/-- C94: with foreign keys enforced, the four insertions fail exactly for a cache id that no `InsertCache` returned, and change
nothing then; without, they always succeed. -/
theorem C94_foreign_key (fk : Bool) (ops : List Op) (cache : Int) (hashPart : Bytes) (info : NarInfoCols) (content : Option Bytes) (ts : Int) :
    ∀ o ∈ [Op.insertNar cache hashPart info ts, .insertMissingNAR cache hashPart ts, .insertRealisation cache hashPart content ts,
      .insertMissingRealisation cache hashPart ts],
    ((step fk (run fk empty ops).2 o).1 = .ok 0 ↔ fk = false ∨ ∃ url, Returned (run fk empty ops).1 url cache) ∧
    ((step fk (run fk empty ops).2 o).1 ≠ .ok 0 → (step fk (run fk empty ops).2 o).2 = (run fk empty ops).2) := by
  have hi := cacheInv_run fk ops
  have hk : cacheKnown fk (run fk empty ops).2 cache = true ↔ fk = false ∨ ∃ url, Returned (run fk empty ops).1 url cache := by
    unfold cacheKnown
    rw [Bool.or_eq_true, Bool.not_eq_true', List.any_eq_true]
    refine or_congr Iff.rfl ?_
    constructor
    · rintro ⟨c, hc, h⟩
      exact ⟨c.url, (hi.returned _ _).2 ⟨c, hc, rfl, by simpa using h⟩⟩
    · rintro ⟨url, h⟩
      obtain ⟨c, hc, _, h⟩ := (hi.returned _ _).1 h
      exact ⟨c, hc, by simpa using h⟩
  rw [← hk]
  intro o ho
  simp only [List.mem_cons, List.not_mem_nil, or_false] at ho
  rcases ho with rfl | rfl | rfl | rfl
  all_goals
    simp only [step, insertNar, insertMissingNAR, insertRealisation, insertMissingRealisation, putNar, putRealisation]
    by_cases h : cacheKnown fk (run fk empty ops).2 cache = true
    · simp [h, Res.bind]
    · simp [h, Res.bind]

def RealInv (hist : List (Op × Res Int)) (db : DB) : Prop := ∀ c o,
  db.reals.filter (fun x => decide ((x.cache, x.outputId) = (c, o))) =
    ((lastReal c o hist).map fun x => (⟨c, o, x.1, x.2⟩ : RealRow)).toList

theorem realInv_step (fk : Bool) (hist : List (Op × Res Int)) (db : DB) (op : Op) (hi : RealInv hist db) :
    RealInv (hist ++ [(op, (step fk db op).1)]) (step fk db op).2 := by
  intro c o
  unfold lastReal
  rw [findSome_snoc]
  have h := hi c o
  unfold lastReal at h
  cases op with
  | insertCache gap url ts sd w p =>
    simp only [step, insertCache]
    split <;> exact h
  | insertNar c' h' i ts =>
    simp only [step, insertNar, putNar]
    split <;> exact h
  | insertMissingNAR c' h' ts =>
    simp only [step, insertMissingNAR, putNar]
    split <;> exact h
  | purgeNars t t2 => exact h
  | updateLastPurge v => exact h
  | insertRealisation c' o' x ts =>
    simp only [step, insertRealisation, putRealisation]
    split
    · simp only [Res.bind]
      rw [filter_insertOrReplace (fun x : RealRow => (x.cache, x.outputId))]
      by_cases he : c' = c ∧ o' = o
      · obtain ⟨rfl, rfl⟩ := he
        simp
      · rw [if_neg (by simpa using he), if_neg he, h]
        rfl
    · exact h
  | insertMissingRealisation c' o' ts =>
    simp only [step, insertMissingRealisation, putRealisation]
    split
    · simp only [Res.bind]
      rw [filter_insertOrReplace (fun x : RealRow => (x.cache, x.outputId))]
      by_cases he : c' = c ∧ o' = o
      · obtain ⟨rfl, rfl⟩ := he
        simp
      · rw [if_neg (by simpa using he), if_neg he, h]
        rfl
    · exact h

/-- C94: `QueryRealisation` returns the last realisation recorded (or its absence) if it is newer than the threshold for its
presence. -/
theorem C94_realisation (fk : Bool) (ops : List Op) (cache : Int) (outputId : Bytes) (t0 t1 : Int) :
    queryRealisation (run fk empty ops).2 cache outputId t0 t1 =
      (((lastReal cache outputId (run fk empty ops).1).filter fun x =>
        decide (x.2 > if x.1 = none then t0 else t1)).map (·.1)).toList := by
  have hi : RealInv (run fk empty ops).1 (run fk empty ops).2 :=
    bc_induct fk (P := RealInv) (fun c h => rfl) (realInv_step fk) ops
  have h1 := hi cache outputId
  unfold queryRealisation
  have e : (fun x : RealRow => decide (x.cache = cache) && decide (x.outputId = outputId) &&
      ((x.content.isNone && decide (x.timestamp > t0)) || (x.content.isSome && decide (x.timestamp > t1)))) =
      fun x => ((x.content.isNone && decide (x.timestamp > t0)) || (x.content.isSome && decide (x.timestamp > t1))) &&
        decide ((x.cache, x.outputId) = (cache, outputId)) := by
    funext x
    rw [Bool.and_comm]
    simp
  rw [e, ← List.filter_filter, h1]
  cases lastReal cache outputId (run fk empty ops).1 with
  | none => simp
  | some x =>
    simp only [Option.map_some, Option.toList_some, List.filter_cons, List.filter_nil, Option.filter_some]
    obtain ⟨x1, x2⟩ := x
    cases x1 with
    | none => by_cases hlt : x2 > t0 <;> simp [hlt]
    | some y => by_cases hlt : x2 > t1 <;> simp [hlt]

/-- C94: `QueryLastPurge` returns the value of the last `UpdateLastPurge`, and no row if there was none. -/
theorem C94_last_purge (fk : Bool) (ops : List Op) :
    queryLastPurge (run fk empty ops).2 = lastPurged (run fk empty ops).1 := by
  have hi : (run fk empty ops).2.lastPurge = ((lastPurged (run fk empty ops).1).map fun v => (([] : Bytes), v)).toList := by
    refine bc_induct fk (P := fun (hist : List (Op × Res Int)) (db : DB) =>
      db.lastPurge = ((lastPurged hist).map fun v => (([] : Bytes), v)).toList) ?_ ?_ ops
    · rfl
    · intro hist db op h
      unfold lastPurged
      rw [findSome_snoc]
      unfold lastPurged at h
      cases op with
      | insertCache gap url ts sd w p =>
        simp only [step, insertCache]
        split <;> exact h
      | insertNar c' h' i ts =>
        simp only [step, insertNar, putNar]
        split <;> exact h
      | insertMissingNAR c' h' ts =>
        simp only [step, insertMissingNAR, putNar]
        split <;> exact h
      | purgeNars t t2 => exact h
      | insertRealisation c' o' x ts =>
        simp only [step, insertRealisation, putRealisation]
        split <;> exact h
      | insertMissingRealisation c' o' ts =>
        simp only [step, insertMissingRealisation, putRealisation]
        split <;> exact h
      | updateLastPurge v =>
        simp only [step, updateLastPurge, insertOrReplace]
        rw [h]
        cases hist.reverse.findSome? _ <;> simp
  unfold queryLastPurge
  rw [hi]
  cases lastPurged (run fk empty ops).1 <;> rfl

/-- A history used in the examples. -/
def sampleCalls : List Op :=
  [.insertCache 0 b!"https://a" 10 b!"/nix/store" 1 40, .insertCache 3 b!"https://b" 11 b!"/nix/store" 0 50,
   .insertNar 1 b!"h" { noInfo with url := some b!"nar/h" } 12, .insertMissingNAR 5 b!"h" 13, .insertMissingNAR 9 b!"h" 13,
   .insertCache 1 b!"https://a" 14 b!"/s" 0 41, .insertRealisation 1 b!"o" (some b!"{}") 15, .purgeNars 13 13, .updateLastPurge (some 16)]

example : (run true empty sampleCalls).1.map (·.2) =
      [.ok 1, .ok 5, .ok 0, .ok 0, .err (.msg "FOREIGN KEY constraint failed"), .ok 1, .ok 0, .ok 0, .ok 0] ∧
    queryNar (run true empty sampleCalls).2 1 b!"h" 0 0 = [] ∧ queryNar (run true empty sampleCalls).2 5 b!"h" 12 99 = [(0, noInfo)] ∧
    queryCache (run true empty sampleCalls).2 b!"https://a" 13 = [(1, b!"/s", 0, 41)] ∧
    queryRealisation (run true empty sampleCalls).2 1 b!"o" 99 14 = [some b!"{}"] := by decide

end BinCache

end Verif.Props
