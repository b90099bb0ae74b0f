import Verif.Spec.Heap
import Verif.Model.Heap
import Verif.Lemmas.NarWriter
import Verif.Props.Store

/-!
# Pointers that the API keeps: C115, C116
-/

namespace Verif.Props
open Verif.GoLib Verif.Derivation Verif.Store Verif.Wire Verif.Nar

/-! ## C115 -/

/-- What the store contains, as values. -/
def PtrStore.view (heap : Heap Derivation) (ms : PtrStore) : MapStore := ⟨ms.drvs.map fun e => (e.1, heap e.2), ms.drvReplacements⟩

theorem get?_mapValues {α β : Type} (f : α → β) (m : GoMap α) (p : Bytes) :
    GoMap.get? (m.map fun e => (e.1, f e.2)) p = (m.get? p).map f := by
  induction m with
  | nil => rfl
  | cons e m ih =>
    obtain ⟨k, v⟩ := e
    simp only [List.map_cons, GoMap.get?]
    split
    · rfl
    · exact ih

theorem insert_mapValues {α β : Type} (f : α → β) (m : GoMap α) (p : Bytes) (v : α) :
    (GoMap.insert m p v).map (fun e => (e.1, f e.2)) = GoMap.insert (m.map fun e => (e.1, f e.2)) p (f v) := by
  induction m with
  | nil => rfl
  | cons e m ih =>
    obtain ⟨k, x⟩ := e
    simp only [List.map_cons, GoMap.insert]
    split
    · rfl
    · rw [List.map_cons, ih]

theorem view_has (heap : Heap Derivation) (ms : PtrStore) : (PtrStore.view heap ms).has = ms.has := by
  funext p
  unfold MapStore.has PtrStore.has PtrStore.view
  rw [get?_mapValues, Option.isSome_map]

theorem view_get (heap : Heap Derivation) (ms : PtrStore) (p : Bytes) :
    (PtrStore.view heap ms).get p = ms.get p >>= fun a => .ok (heap a) := by
  unfold MapStore.get PtrStore.get PtrStore.view
  simp only
  rw [get?_mapValues]
  cases ms.drvs.get? p <;> rfl

theorem put_view (H : Bytes → Bytes) (heap : Heap Derivation) (a : Addr) (ms : PtrStore) :
    MapStore.put H (heap a) (PtrStore.view heap ms) =
      ((PtrStore.put H heap a ms).1, PtrStore.view heap (PtrStore.put H heap a ms).2) := by
  have hp : (PtrStore.view heap ms).putPath H (heap a) = ms.putPath H (heap a) := by
    unfold MapStore.putPath PtrStore.putPath
    rw [view_has]; rfl
  unfold MapStore.put PtrStore.put
  rw [hp]
  cases ms.putPath H (heap a) with
  | err e => rfl
  | panic => rfl
  | ok p =>
    simp only
    have : (PtrStore.view heap ms).drvReplacements = ms.drvReplacements := rfl
    rw [this]
    cases calculateDrvReplacement H (heap a) ms.drvReplacements with
    | err e => simp only [PtrStore.view]; rw [insert_mapValues heap]
    | panic => simp only [PtrStore.view]; rw [insert_mapValues heap]
    | ok r => simp only [PtrStore.view]; rw [insert_mapValues heap]

/-- The invariant of `MapStore` only depends on the keys. -/
def PInv (ms : PtrStore) : Prop := ∀ p, (ms.drvs.get? p).isSome = true → ms.drvReplacements.get? p ≠ none

theorem pInv_view (heap : Heap Derivation) (ms : PtrStore) : PInv ms ↔ MInv (PtrStore.view heap ms) := by
  unfold PInv MInv PtrStore.view
  simp only [get?_mapValues, Option.isSome_map]

theorem ptr_put_inv (H : Bytes → Bytes) (heap : Heap Derivation) (a : Addr) {ms : PtrStore} (hi : PInv ms) :
    PInv (PtrStore.put H heap a ms).2 := by
  rw [pInv_view heap]
  have := put_inv H ((pInv_view heap ms).1 hi) (heap a)
  rw [put_view] at this
  exact this

theorem ptr_put_cases (H : Bytes → Bytes) (heap : Heap Derivation) (a : Addr) {ms : PtrStore} (hi : PInv ms) :
    (∃ p, (PtrStore.put H heap a ms).1 = .ok p ∧ (PtrStore.put H heap a ms).2.drvs = ms.drvs.insert p a) ∨
    ((∀ p, (PtrStore.put H heap a ms).1 ≠ .ok p) ∧ (PtrStore.put H heap a ms).2 = ms) := by
  rcases put_cases H ((pInv_view heap ms).1 hi) (heap a) with ⟨p, r, h1, h2, _⟩ | ⟨h1, h2, _⟩
  · left
    have hp : ms.putPath H (heap a) = .ok p := by
      rw [← h1]
      unfold MapStore.putPath PtrStore.putPath
      rw [view_has]; rfl
    unfold PtrStore.put
    rw [hp]
    simp only
    have h2 : calculateDrvReplacement H (heap a) ms.drvReplacements = .ok r := h2
    rw [h2]
    exact ⟨p, rfl, rfl⟩
  · right
    rw [put_view] at h2
    refine ⟨h2, ?_⟩
    have hp : ∀ p, ms.putPath H (heap a) ≠ .ok p := by
      intro p
      have := h1 p
      unfold MapStore.putPath at this
      rw [view_has] at this
      exact this
    unfold PtrStore.put
    cases hx : ms.putPath H (heap a) with
    | err e => rfl
    | panic => rfl
    | ok p => exact absurd hx (hp p)

theorem lastPointer_cons (e : Addr × Res Bytes) (log : List (Addr × Res Bytes)) (p : Bytes) :
    lastPointer (e :: log) p = match lastPointer log p with
      | some d => some d
      | none => if e.2 = .ok p then some e.1 else none := by
  unfold lastPointer
  rw [List.filter_cons]
  by_cases h : e.2 = .ok p
  · simp only [h, decide_true, if_true]
    rw [List.getLast?_cons]
    cases (List.filter (fun e => decide (e.2 = Res.ok p)) log).getLast? with
    | none => simp
    | some x => simp
  · simp only [h, decide_false, if_false, Bool.false_eq_true]
    cases (List.filter (fun e => decide (e.2 = Res.ok p)) log).getLast? with
    | none => simp
    | some x => simp

theorem ptr_run_get (H : Bytes → Bytes) (p : Bytes) (ops : List HOp) : ∀ heap ms, PInv ms →
    (PtrStore.run H heap ms ops).2.2.drvs.get? p =
      match lastPointer (PtrStore.run H heap ms ops).1 p with
      | some a => some a
      | none => ms.drvs.get? p := by
  induction ops with
  | nil => intro heap ms _; rfl
  | cons o ops ih =>
    intro heap ms hi
    cases o with
    | set a d => exact ih (heap.set a d) ms hi
    | put a =>
      simp only [PtrStore.run]
      rw [ih heap _ (ptr_put_inv H heap a hi), lastPointer_cons]
      cases hl : lastPointer (PtrStore.run H heap (PtrStore.put H heap a ms).2 ops).1 p with
      | some d' => rfl
      | none =>
        simp only
        rcases ptr_put_cases H heap a hi with ⟨q, h1, h2⟩ | ⟨h1, h2⟩
        · rw [h1, h2, GoMap.get?_insert]
          simp only [Res.ok.injEq]
          by_cases hq : q = p
          · subst hq; simp
          · rw [if_neg hq, if_neg hq]
        · rw [h2, if_neg (h1 p)]

/-- C115: whatever the program does, `Get` delivers the pointer that was put last with this path (so the derivation it
points to is what the program made of it since), and `Has` tells whether there was one. -/
theorem C115_pointer (H : Bytes → Bytes) (heap : Heap Derivation) (ops : List HOp) (p : Bytes) :
    let log := (PtrStore.run H heap ⟨[], []⟩ ops).1
    let ms := (PtrStore.run H heap ⟨[], []⟩ ops).2.2
    (∀ a, ms.get p = .ok a ↔ lastPointer log p = some a) ∧ ms.has p = .ok (lastPointer log p).isSome := by
  have h := ptr_run_get H p ops heap ⟨[], []⟩ (by intro p h; simp [GoMap.get?] at h)
  simp only
  unfold PtrStore.get PtrStore.has
  rw [h]
  cases lastPointer (PtrStore.run H heap ⟨[], []⟩ ops).1 p with
  | none => simp [GoMap.get?]
  | some a => simp

theorem ptr_run_append (H : Bytes → Bytes) (ops ops' : List HOp) : ∀ heap ms,
    PtrStore.run H heap ms (ops ++ ops') =
      ((PtrStore.run H heap ms ops).1 ++ (PtrStore.run H (PtrStore.run H heap ms ops).2.1 (PtrStore.run H heap ms ops).2.2 ops').1,
        (PtrStore.run H (PtrStore.run H heap ms ops).2.1 (PtrStore.run H heap ms ops).2.2 ops').2) := by
  induction ops with
  | nil => intro heap ms; rfl
  | cons o ops ih =>
    intro heap ms
    cases o with
    | set a d => exact ih _ _
    | put a =>
      simp only [List.cons_append, PtrStore.run]
      rw [ih]

theorem view_set {heap : Heap Derivation} {a : Addr} {d : Derivation} {ms : PtrStore} (h : ∀ e ∈ ms.drvs, e.2 ≠ a) :
    PtrStore.view (heap.set a d) ms = PtrStore.view heap ms := by
  unfold PtrStore.view
  have : ms.drvs.map (fun e => (e.1, heap.set a d e.2)) = ms.drvs.map (fun e => (e.1, heap e.2)) := by
    apply List.map_congr_left
    intro e he
    unfold Heap.set
    rw [if_neg (h e he)]
  rw [this]

theorem mem_insert_values {m : GoMap Addr} {p : Bytes} {a : Addr} {e : Bytes × Addr} (h : e ∈ GoMap.insert m p a) :
    e ∈ m ∨ e = (p, a) := by
  induction m with
  | nil => simp [GoMap.insert] at h; exact .inr h
  | cons x m ih =>
    obtain ⟨k, v⟩ := x
    unfold GoMap.insert at h
    split at h
    · rcases List.mem_cons.1 h with h | h
      · exact .inr h
      · exact .inl (List.mem_cons_of_mem _ h)
    · rcases List.mem_cons.1 h with h | h
      · rw [h]; exact .inl List.mem_cons_self
      · rcases ih h with h | h
        · exact .inl (List.mem_cons_of_mem _ h)
        · exact .inr h

theorem run_view (H : Bytes → Bytes) (ops : List HOp) : ∀ (heap : Heap Derivation) (ms : PtrStore) (done : List (Addr × Res Bytes)),
    PInv ms → (∀ e ∈ ms.drvs, ∃ p, (e.2, Res.ok p) ∈ done) →
    (∀ pre a d post, ops = pre ++ .set a d :: post → ∀ p, (a, .ok p) ∉ done ++ (PtrStore.run H heap ms pre).1) →
    MapStore.history H (PtrStore.view heap ms) (putValues heap ops) =
      ((putValues heap ops).zip ((PtrStore.run H heap ms ops).1.map (·.2)),
        PtrStore.view (PtrStore.run H heap ms ops).2.1 (PtrStore.run H heap ms ops).2.2) := by
  induction ops with
  | nil => intro heap ms done _ _ _; rfl
  | cons o ops ih =>
    intro heap ms done hi hd hc
    cases o with
    | set a d =>
      have hna : ∀ e ∈ ms.drvs, e.2 ≠ a := by
        intro e he hea
        obtain ⟨p, hp⟩ := hd e he
        rw [hea] at hp
        exact hc [] a d ops rfl p (List.mem_append_left _ hp)
      have := ih (heap.set a d) ms done hi hd (by
        intro pre a' d' post he p
        exact hc (.set a d :: pre) a' d' post (by rw [he]; rfl) p)
      rw [view_set hna] at this
      exact this
    | put a =>
      have hcase := ptr_put_cases H heap a hi
      have := ih heap (PtrStore.put H heap a ms).2 (done ++ [(a, (PtrStore.put H heap a ms).1)]) (ptr_put_inv H heap a hi) (by
        intro e he
        rcases hcase with ⟨p, h1, h2⟩ | ⟨_, h2⟩
        · rw [h2] at he
          rcases mem_insert_values he with he | he
          · obtain ⟨q, hq⟩ := hd e he
            exact ⟨q, List.mem_append_left _ hq⟩
          · rw [he, h1]
            exact ⟨p, by simp⟩
        · rw [h2] at he
          obtain ⟨q, hq⟩ := hd e he
          exact ⟨q, List.mem_append_left _ hq⟩) (by
        intro pre a' d' post he p
        have := hc (.put a :: pre) a' d' post (by rw [he]; rfl) p
        rw [List.append_assoc]
        exact this)
      simp only [putValues, MapStore.history, PtrStore.run]
      rw [put_view]
      simp only
      rw [this]
      rfl

/-- C115: for a program that never modifies a derivation after it was put, the store behaves as the one of C67 that keeps
values: the `Put`s return the same, and the pointers that `Get` delivers point to the derivations that were put. -/
theorem C115_values (H : Bytes → Bytes) (heap : Heap Derivation) (ops : List HOp) (hn : NeverModified H heap ops) (p : Bytes) :
    let r := PtrStore.run H heap ⟨[], []⟩ ops
    let v := MapStore.history H newMapStore (putValues heap ops)
    r.1.map (·.2) = v.1.map (·.2) ∧ (r.2.2.get p >>= fun a => .ok (r.2.1 a)) = v.2.get p ∧ r.2.2.has p = v.2.has p := by
  have h := run_view H ops heap ⟨[], []⟩ [] (by intro p h; simp [GoMap.get?] at h) (by simp) hn
  have hv : PtrStore.view heap ⟨[], []⟩ = newMapStore := rfl
  rw [hv] at h
  simp only
  rw [h]
  have hlen : ((PtrStore.run H heap ⟨[], []⟩ ops).1.map (·.2)).length = (putValues heap ops).length := by
    have key : ∀ heap ms, ((PtrStore.run H heap ms ops).1.map (·.2)).length = (putValues heap ops).length := by
      clear h hn hv
      induction ops with
      | nil => intro heap ms; rfl
      | cons o ops ih =>
        intro heap ms
        cases o with
        | set a d => exact ih _ _
        | put a =>
          have := ih heap (PtrStore.put H heap a ms).2
          simp only [List.length_map] at this
          simp [PtrStore.run, putValues, this]
    exact key _ _
  refine ⟨?_, ?_, ?_⟩
  · show _ = List.map Prod.snd _
    rw [List.map_snd_zip (Nat.le_of_eq hlen)]
  · rw [view_get]
  · rw [view_has]

/-- C115 is false without this condition: after a successful `Put`, whatever the program writes through its pointer is
what `Get` delivers, be it valid or not. -/
theorem C115_refuted (H : Bytes → Bytes) (heap : Heap Derivation) (ops : List HOp) (a : Addr) (p : Bytes) (d' : Derivation)
    (h : (PtrStore.run H heap ⟨[], []⟩ (ops ++ [.put a])).1.getLast? = some (a, .ok p)) :
    let r := PtrStore.run H heap ⟨[], []⟩ (ops ++ [.put a, .set a d'])
    (r.2.2.get p >>= fun b => .ok (r.2.1 b)) = .ok d' := by
  have e : ops ++ [HOp.put a, .set a d'] = (ops ++ [.put a]) ++ [.set a d'] := by simp
  simp only
  rw [e, ptr_run_append]
  simp only [PtrStore.run]
  have hg := ((C115_pointer H heap (ops ++ [.put a]) p).1 a).2 (by
    obtain ⟨l, hl⟩ := List.getLast?_eq_some_iff.1 h
    rw [hl]
    unfold lastPointer
    rw [List.filter_append]
    simp)
  rw [hg]
  simp [Heap.set]

example : NeverModified zeroHash (fun _ => fetchDrv b!"a") [.put 0, .set 1 (fetchDrv b!"b"), .put 1] := by
  intro pre a d post h p
  match pre with
  | [] => simp at h
  | [x] =>
    simp only [List.cons_append, List.nil_append, List.cons.injEq, HOp.set.injEq] at h
    obtain ⟨rfl, ⟨rfl, rfl⟩, _⟩ := h
    have : (PtrStore.run zeroHash (fun _ => fetchDrv b!"a") ⟨[], []⟩ [.put 0]).1 =
        [(0, .ok (b!"/nix/store/" ++ dHash ++ b!"-a.drv"))] := by decide +kernel
    rw [this]
    simp
  | [x, y] => simp at h
  | x :: y :: z :: w => simp at h

example : (PtrStore.run zeroHash (fun _ => fetchDrv b!"a") ⟨[], []⟩ ([] ++ [.put 0])).1.getLast? =
    some (0, .ok (b!"/nix/store/" ++ dHash ++ b!"-a.drv")) ∧
    drvPath zeroHash (fetchDrv b!"b") ≠ .ok (b!"/nix/store/" ++ dHash ++ b!"-a.drv") := by decide +kernel

/-! ## C116 -/

/-- What the writer knows, as values. -/
def PtrPhase.view (heap : Heap Header) : PtrPhase → WPhase
  | .start => .start
  | .running stack => .running (stack.map heap)
  | .ended => .ended

@[inherit_doc PtrPhase.view] def PtrWriter.view (heap : Heap Header) (w : PtrWriter) : Writer :=
  ⟨w.st, PtrPhase.view heap w.phase, w.closed⟩

/-- `f` on what a computation returns. -/
def mapM {σ α β : Type} (f : α → β) (m : M σ α) : M σ β := fun s =>
  match m s with
  | (.ok a, s') => (.ok (f a), s')
  | (.err e, s') => (.err e, s')
  | (.panic, s') => (.panic, s')

theorem mapM_bind {σ α β γ : Type} (f : β → γ) (m : M σ α) (k : α → M σ β) : mapM f (m >>= k) = m >>= fun a => mapM f (k a) := by
  funext s
  simp only [mapM, M.bind_apply]
  rcases m s with ⟨r, s'⟩
  cases r <;> rfl

theorem descend_view (heap : Heap Header) (a : Addr) : ∀ stack,
    descend (heap a) (stack.map heap) = mapM (List.map heap) (descendPtr heap a stack)
  | [] => rfl
  | cur :: rest => by
    simp only [List.map_cons, descend, descendPtr]
    rw [mapM_bind]
    congr 1
    funext p
    cases p with
    | none =>
      simp only
      rw [mapM_bind]
      congr 1
      funext _
      by_cases hr : rest = []
      · subst hr; rfl
      · rw [if_neg hr, if_neg (by simpa using hr), mapM_bind, descend_view heap a rest]
    | some name =>
      simp only
      rw [mapM_bind]
      congr 1
      funext _
      rw [mapM_bind]
      rfl

theorem unwind_view (heap : Heap Header) : ∀ stack, unwind (stack.map heap) = unwindPtr stack
  | [] => rfl
  | cur :: rest => by
    simp only [List.map_cons, unwind, unwindPtr, unwind_view heap rest, List.map_eq_nil_iff]

theorem emitHeader_view (heap : Heap Header) (a : Addr) (ph : PtrPhase) :
    emitHeader (heap a) (PtrPhase.view heap ph) = mapM (List.map heap) (emitHeaderPtr heap a ph) := by
  cases ph with
  | start =>
    unfold emitHeader emitHeaderPtr PtrPhase.view
    simp only
    split
    · rfl
    · rw [mapM_bind]; rfl
  | running stack =>
    unfold emitHeader emitHeaderPtr PtrPhase.view
    simp only
    rw [mapM_bind, descend_view]
  | ended => rfl

theorem phase_view_ended (heap : Heap Header) (ph : PtrPhase) : PtrPhase.view heap ph = .ended ↔ ph = .ended := by
  cases ph <;> simp [PtrPhase.view]

theorem writeHeader_view (heap : Heap Header) (a : Addr) (w : PtrWriter) :
    (PtrWriter.view heap w).writeHeader (heap a) = ((w.writeHeader heap a).1, PtrWriter.view heap (w.writeHeader heap a).2) := by
  unfold Writer.writeHeader PtrWriter.writeHeader
  rcases w with ⟨wst, wph, wcl⟩
  generalize hwe : (⟨wst, wph, wcl⟩ : PtrWriter) = w
  have e1 : (PtrWriter.view heap w).closed = w.closed := rfl
  have e2 : (PtrWriter.view heap w).phase = PtrPhase.view heap w.phase := rfl
  have e3 : (PtrWriter.view heap w).st = w.st := rfl
  cases (heap a).validate with
  | err e => rfl
  | panic => rfl
  | ok u =>
    simp only [e1, e2, e3]
    by_cases hc : w.closed = true
    · rw [if_pos hc, if_pos hc]
    · rw [if_neg hc, if_neg hc]
      by_cases he : w.phase = .ended
      · rw [if_pos he, if_pos ((phase_view_ended heap w.phase).2 he)]
      · rw [if_neg he, if_neg (fun h => he ((phase_view_ended heap w.phase).1 h)), emitHeader_view]
        unfold mapM
        rcases emitHeaderPtr heap a w.phase w.st with ⟨r, st⟩
        cases r <;> rfl

theorem write_view (heap : Heap Header) (w : PtrWriter) (p : Bytes) :
    (PtrWriter.view heap w).write p = ((w.write p).1, PtrWriter.view heap (w.write p).2) := by
  unfold Writer.write PtrWriter.write
  have e3 : (PtrWriter.view heap w).st = w.st := rfl
  rw [e3]
  cases w.st.cw with
  | none => rfl
  | some c =>
    simp only
    split <;> rfl

theorem close_view (heap : Heap Header) (w : PtrWriter) :
    (PtrWriter.view heap w).close = (w.close.1, PtrWriter.view heap w.close.2) := by
  unfold Writer.close PtrWriter.close
  have he : emitClose (PtrPhase.view heap w.phase) = emitClosePtr w.phase := by
    cases w.phase with
    | running stack =>
      unfold emitClose emitClosePtr PtrPhase.view
      simp only
      rw [unwind_view]
    | _ => rfl
  have e1 : (PtrWriter.view heap w).closed = w.closed := rfl
  have e2 : (PtrWriter.view heap w).phase = PtrPhase.view heap w.phase := rfl
  have e3 : (PtrWriter.view heap w).st = w.st := rfl
  rw [e1, e2, e3, he]
  split
  · rfl
  · rcases emitClosePtr w.phase w.st with ⟨r, st⟩
    cases r <;> rfl

theorem writer_view_set {heap : Heap Header} {a : Addr} {h : Header} {w : PtrWriter} (ha : a ∉ PtrWriter.openHeaders w) :
    PtrWriter.view (heap.set a h) w = PtrWriter.view heap w := by
  unfold PtrWriter.view
  congr 1
  unfold PtrWriter.openHeaders at ha
  cases hp : w.phase with
  | running stack =>
    rw [hp] at ha
    unfold PtrPhase.view
    simp only [WPhase.running.injEq]
    apply List.map_congr_left
    intro b hb
    unfold Heap.set
    rw [if_neg (fun (e : b = a) => ha (e ▸ hb))]
  | _ => rfl

theorem writer_run_view (ops : List PtrOp) : ∀ (heap : Heap Header) (w : PtrWriter),
    (∀ pre a h post, ops = pre ++ .set a h :: post → a ∉ PtrWriter.openHeaders (w.run heap pre).2.2) →
    (PtrWriter.view heap w).run (headerValues heap ops) = ((w.run heap ops).1, PtrWriter.view (w.run heap ops).2.1 (w.run heap ops).2.2) := by
  induction ops with
  | nil => intro heap w _; rfl
  | cons o ops ih =>
    intro heap w hc
    have step : ∀ (heap' : Heap Header) (w' : PtrWriter), (∀ pre, (w.run heap (o :: pre)).2.2 = (w'.run heap' pre).2.2) →
        (∀ pre a h post, ops = pre ++ .set a h :: post → a ∉ PtrWriter.openHeaders (w'.run heap' pre).2.2) := by
      intro heap' w' he pre a h post hp
      rw [← he pre]
      exact hc (o :: pre) a h post (by rw [hp]; rfl)
    cases o with
    | set a h =>
      have := ih (heap.set a h) w (step _ _ (fun _ => rfl))
      rw [writer_view_set (w := w) (hc [] a h ops rfl)] at this
      exact this
    | header a =>
      have := ih heap (w.writeHeader heap a).2 (step _ _ (fun _ => rfl))
      simp only [headerValues, Writer.run, Writer.op, PtrWriter.run, writeHeader_view, this]
    | write p =>
      have := ih heap (w.write p).2 (step _ _ (fun _ => rfl))
      simp only [headerValues, Writer.run, Writer.op, PtrWriter.run, write_view, this]
    | close =>
      have := ih heap w.close.2 (step _ _ (fun _ => rfl))
      simp only [headerValues, Writer.run, Writer.op, PtrWriter.run, close_view, this]

/-- C116: for a program that modifies only headers of nodes that are no longer open, the writer behaves as the one that
copies the headers: the calls return the same and the same is written. -/
theorem C116_open (heap : Heap Header) (w : PtrWriter) (v : Writer) (s s' : Sink) (ops : List PtrOp)
    (hw : newPtrWriter s = (.ok w, s')) (hv : newWriter s = (.ok v, s'))
    (hn : ∀ pre a h post, ops = pre ++ .set a h :: post → a ∉ PtrWriter.openHeaders (w.run heap pre).2.2) :
    (w.run heap ops).1 = (v.run (headerValues heap ops)).1 ∧
      (w.run heap ops).2.2.st.sink = (v.run (headerValues heap ops)).2.st.sink := by
  have e : PtrWriter.view heap w = v := by
    unfold newPtrWriter at hw
    unfold newWriter at hv
    rcases hs : writeString narVersionMagic1 s with ⟨r, s1⟩
    rw [hs] at hw hv
    cases r with
    | ok u =>
      simp only [Prod.mk.injEq, Res.ok.injEq] at hw hv
      rw [← hw.1, ← hv.1]
      rfl
    | err e => simp at hw
    | panic => simp at hw
  have := writer_run_view ops heap w hn
  rw [e] at this
  rw [this]
  exact ⟨rfl, rfl⟩

theorem descendPtr_mem (heap : Heap Header) (a : Addr) : ∀ stack s s' stack', descendPtr heap a stack s = (.ok stack', s') →
    ∃ rest, stack' = a :: rest ∧ ∀ b ∈ rest, b ∈ stack
  | [], s, s', stack', h => by simp [descendPtr, M.fail] at h
  | cur :: rest, s, s', stack', h => by
    unfold descendPtr at h
    obtain ⟨p, s1, h1, h2⟩ := M.bind_eq_ok.1 h
    cases p with
    | none =>
      obtain ⟨_, s2, _, h3⟩ := M.bind_eq_ok.1 h2
      split at h3
      · simp [M.fail] at h3
      · obtain ⟨_, s3, _, h4⟩ := M.bind_eq_ok.1 h3
        obtain ⟨r, e, hr⟩ := descendPtr_mem heap a rest _ _ _ h4
        exact ⟨r, e, fun b hb => List.mem_cons_of_mem _ (hr b hb)⟩
    | some name =>
      obtain ⟨_, s2, _, h3⟩ := M.bind_eq_ok.1 h2
      obtain ⟨_, s3, _, h4⟩ := M.bind_eq_ok.1 h3
      simp only [pure, Prod.mk.injEq, Res.ok.injEq] at h4
      exact ⟨_, h4.1.symm, fun _ h => h⟩

/-- after a successful `WriteHeader` the header is the innermost one -/
theorem writeHeader_open {heap : Heap Header} {a : Addr} {w : PtrWriter} (h : (w.writeHeader heap a).1 = .ok ()) :
    ∃ rest, (w.writeHeader heap a).2.phase = .running (a :: rest) ∧ (w.writeHeader heap a).2.closed = false ∧
      ∀ b ∈ rest, b ∈ PtrWriter.openHeaders w := by
  unfold PtrWriter.writeHeader at h ⊢
  cases hv : (heap a).validate with
  | err e => rw [hv] at h; simp at h
  | panic => rw [hv] at h; simp at h
  | ok u =>
    rw [hv] at h
    simp only at h ⊢
    by_cases hc : w.closed = true
    · rw [if_pos hc] at h; simp at h
    · rw [if_neg hc] at h ⊢
      by_cases he : w.phase = .ended
      · rw [if_pos he] at h; simp at h
      · rw [if_neg he] at h ⊢
        rcases hr : emitHeaderPtr heap a w.phase w.st with ⟨r, st⟩
        rw [hr] at h
        cases r with
        | err e => simp at h
        | panic => simp at h
        | ok stack =>
          simp only [PtrPhase.running.injEq]
          have : ∃ rest, stack = a :: rest ∧ ∀ b ∈ rest, b ∈ PtrWriter.openHeaders w := by
            cases hp : w.phase with
            | start =>
              rw [hp] at hr
              unfold emitHeaderPtr at hr
              simp only at hr
              split at hr
              · simp [M.fail] at hr
              · obtain ⟨_, s1, _, h2⟩ := M.bind_eq_ok.1 hr
                simp only [pure, Prod.mk.injEq, Res.ok.injEq] at h2
                exact ⟨[], h2.1.symm, by simp⟩
            | running st0 =>
              rw [hp] at hr
              unfold emitHeaderPtr at hr
              simp only at hr
              obtain ⟨_, s1, _, h2⟩ := M.bind_eq_ok.1 hr
              have := descendPtr_mem heap a st0 _ _ _ h2
              unfold PtrWriter.openHeaders
              rw [hp]
              exact this
            | ended => exact absurd hp he
          obtain ⟨rest, e, hm⟩ := this
          exact ⟨rest, e, by simpa using hc, hm⟩

theorem open_writeHeader {heap : Heap Header} {a b : Addr} {w : PtrWriter}
    (h : b ∈ PtrWriter.openHeaders (w.writeHeader heap a).2) : b = a ∨ b ∈ PtrWriter.openHeaders w := by
  by_cases hok : (w.writeHeader heap a).1 = .ok ()
  · obtain ⟨rest, h1, _, h3⟩ := writeHeader_open hok
    unfold PtrWriter.openHeaders at h
    rw [h1] at h
    rcases List.mem_cons.1 h with h | h
    · exact .inl h
    · exact .inr (h3 b h)
  · refine .inr ?_
    unfold PtrWriter.writeHeader at h hok
    cases hv : (heap a).validate with
    | err e => rw [hv] at h; exact h
    | panic => rw [hv] at h; exact h
    | ok u =>
      rw [hv] at h hok
      simp only at h hok
      by_cases hc : w.closed = true
      · rw [if_pos hc] at h; exact h
      · rw [if_neg hc] at h hok
        by_cases he : w.phase = .ended
        · rw [if_pos he] at h; exact h
        · rw [if_neg he] at h hok
          rcases hr : emitHeaderPtr heap a w.phase w.st with ⟨r, st⟩
          rw [hr] at h hok
          cases r with
          | err e => simp [PtrWriter.openHeaders] at h
          | panic => simp [PtrWriter.openHeaders] at h
          | ok stack => simp at hok

theorem write_phase (w : PtrWriter) (p : Bytes) : (w.write p).2.phase = w.phase ∧ (w.write p).2.closed = w.closed := by
  unfold PtrWriter.write
  cases w.st.cw with
  | none => exact ⟨rfl, rfl⟩
  | some c =>
    simp only
    split <;> exact ⟨rfl, rfl⟩

theorem open_close {b : Addr} {w : PtrWriter} (h : b ∈ PtrWriter.openHeaders w.close.2) : b ∈ PtrWriter.openHeaders w := by
  unfold PtrWriter.close at h
  split at h
  · exact h
  · rcases hr : emitClosePtr w.phase w.st with ⟨r, st⟩
    rw [hr] at h
    cases r <;> simp [PtrWriter.openHeaders] at h

theorem open_run (ops : List PtrOp) : ∀ (heap : Heap Header) (w : PtrWriter) (b : Addr),
    b ∈ PtrWriter.openHeaders (w.run heap ops).2.2 → PtrOp.header b ∈ ops ∨ b ∈ PtrWriter.openHeaders w := by
  induction ops with
  | nil => intro heap w b h; exact .inr h
  | cons o ops ih =>
    intro heap w b h
    cases o with
    | set a x =>
      rcases ih (heap.set a x) w b h with h | h
      · exact .inl (List.mem_cons_of_mem _ h)
      · exact .inr h
    | header a =>
      rcases ih heap _ b h with h | h
      · exact .inl (List.mem_cons_of_mem _ h)
      · rcases open_writeHeader h with h | h
        · rw [h]; exact .inl List.mem_cons_self
        · exact .inr h
    | write p =>
      rcases ih heap _ b h with h | h
      · exact .inl (List.mem_cons_of_mem _ h)
      · unfold PtrWriter.openHeaders at h ⊢
        rw [(write_phase w p).1] at h
        exact .inr h
    | close =>
      rcases ih heap _ b h with h | h
      · exact .inl (List.mem_cons_of_mem _ h)
      · exact .inr (open_close h)

/-- C116: for a program that never modifies a header after it passed it to `WriteHeader`, the writer behaves as the one
that copies the headers. -/
theorem C116_values (heap : Heap Header) (w : PtrWriter) (v : Writer) (s s' : Sink) (ops : List PtrOp)
    (hw : newPtrWriter s = (.ok w, s')) (hv : newWriter s = (.ok v, s'))
    (hn : ∀ pre a h post, ops = pre ++ .set a h :: post → PtrOp.header a ∉ pre) :
    (w.run heap ops).1 = (v.run (headerValues heap ops)).1 ∧
      (w.run heap ops).2.2.st.sink = (v.run (headerValues heap ops)).2.st.sink := by
  apply C116_open heap w v s s' ops hw hv
  intro pre a h post he hm
  rcases open_run pre heap w a hm with h1 | h1
  · exact hn pre a h post he h1
  · unfold newPtrWriter at hw
    rcases hs : writeString narVersionMagic1 s with ⟨r, s1⟩
    rw [hs] at hw
    cases r with
    | ok u =>
      simp only [Prod.mk.injEq, Res.ok.injEq] at hw
      rw [← hw.1] at h1
      simp [PtrWriter.openHeaders] at h1
    | err e => simp at hw
    | panic => simp at hw

/-! ### a header that is used again -/

theorem stripCommon_self : ∀ l : List Bytes, stripCommon l l = ([], [])
  | [] => rfl
  | x :: l => by simp [stripCommon, stripCommon_self l]

/-- a header is placed below itself, with the name `.` -/
theorem place_self {h : Header} (hv : h.validate = .ok ()) :
    place h h = if h.typ = b!"directory" then .ok (some b!".") else .err (.msg "received descending path") := by
  have hp : h.path.head? = some 47 := by
    unfold Header.validate at hv
    split at hv
    · simp at hv
    · rename_i hn
      cases hh : h.path with
      | nil => rw [hh] at hn; simp at hn
      | cons x xs =>
        rw [hh] at hn
        simp at hn
        simp [hn]
  unfold place
  have ho : pathIsLexicographicallyOrdered h.path h.path = true := by
    unfold pathIsLexicographicallyOrdered
    rw [if_pos (strLe_refl h.path)]
  have hr : rel h.path h.path = .ok b!"." := by
    unfold rel
    rw [if_pos ⟨hp, hp⟩, stripCommon_self]
    rfl
  rw [ho, hr]
  simp only [Bool.not_true, Bool.false_eq_true, if_false]
  rw [if_neg (by decide)]
  unfold typeDirectory
  by_cases hd : h.typ = b!"directory"
  · rw [if_neg (by simp [hd]), if_pos hd, if_neg (by decide +kernel)]
  · rw [if_pos hd, if_neg hd]

/-- A computation that, when it succeeds, has written `p`. -/
def Appends (m : M WState Unit) (p : Bytes) : Prop := ∀ s s', m s = (.ok (), s') → s'.sink.out = s.sink.out ++ p

theorem appends_wr (b : Bytes) : Appends (wr (writeString b)) (Verif.Spec.str b) := by
  intro s s' h
  unfold wr at h
  obtain ⟨h1, h2⟩ := emits_writeString b s.sink
  simp only [Prod.mk.injEq] at h
  rw [← h.2]
  cases hb : s.sink.budget with
  | none => rw [h1 hb, str_eq]
  | some k =>
    have := h2 k hb
    split at this
    · rw [this, str_eq]
    · rw [this] at h; simp at h

theorem appends_bind {m m' : M WState Unit} {p q : Bytes} (h : Appends m p) (h' : Appends m' q) : Appends (do m; m') (p ++ q) := by
  intro s s' hs
  obtain ⟨_, s1, h1, h2⟩ := M.bind_eq_ok.1 hs
  rw [h' _ _ h2, h _ _ h1, List.append_assoc]

theorem appends_entryStart (n : Bytes) : Appends (entryStart n)
    (Verif.Spec.str b!"entry" ++ (Verif.Spec.str b!"(" ++ (Verif.Spec.str b!"name" ++ (Verif.Spec.str n ++ Verif.Spec.str b!"node")))) :=
  appends_bind (appends_wr _) (appends_bind (appends_wr _) (appends_bind (appends_wr _) (appends_bind (appends_wr _) (appends_wr _))))

theorem appends_emitStart {h : Header} (hd : h.typ = b!"directory") : Appends (emitStart h)
    (Verif.Spec.str b!"(" ++ (Verif.Spec.str b!"type" ++ (Verif.Spec.str b!"directory" ++ []))) := by
  unfold emitStart
  refine appends_bind (appends_wr _) (appends_bind (appends_wr _) (appends_bind (by rw [hd]; exact appends_wr _) ?_))
  have h1 : ¬ h.typ = typeRegular := by rw [hd]; decide
  have h2 : ¬ h.typ = typeSymlink := by rw [hd]; decide
  rw [if_neg h1, if_neg h2, if_pos (show h.typ = typeDirectory from hd)]
  intro s s' hs
  simp only [setDummyWriter, Prod.mk.injEq] at hs
  rw [← hs.2]
  simp

theorem run_writes {heap : Heap Header} (ops : List PtrOp) (hw : ∀ o ∈ ops, ∃ p, o = .write p) : ∀ w : PtrWriter,
    (w.run heap ops).2.1 = heap ∧ (w.run heap ops).2.2.phase = w.phase ∧ (w.run heap ops).2.2.closed = w.closed := by
  induction ops with
  | nil => intro w; exact ⟨rfl, rfl, rfl⟩
  | cons o ops ih =>
    intro w
    obtain ⟨p, rfl⟩ := hw o List.mem_cons_self
    obtain ⟨h1, h2, h3⟩ := ih (fun o ho => hw o (List.mem_cons_of_mem _ ho)) (w.write p).2
    exact ⟨h1, h2.trans (write_phase w p).1, h3.trans (write_phase w p).2⟩

/-- C116: a program that passes the same `*Header` to `WriteHeader` again, with new contents, describes nothing below or
beside the node: the call fails unless the new header is a directory, and then an entry with the name `.` is written,
whatever its path. The program wrote the header `a`, then contents, changed the header to `h` and passed it again; `w` is any
state of a writer. -/
theorem C116_reuse (heap : Heap Header) (w : PtrWriter) (a : Addr) (ws : List PtrOp) (h : Header)
    (h1 : (w.writeHeader heap a).1 = .ok ()) (hw : ∀ o ∈ ws, ∃ p, o = .write p) :
    let w1 := ((w.writeHeader heap a).2.run heap ws).2.2
    let r := w1.writeHeader (heap.set a h) a
    (h.typ ≠ b!"directory" → r.1 ≠ .ok ()) ∧
    (r.1 = .ok () → ∃ before, r.2.st.sink.out = before ++ (Verif.Spec.str b!"entry" ++ Verif.Spec.str b!"(" ++ Verif.Spec.str b!"name" ++
      Verif.Spec.str b!"." ++ Verif.Spec.str b!"node" ++ Verif.Spec.str b!"(" ++ Verif.Spec.str b!"type" ++ Verif.Spec.str b!"directory")) := by
  obtain ⟨rest, hp, hc, _⟩ := writeHeader_open h1
  obtain ⟨_, hp1, hc1⟩ := run_writes (heap := heap) ws hw (w.writeHeader heap a).2
  rw [hp] at hp1
  rw [hc] at hc1
  simp only
  generalize ((w.writeHeader heap a).2.run heap ws).2.2 = w1 at hp1 hc1
  have hh : heap.set a h a = h := by simp [Heap.set]
  have key : (w1.writeHeader (heap.set a h) a).1 = .ok () → h.typ = b!"directory" ∧
      ∃ before, (w1.writeHeader (heap.set a h) a).2.st.sink.out = before ++
        ((Verif.Spec.str b!"entry" ++ (Verif.Spec.str b!"(" ++ (Verif.Spec.str b!"name" ++ (Verif.Spec.str b!"." ++ Verif.Spec.str b!"node")))) ++
        (Verif.Spec.str b!"(" ++ (Verif.Spec.str b!"type" ++ (Verif.Spec.str b!"directory" ++ [])))) := by
    unfold PtrWriter.writeHeader
    rw [hh]
    cases hv : h.validate with
    | err e => simp
    | panic => simp
    | ok u =>
      simp only
      rw [hc1, if_neg (by simp), hp1, if_neg (by simp)]
      rcases hr : emitHeaderPtr (heap.set a h) a (.running (a :: rest)) w1.st with ⟨r, st⟩
      cases r with
      | err e => simp
      | panic => simp
      | ok stack =>
        intro _
        unfold emitHeaderPtr at hr
        simp only at hr
        obtain ⟨_, s1, _, h2⟩ := M.bind_eq_ok.1 hr
        unfold descendPtr at h2
        obtain ⟨p, s2, h3, h4⟩ := M.bind_eq_ok.1 h2
        unfold ret at h3
        rw [hh, place_self hv] at h3
        by_cases hd : h.typ = b!"directory"
        · refine ⟨hd, s2.sink.out, ?_⟩
          rw [if_pos hd] at h3
          simp only [Prod.mk.injEq, Res.ok.injEq] at h3
          rw [← h3.1] at h4
          simp only at h4
          obtain ⟨_, s3, h5, h6⟩ := M.bind_eq_ok.1 h4
          obtain ⟨_, s4, h7, h8⟩ := M.bind_eq_ok.1 h6
          rw [hh] at h7
          simp only [pure, Prod.mk.injEq] at h8
          rw [← h8.2, appends_emitStart hd _ _ h7, appends_entryStart _ _ _ h5]
          simp only [List.append_assoc]
        · rw [if_neg hd] at h3
          simp at h3
  refine ⟨fun hd hok => hd (key hok).1, fun hok => ?_⟩
  obtain ⟨b, hb⟩ := (key hok).2
  refine ⟨b, ?_⟩
  rw [hb]
  simp only [List.append_assoc, List.append_nil]

/-- C116 is false in general: a program that reuses the header of the root directory for a directory `/x`, with every
call successful, and what it wrote: the directory has an entry `.` and none with the name `x`. -/
theorem C116_refuted : ∃ (w : PtrWriter) (s' : Sink) (r : List WOut × Heap Header × PtrWriter),
    newPtrWriter ⟨[], none⟩ = (.ok w, s') ∧
    r = w.run (fun _ => ⟨b!"/", b!"directory", [], 0, false⟩) [.header 0, .set 0 ⟨b!"/x", b!"directory", [], 0, false⟩, .header 0, .close] ∧
    r.1 = [.unit (.ok ()), .unit (.ok ()), .unit (.ok ())] ∧
    r.2.2.st.sink.out = Verif.Spec.Tree.nar (.directory (.cons b!"." (.directory .nil) .nil)) := by
  refine ⟨_, _, _, rfl, rfl, ?_, ?_⟩ <;> decide +kernel

/-- a program that uses one header for each node, and changes the one of a node that is closed -/
example : ∃ (w : PtrWriter) (s' : Sink), newPtrWriter ⟨[], none⟩ = (.ok w, s') ∧
    (∀ pre a h post, [PtrOp.set 0 ⟨b!"/", b!"directory", [], 0, false⟩, .header 0, .set 1 ⟨b!"/x", b!"regular", [], 1, false⟩, .header 1,
      .write b!"y", .close] = pre ++ .set a h :: post → PtrOp.header a ∉ pre) ∧
    ((w.run (fun _ => ⟨[], [], [], 0, false⟩) [PtrOp.set 0 ⟨b!"/", b!"directory", [], 0, false⟩, .header 0,
      .set 1 ⟨b!"/x", b!"regular", [], 1, false⟩, .header 1, .write b!"y", .close]).2.2.st.sink.out =
        Verif.Spec.Tree.nar (.directory (.cons b!"x" (.regular false b!"y") .nil))) := by
  refine ⟨_, _, rfl, ?_, by decide +kernel⟩
  intro pre a h post e
  match pre with
  | [] => simp
  | [x] => simp at e
  | [x, y] =>
    simp only [List.cons_append, List.nil_append, List.cons.injEq, PtrOp.set.injEq] at e
    obtain ⟨rfl, rfl, ⟨rfl, rfl⟩, _⟩ := e
    simp
  | [x, y, z] => simp at e
  | [x, y, z, u] => simp at e
  | [x, y, z, u, v] => simp at e
  | x :: y :: z :: u :: v :: t :: r => simp at e

/-- the hypotheses of `C116_reuse` for a first header of a new writer, and both outcomes -/
example : ∃ (w : PtrWriter) (s' : Sink), newPtrWriter ⟨[], none⟩ = (.ok w, s') ∧
    (w.writeHeader (fun _ => ⟨b!"/", b!"directory", [], 0, false⟩) 0).1 = .ok () ∧
    (((w.writeHeader (fun _ => ⟨b!"/", b!"directory", [], 0, false⟩) 0).2.writeHeader
      (Heap.set (fun _ => ⟨b!"/", b!"directory", [], 0, false⟩) 0 ⟨b!"/x", b!"regular", [], 0, false⟩) 0).1 = .err (.msg "received descending path")) ∧
    (((w.writeHeader (fun _ => ⟨b!"/", b!"directory", [], 0, false⟩) 0).2.writeHeader
      (Heap.set (fun _ => ⟨b!"/", b!"directory", [], 0, false⟩) 0 ⟨b!"/x", b!"directory", [], 0, false⟩) 0).1 = .ok ()) := by
  refine ⟨_, _, rfl, ?_, ?_, ?_⟩ <;> decide +kernel

end Verif.Props
