import Verif.Spec.NarWriterCalls
import Verif.Lemmas.NarWriterCalm

/-!
# Which calls on a `nar.Writer` return (C131), and `DumpPath` always does (C132)
-/

namespace Verif.Props
open Verif.Nar Verif.Conc Verif.GoLib Verif.Wire Verif.Spec

/-- What is known of a writer after these calls have returned. -/
structure After (w : Writer) (ops : List WOp) (results : List WOut) : Prop extends Fit w where
  isClosed : w.closed = true ↔ .close ∈ ops
  ended : w.phase = .ended ↔ .close ∈ ops ∨ Failed ops results
  content : Begun ops results → ¬ Failed ops results → w.st.cw ≠ none
  begun : ¬ Begun ops results → ∀ stack, w.phase ≠ .running stack

theorem After.op {w : Writer} {ops : List WOp} {results : List WOut} (hlen : ops.length = results.length) (ha : After w ops results)
    (o : WOp) (hk : ∀ h, o = .header h → NarType h) (hr : (w.op o).1.ends = none) :
    After (w.op o).2 (ops ++ [o]) (results ++ [(w.op o).1]) := by
  have hz : (ops ++ [o]).zip (results ++ [(w.op o).1]) = ops.zip results ++ [(o, (w.op o).1)] := by
    rw [List.zip_append hlen]; rfl
  have hB : Begun (ops ++ [o]) (results ++ [(w.op o).1]) ↔ Begun ops results ∨ ∃ h, o = .header h ∧ (w.op o).1 = .unit (.ok ()) := by
    unfold Begun
    simp only [hz, List.mem_append, List.mem_singleton, Prod.mk.injEq, exists_or]
    refine or_congr Iff.rfl ⟨fun ⟨h, a, b⟩ => ⟨h, a.symm, b.symm⟩, fun ⟨h, a, b⟩ => ⟨h, a.symm, b.symm⟩⟩
  have hF : Failed (ops ++ [o]) (results ++ [(w.op o).1]) ↔
      Failed ops results ∨ ∃ h e, o = .header h ∧ (w.op o).1 = .unit (.err e) ∧ h.validate = .ok () := by
    unfold Failed
    simp only [hz, List.mem_append, List.mem_singleton, Prod.mk.injEq, or_and_right, exists_or]
    refine or_congr Iff.rfl ⟨fun ⟨h, e, ⟨a, b⟩, c⟩ => ⟨h, e, a.symm, b.symm, c⟩, fun ⟨h, e, a, b, c⟩ => ⟨h, e, ⟨a.symm, b.symm⟩, c⟩⟩
  cases o with
  | write p =>
    simp only [reduceCtorEq, false_and, exists_false, or_false] at hB hF
    simp only [Writer.op, contentWrite_eq] at hB hF hr ⊢
    have hcw : w.st.cw ≠ none → (contentWrite w.st p).2.cw ≠ none := by
      intro h
      simp only [contentWrite, Writer.write]
      split
      · exact absurd ‹_› h
      · split <;> exact nofun
    refine ⟨⟨ha.closed, fun st h => hcw (ha.cw st h)⟩, ?_, ?_, ?_, ?_⟩
    · simp [ha.isClosed]
    · rw [hF]; simp [ha.ended]
    · rw [hB, hF]; exact fun a b => hcw (ha.content a b)
    · rw [hB]; exact ha.begun
  | close =>
    simp only [reduceCtorEq, false_and, exists_false, or_false] at hB hF
    simp only [Writer.op] at hB hF hr ⊢
    have hcl : w.close.2.phase = .ended ∧ w.close.2.closed = true ∧ (w.st.cw ≠ none → w.close.2.st.cw ≠ none) := by
      unfold Writer.close
      cases hc : w.closed with
      | true => exact ⟨ha.closed hc, hc, id⟩
      | false =>
        have hcw : w.st.cw ≠ none → (emitClose w.phase w.st).2.cw ≠ none := by
          intro h
          cases hph : w.phase with
          | start => exact h
          | ended => exact h
          | running stack =>
            show ((contentClose >>= fun _ => unwind stack) w.st).2.cw ≠ none
            obtain ⟨h1, h2⟩ := contentClose_calm w.st h
            rcases hcc : contentClose w.st with ⟨a | e | _, s'⟩
            · rw [M.bind_ok hcc]
              rw [hcc] at h2
              rw [unwind_cw]; exact h2
            · rw [M.bind_err hcc]; rw [hcc] at h2; exact h2
            · rw [hcc] at h1; exact absurd rfl h1
        simp only [Bool.false_eq_true, if_false]
        split
        all_goals
          rename_i he
          rw [he] at hcw
          exact ⟨rfl, rfl, hcw⟩
    refine ⟨⟨fun _ => hcl.1, fun st h => ?_⟩, ?_, ?_, ?_, ?_⟩
    · rw [hcl.1] at h; cases h
    · simp [hcl.2.1]
    · simp [hcl.1]
    · rw [hB, hF]; exact fun a b => hcl.2.2 (ha.content a b)
    · intro _ st; rw [hcl.1]; exact nofun
  | header h =>
    simp only [WOp.header.injEq, exists_eq_left'] at hB hF
    simp only [Writer.op] at hB hF hr ⊢
    rcases writeHeader_cases h (hk h rfl) w ha.toFit with ⟨hv, e, he⟩ | ⟨_, _, he⟩ | ⟨_, _, _, he⟩ |
      ⟨hv, hc, hp, ⟨st, stack, hcw, he⟩ | ⟨st, e, he⟩⟩
    · rw [he] at hB hF ⊢
      simp only [WOut.unit.injEq, reduceCtorEq, and_false, exists_false, or_false] at hB
      replace hF : Failed (ops ++ [WOp.header h]) (results ++ [WOut.unit (.err e)]) ↔ Failed ops results := by
        rw [hF]
        refine or_iff_left ?_
        rintro ⟨h', _, rfl, _, h2⟩
        exact hv h2
      refine ⟨⟨ha.closed, ha.cw⟩, ?_, ?_, ?_, ?_⟩
      · simp [ha.isClosed]
      · rw [hF]; simp [ha.ended]
      · rw [hB, hF]; exact ha.content
      · rw [hB]; exact ha.begun
    · rw [he] at hr; cases hr
    · rw [he] at hr; cases hr
    · rw [he] at hB hF ⊢
      have hno : .close ∉ ops ∧ ¬ Failed ops results := by
        have := mt ha.ended.2 hp
        exact ⟨fun h => this (.inl h), fun h => this (.inr h)⟩
      simp only [WOut.unit.injEq, Call.err.injEq, reduceCtorEq, false_and, and_false, exists_false, or_false] at hF
      refine ⟨⟨nofun, fun _ _ => hcw⟩, ?_, ?_, fun _ _ => hcw, fun h => absurd (hB.2 (.inr rfl)) h⟩
      · simp [hno.1]
      · rw [hF]; simp [hno.1, hno.2]
    · rw [he] at hB hF ⊢
      have hno : .close ∉ ops ∧ ¬ Failed ops results := by
        have := mt ha.ended.2 hp
        exact ⟨fun h => this (.inl h), fun h => this (.inr h)⟩
      have hfl : Failed (ops ++ [WOp.header h]) (results ++ [WOut.unit (.err e)]) := hF.2 (.inr ⟨h, e, rfl, rfl, hv⟩)
      refine ⟨⟨nofun, nofun⟩, ?_, ?_, fun _ h => absurd hfl h, fun _ _ => nofun⟩
      · simp [hno.1]
      · simp [hfl]

theorem runW_append (w : Writer) (a b : List WOp) :
    w.run (a ++ b) = ((w.run a).1 ++ ((w.run a).2.run b).1, ((w.run a).2.run b).2) := by
  induction a generalizing w with
  | nil => rfl
  | cons o a ih => simp only [List.cons_append, run_consW, ih]

theorem after_run {s s' : Sink} {w : Writer} (hw : newWriter s = (.ok w, s')) (ops : List WOp) (hk : Known ops)
    (hr : Returned (w.run ops).1) : After (w.run ops).2 ops (w.run ops).1 := by
  have hw' : w = ⟨w.st, .start, false⟩ := by
    unfold newWriter at hw
    split at hw <;> cases hw
    rfl
  have key : ∀ n, n ≤ ops.length → After (w.run (ops.take n)).2 (ops.take n) (w.run (ops.take n)).1 := by
    intro n
    induction n with
    | zero =>
      intro _
      rw [hw']
      refine ⟨⟨nofun, nofun⟩, ?_, ?_, ?_, fun _ _ => nofun⟩
      · simp [Writer.run]
      · simp [Writer.run, Failed]
      · rintro ⟨h, hm⟩; simp at hm
    | succ n ih =>
      intro hn
      have h := ih (by omega)
      have he : ops.take (n + 1) = ops.take n ++ [ops[n]] := by rw [List.take_append_getElem]
      rw [he, runW_append]
      refine After.op (by rw [run_length]) h _ (fun hd hh => hk hd (hh ▸ List.getElem_mem _)) ?_
      refine hr _ ?_
      have e2 : ops = ops.take n ++ ops[n] :: ops.drop (n + 1) := by
        rw [← List.singleton_append, ← List.append_assoc, List.take_append_getElem, List.take_append_drop]
      have e3 : (w.run ops).1 = (w.run (ops.take n)).1 ++ ((w.run (ops.take n)).2.run (ops[n] :: ops.drop (n + 1))).1 := by
        conv => lhs; rw [e2, runW_append]
      rw [e3, run_consW]
      simp
  have := key ops.length (Nat.le_refl _)
  rwa [List.take_length] at this

/-- C131: some calls on a `Writer` have returned, with headers of the three types. Then the next call returns as well, but in the
following cases, exactly: `WriteHeader` with a header that passes `Validate` panics after `Close`, and blocks for ever after an
earlier such call failed. `Write` can panic only if no `WriteHeader` succeeded before, or one failed. `Close` returns always. -/
theorem C131_next (s s' : Sink) (w : Writer) (hw : newWriter s = (.ok w, s')) (ops : List WOp) (hk : Known ops)
    (hr : Returned (w.run ops).1) (o : WOp) (ho : Known [o]) :
    (o = .close → ((w.run ops).2.op o).1.ends = none) ∧
    (∀ h, o = .header h → (((w.run ops).2.op o).1.ends = some .panicked ↔ h.validate = .ok () ∧ .close ∈ ops)) ∧
    (∀ p, o = .write p → ((w.run ops).2.op o).1.ends = some .panicked → ¬ Begun ops (w.run ops).1 ∨ Failed ops (w.run ops).1) ∧
    (((w.run ops).2.op o).1.ends = some .blocked ↔
      ∃ h, o = .header h ∧ h.validate = .ok () ∧ .close ∉ ops ∧ Failed ops (w.run ops).1) := by
  have ha := after_run hw ops hk hr
  generalize (w.run ops).2 = v at *
  generalize (w.run ops).1 = results at *
  cases o with
  | close =>
    have hn : (v.op .close).1.ends = none := by
      simp only [Writer.op, Writer.close]
      have h1 := emitClose_calm v ha.toFit
      cases hc : v.closed with
      | true => rfl
      | false =>
        simp only [Bool.false_eq_true, if_false]
        split
        · rfl
        · rfl
        · rename_i he; rw [he] at h1; exact absurd rfl h1
    rw [hn]
    refine ⟨fun _ => rfl, nofun, nofun, ?_⟩
    simp
  | write p =>
    have hb : (v.op (.write p)).1.ends ≠ some .blocked := by
      simp only [Writer.op]
      rcases write_noblock v p with ⟨r, h⟩ | h <;> rw [h] <;> exact nofun
    refine ⟨nofun, nofun, fun p' hp' hpan => ?_, ?_⟩
    · cases hp'
      by_cases hB : Begun ops results
      · by_cases hF : Failed ops results
        · exact .inr hF
        · exfalso
          have hcw := ha.content hB hF
          simp only [Writer.op, Writer.write] at hpan
          split at hpan
          · exact hcw ‹_›
          · split at hpan <;> cases hpan
      · exact .inl hB
    · constructor
      · exact fun h => absurd h hb
      · rintro ⟨h, hh, _⟩; cases hh
  | header h =>
    have hkt := ho h (List.mem_singleton.2 rfl)
    rcases writeHeader_cases h hkt v ha.toFit with ⟨hv, e, he⟩ | ⟨hv, hc, he⟩ | ⟨hv, hc, hp, he⟩ |
      ⟨hv, hc, hp, ⟨st, stack, hcw, he⟩ | ⟨st, e, he⟩⟩
    · simp [Writer.op, he, WOut.ends, hv]
    · simp [Writer.op, he, WOut.ends, hv, ha.isClosed.1 hc]
    · have hno : .close ∉ ops := fun h => by rw [ha.isClosed.2 h] at hc; cases hc
      have hF : Failed ops results := (ha.ended.1 hp).resolve_left hno
      simp [Writer.op, he, WOut.ends, hv, hno, hF]
    · have hno : .close ∉ ops := fun h => by rw [ha.isClosed.2 h] at hc; cases hc
      have hF : ¬ Failed ops results := fun h => hp (ha.ended.2 (.inr h))
      simp [Writer.op, he, WOut.ends, hno, hF]
    · have hno : .close ∉ ops := fun h => by rw [ha.isClosed.2 h] at hc; cases hc
      have hF : ¬ Failed ops results := fun h => hp (ha.ended.2 (.inr h))
      simp [Writer.op, he, WOut.ends, hno, hF]

/-- A writer on which `WriteHeader` can be called. -/
structure CanWrite (w : Writer) : Prop extends Fit w where
  notEnded : w.phase ≠ .ended

/-- Something was done with the writer `w` that amounts to these calls, all of which returned; it returned as well, and if without error, one
can go on. -/
structure Did {α : Type} (w : Writer) (r : Call α × Writer) : Prop where
  returns : r.1 ≠ .panic ∧ r.1 ≠ .block
  fit : Fit r.2
  ready : ∀ a, r.1 = .ok a → CanWrite r.2
  calls : ∃ ops, Known ops ∧ .close ∉ ops ∧ Returned (w.run ops).1 ∧ (w.run ops).2 = r.2

theorem did_ok {w : Writer} (hw : CanWrite w) {α : Type} (a : α) : Did w (.ok a, w) :=
  ⟨⟨nofun, nofun⟩, hw.toFit, fun _ _ => hw, [], nofun, nofun, nofun, rfl⟩

theorem did_err {w : Writer} (hw : CanWrite w) {α : Type} (e : Err) : Did w ((.err e, w) : Call α × Writer) :=
  ⟨⟨nofun, nofun⟩, hw.toFit, nofun, [], nofun, nofun, nofun, rfl⟩

theorem did_andThen {α β : Type} {w : Writer} {r : Call α × Writer} {f : α → Writer → Call β × Writer} (hr : Did w r)
    (hf : ∀ a, r.1 = .ok a → Did r.2 (f a r.2)) : Did w (andThen r f) := by
  obtain ⟨⟨h1, h2⟩, h3, h4, ops, h5, h6, h7, h8⟩ := hr
  obtain ⟨c, v⟩ := r
  cases c with
  | ok a =>
    obtain ⟨k1, k3, k4, ops', k5, k6, k7, k8⟩ := hf a rfl
    refine ⟨k1, k3, k4, ops ++ ops', ?_, ?_, ?_, ?_⟩
    · intro h hh
      exact (List.mem_append.1 hh).elim (h5 h) (k5 h)
    · exact fun h => (List.mem_append.1 h).elim h6 k6
    · rw [runW_append]
      intro x hx
      simp only [] at h8 k7
      rw [← h8] at k7
      exact (List.mem_append.1 hx).elim (h7 x) (k7 x)
    · rw [runW_append]
      simp only [] at h8 k8
      rw [← h8] at k8
      show ((w.run ops).2.run ops').2 = (f a v).2
      rw [← h8]
      exact k8
  | err e => exact ⟨⟨nofun, nofun⟩, h3, nofun, ops, h5, h6, h7, h8⟩
  | panic => exact absurd rfl h1
  | block => exact absurd rfl h2

theorem did_header {w : Writer} (hw : CanWrite w) (h : Header) (hk : NarType h) :
    Did w (w.writeHeader h) ∧ ((w.writeHeader h).1 = .ok () → (w.writeHeader h).2.st.cw ≠ none) := by
  have hops : Known [.header h] := fun h' hh => by
    simp only [List.mem_singleton, WOp.header.injEq] at hh
    exact hh ▸ hk
  have hrun : w.run [.header h] = ([.unit (w.writeHeader h).1], (w.writeHeader h).2) := rfl
  rcases writeHeader_cases h hk w hw.toFit with ⟨hv, e, he⟩ | ⟨hv, hc, he⟩ | ⟨hv, hc, hp, he⟩ |
    ⟨hv, hc, hp, ⟨st, stack, hcw, he⟩ | ⟨st, e, he⟩⟩
  · refine ⟨⟨?_, ?_, ?_, [.header h], hops, nofun, ?_, ?_⟩, ?_⟩ <;> simp only [hrun, he]
    · exact ⟨nofun, nofun⟩
    · exact hw.toFit
    · exact nofun
    · intro x hx; rw [List.mem_singleton.1 hx]; rfl
    · exact nofun
  · exact absurd (hw.closed hc) hw.notEnded
  · exact absurd hp hw.notEnded
  · have hfit : CanWrite ⟨st, .running stack, false⟩ := ⟨⟨nofun, fun _ _ => hcw⟩, nofun⟩
    refine ⟨⟨?_, ?_, ?_, [.header h], hops, nofun, ?_, ?_⟩, ?_⟩ <;> simp only [hrun, he]
    · exact ⟨nofun, nofun⟩
    · exact hfit.toFit
    · exact fun _ _ => hfit
    · intro x hx; rw [List.mem_singleton.1 hx]; rfl
    · exact fun _ => hcw
  · refine ⟨⟨?_, ?_, ?_, [.header h], hops, nofun, ?_, ?_⟩, ?_⟩ <;> simp only [hrun, he]
    · exact ⟨nofun, nofun⟩
    · exact ⟨nofun, nofun⟩
    · exact nofun
    · intro x hx; rw [List.mem_singleton.1 hx]; rfl
    · exact nofun

theorem did_write {w : Writer} (hw : CanWrite w) (hcw : w.st.cw ≠ none) (p : Bytes) :
    Did w (w.write p) ∧ (w.write p).2.st.cw ≠ none ∧ CanWrite (w.write p).2 := by
  have hrun : w.run [.write p] = ([.write (w.write p).1], (w.write p).2) := rfl
  have hc : (contentWrite w.st p).2.cw ≠ none := by
    simp only [contentWrite, Writer.write]
    split
    · exact absurd ‹_› hcw
    · split <;> exact nofun
  have hok : ∃ r, (w.write p).1 = .ok r := by
    unfold Writer.write
    split
    · exact absurd ‹_› hcw
    · split <;> exact ⟨_, rfl⟩
  have hfit : CanWrite (w.write p).2 := by
    rw [contentWrite_eq]
    exact ⟨⟨hw.closed, fun _ _ => hc⟩, hw.notEnded⟩
  obtain ⟨r, hr⟩ := hok
  refine ⟨⟨?_, hfit.toFit, fun _ _ => hfit, [.write p], ?_, nofun, ?_, by rw [hrun]⟩, ?_, hfit⟩
  · rw [hr]; exact ⟨nofun, nofun⟩
  · intro h hh; simp at hh
  · rw [hrun, hr]; intro x hx; rw [List.mem_singleton.1 hx]; rfl
  · rw [contentWrite_eq]; exact hc

theorem did_copy {w : Writer} (hw : CanWrite w) (hcw : w.st.cw ≠ none) (ps : List Bytes) (n : Nat) : Did w (copyTo w ps n) := by
  induction ps generalizing w n with
  | nil => exact did_ok hw n
  | cons p ps ih =>
    unfold copyTo
    split
    · exact ih hw hcw n
    · obtain ⟨h1, h2, h3⟩ := did_write hw hcw p
      refine did_andThen h1 fun r _ => ?_
      obtain ⟨k, e⟩ := r
      cases e with
      | some e => exact did_err h3 e
      | none =>
        simp only []
        split
        · exact did_err h3 _
        · exact ih h3 h2 _

mutual
theorem did_node (filter : Option Filter) (path : Bytes) (t : FNode) (sub : Bytes) (w : Writer) (hw : CanWrite w) :
    Did w (dumpNode filter path t sub w) := by
  cases t with
  | bad e => exact did_err hw e
  | symlink t =>
    unfold dumpNode
    split
    · exact did_ok hw ()
    · exact (did_header hw _ (.inr (.inr rfl))).1
  | directory es =>
    unfold dumpNode
    split
    · exact did_ok hw ()
    · have h := (did_header hw ⟨sub, typeDirectory, [], 0, false⟩ (.inr (.inl rfl))).1
      exact did_andThen h fun a ha => did_entries filter path es sub _ (h.ready a ha)
  | brokenLink e =>
    unfold dumpNode
    split
    · exact did_ok hw ()
    · exact did_err hw e
  | brokenDirectory e =>
    unfold dumpNode
    split
    · exact did_ok hw ()
    · have h := (did_header hw ⟨sub, typeDirectory, [], 0, false⟩ (.inr (.inl rfl))).1
      exact did_andThen h fun a ha => did_err (h.ready a ha) e
  | regular exec size chunks fail =>
    unfold dumpNode
    split
    · exact did_ok hw ()
    · obtain ⟨h, hc⟩ := did_header hw ⟨sub, typeRegular, [], size, exec⟩ (.inl rfl)
      refine did_andThen h fun a ha => ?_
      have h2 := did_copy (h.ready a ha) (hc ha) chunks 0
      refine did_andThen h2 fun n hn => ?_
      have h3 := h2.ready n hn
      cases fail with
      | some e => exact did_err h3 e
      | none =>
        simp only []
        split
        · exact did_err h3 _
        · exact did_ok h3 ()
theorem did_entries (filter : Option Filter) (path : Bytes) (es : FEntries) (sub : Bytes) (w : Writer) (hw : CanWrite w) :
    Did w (dumpEntries filter path es sub w) := by
  cases es with
  | nil => exact did_ok hw ()
  | cons n t es =>
    unfold dumpEntries
    have h := did_node filter path t (pathJoin sub n) w hw
    exact did_andThen h fun a ha => did_entries filter path es sub _ (h.ready a ha)
end

theorem close_again (w : Writer) (h : w.closed = true) : w.close = (.err (.msg "already closed"), w) := by
  unfold Writer.close
  rw [if_pos h]

/-- C132: `DumpPath` and `DumpPathFilter` return, whatever the file system contains, wherever it or the writer fails: they neither panic nor
block for ever. What they do amounts to some calls on a `Writer`, of which the last is `Close`; under every schedule these calls return
and then the goroutine has ended. -/
theorem C132_dump (filter : Option Filter) (path : Bytes) (root : FNode) (s : Sink) :
    (dumpPathFilter filter path root s).1 ≠ .panic ∧ (dumpPathFilter filter path root s).1 ≠ .block ∧
    ∀ w s', newWriter s = (.ok w, s') → ∃ ops, .close ∉ ops ∧
      ∀ fuel, 2 * (ops ++ [.close]).length ≤ fuel → ∀ x : Conf WChan WVal WState WOut,
        Reach (writerInit fuel w.st (ops ++ [.close])) x → x.Final →
          x.main = .stop ∧ x.go = .stop ∧ x.mem.sink = (dumpPathFilter filter path root s).2 := by
  unfold dumpPathFilter
  rcases hn : newWriter s with ⟨w | e | _, s'⟩
  · have hw' : w = ⟨w.st, .start, false⟩ := by
      unfold newWriter at hn
      split at hn <;> cases hn
      rfl
    have hready : CanWrite w := by rw [hw']; exact ⟨⟨nofun, nofun⟩, nofun⟩
    have hd := did_node filter path root b!"/" w hready
    simp only []
    generalize dumpNode filter path root b!"/" w = r at hd
    obtain ⟨c, v⟩ := r
    obtain ⟨⟨h1, h2⟩, h3, h4, ops, h5, h6, h7, h8⟩ := hd
    simp only [] at h1 h2 h3 h8
    have hcl : v.close.1 ≠ .panic ∧ v.close.1 ≠ .block ∧ v.close.2.closed = true := by
      have hc := emitClose_calm v h3
      unfold Writer.close
      split
      · exact ⟨nofun, nofun, ‹_›⟩
      · split
        · exact ⟨nofun, nofun, rfl⟩
        · exact ⟨nofun, nofun, rfl⟩
        · rename_i he; rw [he] at hc; exact absurd rfl hc
    have hret : (andThen (c, v) fun _ w => w.close).1 ≠ .panic ∧ (andThen (c, v) fun _ w => w.close).1 ≠ .block ∧
        (andThen (c, v) fun _ w => w.close).2.close.2.st.sink = v.close.2.st.sink := by
      cases c with
      | ok a =>
        refine ⟨hcl.1, hcl.2.1, ?_⟩
        show v.close.2.close.2.st.sink = _
        rw [close_again _ hcl.2.2]
      | err e => exact ⟨nofun, nofun, rfl⟩
      | panic => exact absurd rfl h1
      | block => exact absurd rfl h2
    refine ⟨hret.1, hret.2.1, fun w' s'' hw => ?_⟩
    cases hw
    refine ⟨ops, h6, fun fuel hf x hx hfin => ?_⟩
    have hrun : w.run (ops ++ [.close]) = ((w.run ops).1 ++ [.unit v.close.1], v.close.2) := by
      rw [runW_append, h8]; rfl
    obtain ⟨_, _, hend, hst⟩ := C96_writer s s' w hn (ops ++ [.close]) fuel hf x hx
    have hfinished : (seen WOut.ends (w.run (ops ++ [.close])).1).2 = .finished := by
      rw [hrun]
      have hall : ∀ r ∈ (w.run ops).1 ++ [.unit v.close.1], WOut.ends r = none := by
        intro r hr
        rcases List.mem_append.1 hr with hr | hr
        · exact h7 r hr
        · rw [List.mem_singleton.1 hr]
          cases hvc : v.close.1 with
          | ok _ => rfl
          | err _ => rfl
          | panic => exact absurd hvc hcl.1
          | block => exact absurd hvc hcl.2.1
      generalize (w.run ops).1 ++ [WOut.unit v.close.1] = l at hall
      induction l with
      | nil => rfl
      | cons a l ih =>
        simp only [seen, hall a (List.mem_cons_self ..)]
        exact ih fun r hr => hall r (List.mem_cons_of_mem _ hr)
    have he : x.ending = .finished := by
      have := hend hfin
      rw [← hfinished, ← this]
    obtain ⟨hm, hg⟩ := (C130_close s s' w hn (ops ++ [.close]) fuel hf x hx hfin).1 he (by simp)
    refine ⟨hm, hg, ?_⟩
    rw [(hst hm).2, hrun, hret.2.2]
  · exact ⟨nofun, nofun, nofun⟩
  · unfold newWriter at hn
    have := writeBytes_calm narVersionMagic1 s
    split at hn
    · cases hn
    · cases hn
    · rename_i he
      rw [show Wire.writeBytes narVersionMagic1 s = _ from he] at this
      exact absurd rfl this

/-- The theorems have instances: `Write` before `WriteHeader` panics, as does `WriteHeader` after `Close`; after an error `WriteHeader` blocks. A dump of a
file that cannot be read, to a writer that fails in the middle, returns an error. -/
example : ∃ w s', newWriter ⟨[], none⟩ = (.ok w, s') ∧ ((w.run []).2.op (.write b!"x")).1.ends = some .panicked ∧
    Returned (w.run dirOps).1 ∧ Known dirOps ∧ Begun dirOps (w.run dirOps).1 ∧
    ((w.run dirOps).2.op (.header ⟨b!"/z", typeRegular, [], 0, false⟩)).1.ends = some .panicked ∧
    Returned (w.run [.header ⟨b!"/z", typeRegular, [], 0, false⟩]).1 ∧
    ((w.run [.header ⟨b!"/z", typeRegular, [], 0, false⟩]).2.op (.header ⟨b!"/", typeRegular, [], 0, false⟩)).1.ends = some .blocked ∧
    (dumpPathFilter none b!"/x" (.regular false 3 [b!"ab"] (some .io)) ⟨[], some 100⟩).1 = .err .io := by
  refine ⟨⟨⟨⟨str narVersionMagic1, none⟩, none⟩, .start, false⟩, ⟨str narVersionMagic1, none⟩, by decide +kernel, by decide +kernel, ?_, ?_, ?_,
    by decide +kernel, ?_, by decide +kernel, by decide +kernel⟩
  · unfold Returned; decide +kernel
  · intro h hh
    simp only [dirOps, List.mem_cons, WOp.header.injEq, reduceCtorEq, List.not_mem_nil, or_false, false_or] at hh
    rcases hh with rfl | rfl
    · exact .inr (.inl rfl)
    · exact .inl rfl
  · refine ⟨⟨b!"/", typeDirectory, [], 0, false⟩, ?_⟩
    decide +kernel
  · unfold Returned; decide +kernel

end Verif.Props
