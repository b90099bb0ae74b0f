import Verif.Model.Out
import Verif.Lemmas.NarDumpSink

/-! Writing to an arbitrary `io.Writer`, compared with writing to a sink that never fails. -/

namespace Verif.Out
open Verif.GoLib Verif.Wire Verif.Nar

variable {D : Dev}

/-- What is assumed of the writer: the contract of `io.Writer` in the states described by `P`, which its calls keep,
that a failing call leads to a state described by `E`, and that a successful one keeps `C`. -/
structure Contract (P E C : GSink D → Prop) : Prop where
  keep : ∀ w p, P w → P (w.write p).2
  short : ∀ w p, P w → (w.write p).1.2 = none → (w.write p).1.1 = p.length
  fail : ∀ w p, P w → (w.write p).1.2 ≠ none → E (w.write p).2
  clean : ∀ w p, P w → C w → (w.write p).1.2 = none → C (w.write p).2

/-- A computation on any writer against one on a sink. -/
structure TameS {α : Type} (P E C : GSink D → Prop) (m : M (GSink D) α) (m' : M Sink α) : Prop where
  pres : ∀ w, P w → P (m w).2
  mono : ∀ w' : Sink, w'.budget = none → (m' w').2.budget = none ∧ w'.out <+: (m' w').2.out
  sim : ∀ (w : GSink D) (w' : Sink), P w → w.out = w'.out ∧ C w → w'.budget = none →
    ((m w).1 = (m' w').1 ∧ (m w).2.out = (m' w').2.out ∧ C (m w).2) ∨
    ((∃ e, (m w).1 = .err e) ∧ (m w).2.out <+: (m' w').2.out ∧ E (m w).2)

theorem tameS_ret {α : Type} {P E C : GSink D → Prop} (r : Res α) :
    TameS P E C (fun w => (r, w)) (fun w => (r, w)) where
  pres _ h := h
  mono _ h := ⟨h, List.prefix_rfl⟩
  sim _ _ _ h _ := .inl ⟨rfl, h⟩

theorem tameS_bind {α β : Type} {P E C : GSink D → Prop} {m : M (GSink D) α} {m' : M Sink α}
    {f : α → M (GSink D) β} {f' : α → M Sink β} (hm : TameS P E C m m') (hf : ∀ a, TameS P E C (f a) (f' a)) :
    TameS P E C (m >>= f) (m' >>= f') where
  pres w hw := by
    have h1 := hm.pres w hw
    rcases h : m w with ⟨a | _ | _, w1⟩ <;> rw [h] at h1
    · rw [M.bind_ok h]; exact (hf a).pres _ h1
    · rw [M.bind_err h]; exact h1
    · rw [M.bind_panic h]; exact h1
  mono w hw := by
    obtain ⟨h1, h2⟩ := hm.mono w hw
    rcases h : m' w with ⟨a | _ | _, w1⟩ <;> rw [h] at h1 h2
    · rw [M.bind_ok h]
      obtain ⟨h3, h4⟩ := (hf a).mono _ h1
      exact ⟨h3, h2.trans h4⟩
    · rw [M.bind_err h]; exact ⟨h1, h2⟩
    · rw [M.bind_panic h]; exact ⟨h1, h2⟩
  sim w w' hp ho hb := by
    have p1 := hm.pres w hp
    obtain ⟨m1, -⟩ := hm.mono w' hb
    have hs := hm.sim w w' hp ho hb
    rcases h : m w with ⟨r, w1⟩
    rcases h' : m' w' with ⟨r', w1'⟩
    rw [h] at p1 hs
    rw [h'] at m1 hs
    simp only [] at p1 hs m1
    rcases hs with ⟨e1, e2⟩ | ⟨⟨e, e1⟩, e2, e3⟩
    · subst e1
      cases r with
      | ok a => rw [M.bind_ok h, M.bind_ok h']; exact (hf a).sim w1 w1' p1 e2 m1
      | err e => rw [M.bind_err h, M.bind_err h']; exact .inl ⟨rfl, e2⟩
      | panic => rw [M.bind_panic h, M.bind_panic h']; exact .inl ⟨rfl, e2⟩
    · subst e1
      rw [M.bind_err h]
      refine .inr ⟨⟨e, rfl⟩, ?_, e3⟩
      cases r' with
      | ok a => rw [M.bind_ok h']; exact e2.trans ((hf a).mono _ m1).2
      | err e => rw [M.bind_err h']; exact e2
      | panic => rw [M.bind_panic h']; exact e2

theorem tameS_writeAll {P E C : GSink D → Prop} (hc : Contract P E C) (p : Bytes) :
    TameS P E C (writeAll p) (Wire.writeAll p) where
  pres w hw := by
    have := hc.keep w p hw
    unfold writeAll
    split <;> (rename_i h; rw [h] at this; exact this)
  mono w hw := by
    rw [(emits_writeAll p w).1 hw]
    exact ⟨rfl, List.prefix_append _ _⟩
  sim w w' hp ho hb := by
    rw [(emits_writeAll p w').1 hb]
    have h1 := hc.short w p hp
    have h2 := hc.fail w p hp
    have h4 := hc.clean w p hp ho.2
    have h3 : (w.write p).2.out = w.out ++ p.take (w.write p).1.1 := by
      unfold GSink.write; rfl
    unfold writeAll
    rcases h : w.write p with ⟨⟨n, _ | e⟩, w1⟩ <;> rw [h] at h1 h2 h3 h4 <;> simp only [] at h1 h2 h3 h4 ⊢
    · left
      have := h1 trivial
      subst this
      exact ⟨trivial, by rw [h3, ho.1, List.take_length], h4 trivial⟩
    · right
      refine ⟨⟨e, rfl⟩, ?_, h2 (by simp)⟩
      rw [h3, ho.1]
      exact (List.prefix_append_right_inj _).2 (List.take_prefix _ _)

theorem tameS_writePadding {P E C : GSink D → Prop} (hc : Contract P E C) (n : Nat) :
    TameS P E C (writePadding n) (Wire.writePadding n) := by
  unfold writePadding Wire.writePadding
  split
  · exact tameS_writeAll hc _
  · exact tameS_ret _

theorem tameS_writeUint64 {P E C : GSink D → Prop} (hc : Contract P E C) (n : Nat) :
    TameS P E C (writeUint64 n) (Wire.writeUint64 n) := tameS_writeAll hc _

theorem tameS_writeBytes {P E C : GSink D → Prop} (hc : Contract P E C) (b : Bytes) :
    TameS P E C (writeBytes b) (Wire.writeBytes b) :=
  tameS_bind (tameS_writeUint64 hc _) fun _ => tameS_bind (tameS_writeAll hc _) fun _ => tameS_writePadding hc _

theorem tameS_writeString {P E C : GSink D → Prop} (hc : Contract P E C) (b : Bytes) :
    TameS P E C (writeBytes b) (Wire.writeString b) :=
  tameS_bind (tameS_writeUint64 hc _) fun _ => tameS_bind (tameS_writeAll hc _) fun _ => tameS_writePadding hc _

/-- The two states agree. -/
structure Rel (C : GSink D → Prop) (s : GState D) (s' : WState) : Prop where
  out : s.sink.out = s'.sink.out ∧ C s.sink
  cw : s.cw = s'.cw
  free : s'.sink.budget = none

/-- A computation of the goroutine. -/
structure TameG {α : Type} (P E C : GSink D → Prop) (m : M (GState D) α) (m' : M WState α) : Prop where
  pres : ∀ s, P s.sink → P (m s).2.sink
  sim : ∀ (s : GState D) (s' : WState), P s.sink → Rel C s s' →
    ((m s).1 = (m' s').1 ∧ Rel C (m s).2 (m' s').2) ∨
    ((∃ e, (m s).1 = .err e) ∧ (m s).2.sink.out <+: (m' s').2.sink.out ∧ E (m s).2.sink)

theorem tameG_ret {α : Type} {P E C : GSink D → Prop} (r : Res α) :
    TameG P E C (fun w => (r, w)) (fun w => (r, w)) where
  pres _ h := h
  sim _ _ _ h := .inl ⟨rfl, h⟩

theorem tameG_bind {α β : Type} {P E C : GSink D → Prop} {m : M (GState D) α} {m' : M WState α}
    {f : α → M (GState D) β} {f' : α → M WState β} (hm : TameG P E C m m') (tm : Tame m') (hf : ∀ a, TameG P E C (f a) (f' a))
    (tf : ∀ a, Tame (f' a)) : TameG P E C (m >>= f) (m' >>= f') where
  pres w hw := by
    have h1 := hm.pres w hw
    rcases h : m w with ⟨a | _ | _, w1⟩ <;> rw [h] at h1
    · rw [M.bind_ok h]; exact (hf a).pres _ h1
    · rw [M.bind_err h]; exact h1
    · rw [M.bind_panic h]; exact h1
  sim w w' hp hr := by
    have p1 := hm.pres w hp
    obtain ⟨m1, -⟩ := tm.mono w' hr.free
    have hs := hm.sim w w' hp hr
    rcases h : m w with ⟨r, w1⟩
    rcases h' : m' w' with ⟨r', w1'⟩
    rw [h] at p1 hs
    rw [h'] at m1 hs
    simp only [] at p1 hs m1
    rcases hs with ⟨e1, e2⟩ | ⟨⟨e, e1⟩, e2, e3⟩
    · subst e1
      cases r with
      | ok a => rw [M.bind_ok h, M.bind_ok h']; exact (hf a).sim w1 w1' p1 e2
      | err e => rw [M.bind_err h, M.bind_err h']; exact .inl ⟨rfl, e2⟩
      | panic => rw [M.bind_panic h, M.bind_panic h']; exact .inl ⟨rfl, e2⟩
    · subst e1
      rw [M.bind_err h]
      refine .inr ⟨⟨e, rfl⟩, ?_, e3⟩
      cases r' with
      | ok a => rw [M.bind_ok h']; exact e2.trans ((tf a).mono _ m1).2
      | err e => rw [M.bind_err h']; exact e2
      | panic => rw [M.bind_panic h']; exact e2

theorem tameG_wr {P E C : GSink D → Prop} {m : M (GSink D) Unit} {m' : M Sink Unit} (h : TameS P E C m m') :
    TameG P E C (wr m) (Nar.wr m') where
  pres s hs := h.pres _ hs
  sim s s' hp hr := by
    rcases h.sim s.sink s'.sink hp hr.out hr.free with ⟨h1, h2⟩ | h1
    · exact .inl ⟨h1, h2, hr.cw, (h.mono _ hr.free).1⟩
    · exact .inr h1

/-- both halves together -/
structure Both {α : Type} (P E C : GSink D → Prop) (m : M (GState D) α) (m' : M WState α) : Prop where
  g : TameG P E C m m'
  t : Tame m'

theorem both_bind {α β : Type} {P E C : GSink D → Prop} {m : M (GState D) α} {m' : M WState α}
    {f : α → M (GState D) β} {f' : α → M WState β} (hm : Both P E C m m') (hf : ∀ a, Both P E C (f a) (f' a)) :
    Both P E C (m >>= f) (m' >>= f') :=
  ⟨tameG_bind hm.g hm.t (fun a => (hf a).g) fun a => (hf a).t, tame_bind hm.t fun a => (hf a).t⟩

theorem both_ret {α : Type} {P E C : GSink D → Prop} (r : Res α) :
    Both P E C (fun w => (r, w)) (fun w => (r, w)) := ⟨tameG_ret r, tame_ret r⟩

theorem both_ite {α : Type} {P E C : GSink D → Prop} {c : Prop} [Decidable c] {m n : M (GState D) α} {m' n' : M WState α}
    (h : Both P E C m m') (h' : Both P E C n n') : Both P E C (if c then m else n) (if c then m' else n') := by
  split <;> assumption

theorem both_str {P E C : GSink D → Prop} (hc : Contract P E C) (b : Bytes) :
    Both P E C (wr (writeBytes b)) (Nar.wr (Wire.writeString b)) := ⟨tameG_wr (tameS_writeString hc b), tame_str b⟩

theorem both_bytes {P E C : GSink D → Prop} (hc : Contract P E C) (b : Bytes) :
    Both P E C (wr (writeBytes b)) (Nar.wr (Wire.writeBytes b)) :=
  ⟨tameG_wr (tameS_writeBytes hc b), tame_wr (emits_writeBytes b)⟩

theorem both_setContentWriter {P E C : GSink D → Prop} (hc : Contract P E C) (n : Nat) :
    Both P E C (setContentWriter n) (Nar.setContentWriter n) where
  t := tame_setContentWriter n
  g := {
    pres := fun s hs => by
      have := (tameS_writeUint64 hc n).pres _ hs
      unfold setContentWriter
      split <;> (rename_i h; rw [h] at this; exact this)
    sim := fun s s' hp hr => by
      have h1 := (tameS_writeUint64 hc n).sim s.sink s'.sink hp hr.out hr.free
      have h2 := (tameS_writeUint64 hc n).mono s'.sink hr.free
      unfold setContentWriter Nar.setContentWriter
      rw [newBytesWriter_eq]
      rcases h : writeUint64 n s.sink with ⟨r, w⟩
      rcases h' : Wire.writeUint64 n s'.sink with ⟨r', w'⟩
      rw [h, h'] at h1
      rw [h'] at h2
      simp only [] at h1 h2
      rcases h1 with ⟨e1, e2⟩ | ⟨⟨e, e1⟩, e2, e3⟩
      · subst e1
        rcases r with _ | _ | _ <;> exact .inl ⟨rfl, e2, rfl, h2.1⟩
      · subst e1
        refine .inr ⟨⟨e, rfl⟩, ?_, e3⟩
        rcases r' with _ | _ | _ <;> exact e2 }

theorem both_setDummyWriter {P E C : GSink D → Prop} : Both P E C (setDummyWriter (D := D)) Nar.setDummyWriter where
  t := tame_setDummyWriter
  g := { pres := fun _ h => h, sim := fun _ _ _ hr => .inl ⟨rfl, hr.out, rfl, hr.free⟩ }

theorem both_emitStart {P E C : GSink D → Prop} (hc : Contract P E C) (h : Header) :
    Both P E C (emitStart h) (Nar.emitStart h) := by
  unfold emitStart Nar.emitStart
  refine both_bind (both_str hc _) fun _ => both_bind (both_str hc _) fun _ => both_bind (both_str hc _) fun _ => ?_
  refine both_ite (both_ite ?_ ?_) (both_ite ?_ (both_ite both_setDummyWriter (both_ret _)))
  · exact both_bind (both_str hc _) fun _ => both_bind (both_bytes hc []) fun _ =>
      both_bind (both_str hc _) fun _ => both_setContentWriter hc _
  · exact both_bind (both_str hc _) fun _ => both_setContentWriter hc _
  · exact both_bind (both_str hc _) fun _ => both_bind (both_str hc _) fun _ => both_setDummyWriter

theorem both_entryStart {P E C : GSink D → Prop} (hc : Contract P E C) (n : Bytes) :
    Both P E C (entryStart n) (Nar.entryStart n) := by
  unfold entryStart Nar.entryStart
  exact both_bind (both_str hc _) fun _ => both_bind (both_str hc _) fun _ => both_bind (both_str hc _) fun _ =>
    both_bind (both_str hc _) fun _ => both_str hc _

theorem both_contentClose {P E C : GSink D → Prop} (hc : Contract P E C) :
    Both P E C (contentClose (D := D)) Nar.contentClose where
  t := tame_contentClose
  g := {
    pres := fun s hs => by
      unfold contentClose
      cases s.cw with
      | none => exact hs
      | some c =>
        simp only []
        split
        · split <;> exact hs
        · unfold bwClose
          have := (tameS_writePadding hc c.bw.totalLength).pres _ hs
          by_cases h1 : c.bw.paddingWritten = true
          · rw [if_pos h1]; exact hs
          · rw [if_neg h1]
            by_cases h2 : c.bw.bytesWritten ≠ c.bw.totalLength
            · rw [if_pos h2]; exact hs
            · rw [if_neg h2]
              rcases h : writePadding c.bw.totalLength s.sink with ⟨_ | _ | _, w⟩ <;> rw [h] at this <;> exact this
    sim := fun s s' hp hr => by
      unfold contentClose Nar.contentClose
      rw [hr.cw]
      cases s'.cw with
      | none => exact .inl ⟨rfl, hr⟩
      | some c =>
        simp only []
        by_cases hd : c.dummy = true
        · rw [if_pos hd, if_pos hd]
          left
          rcases c.bw.close ⟨[], none⟩ with ⟨_ | _, _, _⟩ <;> exact ⟨rfl, hr.out, rfl, hr.free⟩
        · rw [if_neg hd, if_neg hd]
          unfold bwClose BytesWriter.close
          by_cases h1 : c.bw.paddingWritten = true
          · rw [if_pos h1, if_pos h1]; exact .inl ⟨rfl, hr.out, rfl, hr.free⟩
          · rw [if_neg h1, if_neg h1]
            by_cases h2 : c.bw.bytesWritten ≠ c.bw.totalLength
            · rw [if_pos h2, if_pos h2]; exact .inl ⟨rfl, hr.out, rfl, hr.free⟩
            · rw [if_neg h2, if_neg h2]
              have j1 := (tameS_writePadding hc c.bw.totalLength).sim s.sink s'.sink hp hr.out hr.free
              have j2 := (tameS_writePadding hc c.bw.totalLength).mono s'.sink hr.free
              rcases h : writePadding c.bw.totalLength s.sink with ⟨r, w⟩
              rcases h' : Wire.writePadding c.bw.totalLength s'.sink with ⟨r', w'⟩
              rw [h, h'] at j1
              rw [h'] at j2
              simp only [] at j1 j2
              rcases j1 with ⟨e1, e2⟩ | ⟨⟨e, e1⟩, e2, e3⟩
              · subst e1
                rcases r with _ | _ | _ <;> exact .inl ⟨rfl, e2, rfl, j2.1⟩
              · subst e1
                refine .inr ⟨⟨e, rfl⟩, ?_, e3⟩
                rcases r' with _ | _ | _ <;> exact e2 }

theorem both_descend {P E C : GSink D → Prop} (hc : Contract P E C) (h : Header) (S : List Header) :
    Both P E C (descend h S) (Nar.descend h S) := by
  induction S with
  | nil => exact both_ret _
  | cons cur rest ih =>
    unfold descend Nar.descend
    refine both_bind (both_ret _) fun p => ?_
    cases p with
    | none =>
      exact both_bind (both_str hc _) fun _ => both_ite (both_ret _) (both_bind (both_str hc _) fun _ => ih)
    | some n =>
      exact both_bind (both_entryStart hc _) fun _ => both_bind (both_emitStart hc _) fun _ => both_ret _

theorem both_unwind {P E C : GSink D → Prop} (hc : Contract P E C) (S : List Header) :
    Both P E C (unwind S) (Nar.unwind S) := by
  induction S with
  | nil => exact both_ret _
  | cons cur rest ih =>
    unfold unwind Nar.unwind
    exact both_bind (both_str hc _) fun _ => both_ite (both_ret _) (both_bind (both_str hc _) fun _ => ih)

theorem both_emitHeader {P E C : GSink D → Prop} (hc : Contract P E C) (h : Header) (p : WPhase) :
    Both P E C (emitHeader h p) (Nar.emitHeader h p) := by
  cases p with
  | start => exact both_ite (both_ret _) (both_bind (both_emitStart hc _) fun _ => both_ret _)
  | running S => exact both_bind (both_contentClose hc) fun _ => both_descend hc h S
  | ended => exact both_ret _

theorem both_emitClose {P E C : GSink D → Prop} (hc : Contract P E C) (p : WPhase) :
    Both P E C (emitClose p) (Nar.emitClose p) := by
  cases p with
  | start => exact both_ret _
  | running S => exact both_bind (both_contentClose hc) fun _ => both_unwind hc S
  | ended => exact both_ret _

/-- The two writers agree. -/
structure RelW (C : GSink D → Prop) (w : GWriter D) (w' : Writer) : Prop where
  st : Rel C w.st w'.st
  phase : w.phase = w'.phase
  closed : w.closed = w'.closed

theorem op_pres {P E C : GSink D → Prop} (hc : Contract P E C) (w : GWriter D) (o : WOp) (hp : P w.st.sink) :
    P (w.op o).2.st.sink := by
  cases o with
  | header h =>
    simp only [GWriter.op, GWriter.writeHeader]
    have := (both_emitHeader hc h w.phase).g.pres w.st hp
    split
    · exact hp
    · exact hp
    · split
      · exact hp
      · split
        · exact hp
        · split <;> (rename_i he; rw [he] at this; exact this)
  | write p =>
    simp only [GWriter.op, GWriter.write]
    cases hc' : w.st.cw with
    | none => exact hp
    | some c =>
      simp only []
      split
      · exact hp
      · unfold bwWrite
        split
        · exact hp
        · exact hc.keep _ p hp
  | close =>
    simp only [GWriter.op, GWriter.close]
    have := (both_emitClose hc w.phase).g.pres w.st hp
    split
    · exact hp
    · split <;> (rename_i he; rw [he] at this; exact this)

theorem op_sim {P E C : GSink D → Prop} (hc : Contract P E C) (w : GWriter D) (w' : Writer) (o : WOp) (hp : P w.st.sink)
    (hr : RelW C w w') :
    ((w.op o).1 = (w'.op o).1 ∧ RelW C (w.op o).2 (w'.op o).2) ∨
    ((w.op o).1.failed ∧ (w.op o).2.st.sink.out <+: (w'.op o).2.st.sink.out ∧ E (w.op o).2.st.sink) := by
  cases o with
  | header h =>
    simp only [GWriter.op, GWriter.writeHeader, Writer.op, Writer.writeHeader]
    have hs := (both_emitHeader hc h w.phase).g.sim w.st w'.st hp hr.st
    rw [← hr.phase, ← hr.closed]
    cases hv : h.validate with
    | err e => exact .inl ⟨rfl, hr⟩
    | panic => exact .inl ⟨rfl, hr⟩
    | ok u =>
      simp only []
      by_cases hcl : w.closed = true
      · rw [if_pos hcl, if_pos hcl]; exact .inl ⟨rfl, hr⟩
      · rw [if_neg hcl, if_neg hcl]
        by_cases he : w.phase = .ended
        · rw [if_pos he, if_pos he]; exact .inl ⟨rfl, hr⟩
        · rw [if_neg he, if_neg he]
          rcases hm : emitHeader h w.phase w.st with ⟨r, s⟩
          rcases hm' : Nar.emitHeader h w.phase w'.st with ⟨r', s'⟩
          rw [hm, hm'] at hs
          simp only [] at hs
          rcases hs with ⟨e1, e2⟩ | ⟨⟨e, e1⟩, e2, e3⟩
          · subst e1
            rcases r with _ | _ | _ <;> exact .inl ⟨rfl, e2, rfl, rfl⟩
          · subst e1
            refine .inr ⟨⟨e, rfl⟩, ?_, e3⟩
            rcases r' with _ | _ | _ <;> exact e2
  | write p =>
    simp only [GWriter.op, GWriter.write, Writer.op, Writer.write]
    rw [hr.st.cw]
    cases hcw : w'.st.cw with
    | none => exact .inl ⟨rfl, hr⟩
    | some c =>
      simp only []
      by_cases hd : c.dummy = true
      · rw [if_pos hd, if_pos hd]; exact .inl ⟨rfl, ⟨hr.st.out, rfl, hr.st.free⟩, hr.phase, hr.closed⟩
      · rw [if_neg hd, if_neg hd]
        unfold bwWrite BytesWriter.write
        by_cases h1 : (c.bw.bytesWritten + p.length) % 2 ^ 64 > c.bw.totalLength
        · rw [if_pos h1, if_pos h1]; exact .inl ⟨rfl, ⟨hr.st.out, rfl, hr.st.free⟩, hr.phase, hr.closed⟩
        · rw [if_neg h1, if_neg h1]
          have k1 := hc.short w.st.sink p hp
          have k2 := hc.fail w.st.sink p hp
          have k4 := hc.clean w.st.sink p hp hr.st.out.2
          have k3 : (w.st.sink.write p).2.out = w.st.sink.out ++ p.take (w.st.sink.write p).1.1 := by
            unfold GSink.write; rfl
          simp only [Sink.write, hr.st.free]
          rcases h : w.st.sink.write p with ⟨⟨n, _ | e⟩, w1⟩ <;> rw [h] at k1 k2 k3 k4 <;> simp only [] at k1 k2 k3 k4 ⊢
          · left
            have := k1 trivial
            subst this
            exact ⟨rfl, ⟨⟨by rw [k3, hr.st.out.1, List.take_length], k4 trivial⟩, rfl, rfl⟩, hr.phase, hr.closed⟩
          · right
            refine ⟨⟨_, _, rfl⟩, ?_, k2 (by simp)⟩
            rw [k3, hr.st.out.1]
            exact (List.prefix_append_right_inj _).2 (List.take_prefix _ _)
  | close =>
    simp only [GWriter.op, GWriter.close, Writer.op, Writer.close]
    have hs := (both_emitClose hc w.phase).g.sim w.st w'.st hp hr.st
    rw [← hr.phase, ← hr.closed]
    by_cases hcl : w.closed = true
    · rw [if_pos hcl, if_pos hcl]; exact .inl ⟨rfl, hr⟩
    · rw [if_neg hcl, if_neg hcl]
      rcases hm : emitClose w.phase w.st with ⟨r, s⟩
      rcases hm' : Nar.emitClose w.phase w'.st with ⟨r', s'⟩
      rw [hm, hm'] at hs
      simp only [] at hs
      rcases hs with ⟨e1, e2⟩ | ⟨⟨e, e1⟩, e2, e3⟩
      · subst e1
        rcases r with _ | _ | _ <;> exact .inl ⟨rfl, e2, rfl, rfl⟩
      · subst e1
        refine .inr ⟨⟨e, rfl⟩, ?_, e3⟩
        rcases r' with _ | _ | _ <;> exact e2

/-- A series of calls on a writer. -/
structure SimW {α : Type} (P E C : GSink D → Prop) (f : GWriter D → Call α × GWriter D) (f' : Writer → Call α × Writer) :
    Prop where
  pres : ∀ w, P w.st.sink → P (f w).2.st.sink
  sim : ∀ w w', P w.st.sink → RelW C w w' →
    ((f w).1 = (f' w').1 ∧ RelW C (f w).2 (f' w').2) ∨
    ((∃ e, (f w).1 = .err e) ∧ (f w).2.st.sink.out <+: (f' w').2.st.sink.out ∧ E (f w).2.st.sink)
  mono : ∀ w' : Writer, w'.st.sink.budget = none →
    (f' w').2.st.sink.budget = none ∧ w'.st.sink.out <+: (f' w').2.st.sink.out

theorem simW_ret {α : Type} {P E C : GSink D → Prop} (r : Call α) :
    SimW P E C (fun w => (r, w)) (fun w => (r, w)) where
  pres _ h := h
  sim _ _ _ h := .inl ⟨rfl, h⟩
  mono _ h := ⟨h, List.prefix_rfl⟩

theorem simW_writeHeader {P E C : GSink D → Prop} (hc : Contract P E C) (h : Header) :
    SimW P E C (fun w => w.writeHeader h) (fun w => w.writeHeader h) where
  pres w hp := op_pres hc w (.header h) hp
  sim w w' hp hr := by
    rcases op_sim hc w w' (.header h) hp hr with ⟨h1, h2⟩ | h1
    · simp only [GWriter.op, Writer.op, WOut.unit.injEq] at h1
      exact .inl ⟨h1, h2⟩
    · exact .inr h1
  mono := (tameW_writeHeader h).mono

theorem simW_close {P E C : GSink D → Prop} (hc : Contract P E C) :
    SimW P E C (fun w => w.close) (fun w => w.close) where
  pres w hp := op_pres hc w .close hp
  sim w w' hp hr := by
    rcases op_sim hc w w' .close hp hr with ⟨h1, h2⟩ | h1
    · simp only [GWriter.op, Writer.op, WOut.unit.injEq] at h1
      exact .inl ⟨h1, h2⟩
    · exact .inr h1
  mono := tameW_close.mono

theorem simW_andThen {α β : Type} {P E C : GSink D → Prop} {f : GWriter D → Call α × GWriter D}
    {f' : Writer → Call α × Writer} {g : α → GWriter D → Call β × GWriter D} {g' : α → Writer → Call β × Writer}
    (hf : SimW P E C f f') (hg : ∀ a, SimW P E C (g a) (g' a)) :
    SimW P E C (fun w => andThen (f w) g) (fun w => Nar.andThen (f' w) g') where
  pres w hp := by
    have h1 := hf.pres w hp
    rcases h : f w with ⟨a | _ | _ | _, w1⟩ <;> rw [h] at h1 <;> simp only [andThen]
    · exact (hg a).pres _ h1
    all_goals exact h1
  sim w w' hp hr := by
    have p1 := hf.pres w hp
    have m1 := hf.mono w' hr.st.free
    have hs := hf.sim w w' hp hr
    rcases h : f w with ⟨r, w1⟩
    rcases h' : f' w' with ⟨r', w1'⟩
    rw [h] at p1 hs
    rw [h'] at m1 hs
    simp only [] at p1 m1 hs
    rcases hs with ⟨e1, e2⟩ | ⟨⟨e, e1⟩, e2, e3⟩
    · subst e1
      rcases r with a | _ | _ | _ <;> simp only [andThen, Nar.andThen]
      · exact (hg a).sim w1 w1' p1 e2
      all_goals exact .inl ⟨trivial, e2⟩
    · subst e1
      simp only [andThen]
      refine .inr ⟨⟨e, rfl⟩, ?_, e3⟩
      rcases r' with a | _ | _ | _ <;> simp only [Nar.andThen]
      · exact e2.trans ((hg a).mono w1' m1.1).2
      all_goals exact e2
  mono w hs := by
    obtain ⟨h1, h2⟩ := hf.mono w hs
    rcases h : f' w with ⟨a | _ | _ | _, w1⟩ <;> rw [h] at h1 h2 <;> simp only [Nar.andThen]
    · obtain ⟨h3, h4⟩ := (hg a).mono w1 h1
      exact ⟨h3, h2.trans h4⟩
    all_goals exact ⟨h1, h2⟩

theorem simW_ite {α : Type} {P E C : GSink D → Prop} {c : Prop} [Decidable c] {f g : GWriter D → Call α × GWriter D}
    {f' g' : Writer → Call α × Writer} (h : SimW P E C f f') (h' : SimW P E C g g') :
    SimW P E C (fun w => if c then f w else g w) (fun w => if c then f' w else g' w) := by split <;> assumption

theorem simW_write {P E C : GSink D → Prop} (hc : Contract P E C) (p : Bytes) : SimW P E C (fun w => andThen (w.write p) fun r w' =>
    match r with
    | (_, some e) => ((.err e : Call Nat), w')
    | (k, none) => if k ≠ p.length then (.err (.msg "short write"), w') else (.ok k, w'))
    (fun w => Nar.andThen (w.write p) fun r w' =>
    match r with
    | (_, some e) => ((.err e : Call Nat), w')
    | (k, none) => if k ≠ p.length then (.err (.msg "short write"), w') else (.ok k, w')) where
  pres w hp := by
    have h := op_pres hc w (.write p) hp
    simp only [GWriter.op] at h
    rcases hw : w.write p with ⟨⟨n, _ | e⟩ | _ | _ | _, w'⟩ <;> rw [hw] at h <;> simp only [andThen]
    · split <;> exact h
    all_goals exact h
  sim w w' hp hr := by
    rcases op_sim hc w w' (.write p) hp hr with ⟨h1, h2⟩ | ⟨⟨n, e, h1⟩, h2, h3⟩
    · left
      simp only [GWriter.op, Writer.op, WOut.write.injEq] at h1 h2
      rcases hw : w.write p with ⟨r, w1⟩
      rcases hw' : w'.write p with ⟨r', w1'⟩
      rw [hw, hw'] at h1 h2
      simp only [] at h1 h2
      subst h1
      rcases r with ⟨n, _ | e⟩ | _ | _ | _ <;> simp only [andThen, Nar.andThen]
      · split <;> exact ⟨rfl, h2⟩
      all_goals exact ⟨trivial, h2⟩
    · right
      simp only [GWriter.op, Writer.op] at h1 h2 h3
      rcases hw : w.write p with ⟨r, w1⟩
      rw [hw] at h1 h2 h3
      simp only [] at h1
      subst h1
      simp only [andThen]
      refine ⟨⟨_, rfl⟩, ?_, h3⟩
      rcases hw' : w'.write p with ⟨⟨n', _ | e'⟩ | _ | _ | _, w1'⟩ <;> rw [hw'] at h2 <;> simp only [Nar.andThen]
      · split <;> exact h2
      all_goals exact h2
  mono := (tameW_write p).mono

theorem simW_copyTo {P E C : GSink D → Prop} (hc : Contract P E C) : ∀ (ps : List Bytes) (n : Nat),
    SimW P E C (fun w => copyTo w ps n) (fun w => Nar.copyTo w ps n)
  | [], n => simW_ret _
  | p :: ps, n => by
    unfold copyTo Nar.copyTo
    refine simW_ite (simW_copyTo hc ps n) ?_
    have := simW_andThen (simW_write hc p) (g := fun k w' => copyTo w' ps (n + k))
      (g' := fun k w' => Nar.copyTo w' ps (n + k)) fun k => simW_copyTo hc ps (n + k)
    refine cast ?_ this
    congr 1
    · funext w
      rcases hw : w.write p with ⟨⟨n', _ | e'⟩ | _ | _ | _, w'⟩ <;> simp only [andThen]
      by_cases hn : n' ≠ p.length
      · simp only [if_pos hn]
      · simp only [if_neg hn]
    · funext w
      rcases hw : w.write p with ⟨⟨n', _ | e'⟩ | _ | _ | _, w'⟩ <;> simp only [Nar.andThen]
      by_cases hn : n' ≠ p.length
      · simp only [if_pos hn]
      · simp only [if_neg hn]

mutual
theorem simW_dumpNode {P E C : GSink D → Prop} (hc : Contract P E C) (filter : Option Filter) (path : Bytes) :
    ∀ (t : FNode) (sub : Bytes), SimW P E C (fun w => dumpNode filter path t sub w) (fun w => Nar.dumpNode filter path t sub w)
  | .bad e, sub => by unfold dumpNode Nar.dumpNode; exact simW_ret _
  | .symlink t, sub => by unfold dumpNode Nar.dumpNode; exact simW_ite (simW_ret _) (simW_writeHeader hc _)
  | .directory es, sub => by
    unfold dumpNode Nar.dumpNode
    exact simW_ite (simW_ret _) (simW_andThen (simW_writeHeader hc _) fun _ => simW_dumpEntries hc filter path es sub)
  | .brokenLink e, sub => by unfold dumpNode Nar.dumpNode; exact simW_ite (simW_ret _) (simW_ret _)
  | .brokenDirectory e, sub => by
    unfold dumpNode Nar.dumpNode
    exact simW_ite (simW_ret _) (simW_andThen (simW_writeHeader hc _) fun _ => simW_ret _)
  | .regular exec size chunks fail, sub => by
    unfold dumpNode Nar.dumpNode
    refine simW_ite (simW_ret _) (simW_andThen (simW_writeHeader hc _) fun _ =>
      simW_andThen (simW_copyTo hc chunks 0) fun n => ?_)
    cases fail with
    | some e => exact simW_ret _
    | none => exact simW_ite (simW_ret _) (simW_ret _)
theorem simW_dumpEntries {P E C : GSink D → Prop} (hc : Contract P E C) (filter : Option Filter) (path : Bytes) :
    ∀ (es : FEntries) (sub : Bytes), SimW P E C (fun w => dumpEntries filter path es sub w) (fun w => Nar.dumpEntries filter path es sub w)
  | .nil, sub => by unfold dumpEntries Nar.dumpEntries; exact simW_ret _
  | .cons n t es, sub => by
    unfold dumpEntries Nar.dumpEntries
    exact simW_andThen (simW_dumpNode hc filter path t (pathJoin sub n)) fun _ => simW_dumpEntries hc filter path es sub
end

end Verif.Out
