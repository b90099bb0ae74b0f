import Verif.Lemmas.NarWriterRun

/-! A writer on a sink that fails after some bytes, compared with one on a sink that never fails. -/

namespace Verif.Nar
open Verif.GoLib Verif.Spec Verif.Wire

/-- The same state on a sink with budget `k`. -/
def WState.on (s : WState) (k : Nat) : WState := ⟨⟨s.sink.out, some k⟩, s.cw⟩

/-- How a computation behaves on a limited sink, compared with an unlimited one. -/
structure Tame {α : Type} (m : M WState α) : Prop where
  mono : ∀ s, s.sink.budget = none →
    (m s).2.sink.budget = none ∧ s.sink.out <+: (m s).2.sink.out
  froz : ∀ s, s.sink.budget = some 0 → (m s).2.sink = s.sink
  sim : ∀ s k, s.sink.budget = none →
    (∃ k', k' + (m s).2.sink.out.length = k + s.sink.out.length ∧ m (s.on k) = ((m s).1, (m s).2.on k')) ∨
    ((∃ e, (m (s.on k)).1 = .err e) ∧ (m (s.on k)).2.sink.budget = some 0 ∧
      (m (s.on k)).2.sink.out <+: (m s).2.sink.out ∧
      (m (s.on k)).2.sink.out.length = k + s.sink.out.length ∧
      k + s.sink.out.length < (m s).2.sink.out.length)

theorem tame_ret {α : Type} (r : Res α) : Tame (fun s : WState => (r, s)) where
  mono s h := ⟨h, List.prefix_rfl⟩
  froz _ _ := rfl
  sim s k h := .inl ⟨k, rfl, rfl⟩

theorem tame_pure {α : Type} (a : α) : Tame (pure a : M WState α) := tame_ret (.ok a)
theorem tame_fail {α : Type} (e : Err) : Tame (M.fail e : M WState α) := tame_ret (.err e)
theorem tame_panic {α : Type} : Tame (M.panic : M WState α) := tame_ret .panic

theorem tame_bind {α β : Type} {m : M WState α} {f : α → M WState β} (hm : Tame m)
    (hf : ∀ a, Tame (f a)) : Tame (m >>= f) := by
  refine ⟨?_, ?_, ?_⟩
  · intro s hs
    obtain ⟨h1, h2⟩ := hm.mono s hs
    rcases h : m s with ⟨_ | _ | _, s'⟩
    · rw [M.bind_ok h]
      rw [h] at h1 h2
      obtain ⟨h3, h4⟩ := (hf _).mono s' h1
      exact ⟨h3, h2.trans h4⟩
    · rw [M.bind_err h]; rw [h] at h1 h2; exact ⟨h1, h2⟩
    · rw [M.bind_panic h]; rw [h] at h1 h2; exact ⟨h1, h2⟩
  · intro s hs
    have h1 := hm.froz s hs
    rcases h : m s with ⟨_ | _ | _, s'⟩
    · rw [M.bind_ok h]
      rw [h] at h1
      simp only [] at h1
      rw [(hf _).froz s' (by rw [h1]; exact hs), h1]
    · rw [M.bind_err h]; rw [h] at h1; exact h1
    · rw [M.bind_panic h]; rw [h] at h1; exact h1
  · intro s k hs
    obtain ⟨h1, h2⟩ := hm.mono s hs
    rcases hm.sim s k hs with ⟨k', hk, e⟩ | ⟨⟨e, he⟩, hb, ho, hl, hlt⟩
    · rcases h : m s with ⟨a | _ | _, s'⟩
      · rw [h] at e h1 h2 hk
        rw [M.bind_ok h, M.bind_ok e]
        have := (hf a).sim s' k' h1
        simp only [] at hk
        rw [hk] at this
        rcases this with ⟨k2, j1, j2⟩ | j
        · exact .inl ⟨k2, by omega, j2⟩
        · exact .inr j
      · rw [h] at e hk
        rw [M.bind_err h, M.bind_err e]
        exact .inl ⟨k', hk, rfl⟩
      · rw [h] at e hk
        rw [M.bind_panic h, M.bind_panic e]
        exact .inl ⟨k', hk, rfl⟩
    · right
      rcases h' : m (s.on k) with ⟨_ | _ | _, sb⟩ <;> rw [h'] at he hb ho hl <;> simp at he
      subst he
      rw [M.bind_err h']
      refine ⟨⟨_, rfl⟩, hb, ?_⟩
      rcases h : m s with ⟨a | _ | _, s'⟩
      · rw [M.bind_ok h]
        rw [h] at h1 ho hlt
        have hm2 := ((hf a).mono s' h1).2
        exact ⟨ho.trans hm2, hl, Nat.lt_of_lt_of_le hlt hm2.length_le⟩
      · rw [M.bind_err h]; rw [h] at ho hlt; exact ⟨ho, hl, hlt⟩
      · rw [M.bind_panic h]; rw [h] at ho hlt; exact ⟨ho, hl, hlt⟩

theorem tame_ite {α : Type} {c : Prop} [Decidable c] {m m' : M WState α} (h : Tame m) (h' : Tame m') :
    Tame (if c then m else m') := by split <;> assumption

theorem tame_wr {m : M Sink Unit} {p : Bytes} (h : Emits m p) : Tame (wr m) := by
  refine ⟨?_, ?_, ?_⟩
  · rintro ⟨⟨o, b⟩, cw⟩ hs
    simp only [] at hs
    subst hs
    unfold wr
    rw [(h ⟨o, none⟩).1 rfl]
    exact ⟨rfl, List.prefix_append _ _⟩
  · rintro ⟨⟨o, b⟩, cw⟩ hs
    simp only [] at hs
    subst hs
    unfold wr
    have := (h ⟨o, some 0⟩).2 0 rfl
    split at this
    · rename_i hl
      simp only []
      rw [this]
      have : p = [] := List.length_eq_zero_iff.1 (by omega)
      simp [this]
    · simp only []
      rw [this]
      simp
  · rintro ⟨⟨o, b⟩, cw⟩ k hs
    simp only [] at hs
    subst hs
    unfold wr WState.on
    simp only []
    rw [(h ⟨o, none⟩).1 rfl]
    have := (h ⟨o, some k⟩).2 k rfl
    split at this
    · left; rw [this]; exact ⟨k - p.length, by simp; omega, rfl⟩
    · right
      rw [this]
      refine ⟨⟨_, rfl⟩, rfl, ?_, ?_, ?_⟩
      · exact (List.prefix_append_right_inj o).2 (List.take_prefix _ _)
      · simp; omega
      · simp; omega

theorem tame_str (b : Bytes) : Tame (wr (writeString b)) := tame_wr (emits_writeString b)

theorem newBytesWriter_eq (n : Nat) (w : Sink) : newBytesWriter n w =
    match writeUint64 n w with
    | (.ok _, w') => (.ok ⟨0, n, false⟩, w')
    | (.err e, w') => (.err e, w')
    | (.panic, w') => (.panic, w') := by
  unfold newBytesWriter
  rw [M.bind_apply]
  rcases writeUint64 n w with ⟨_ | _ | _, _⟩ <;> rfl

theorem tame_setContentWriter (n : Nat) : Tame (setContentWriter n) := by
  have key : ∀ w : Sink, (w.budget = none → writeUint64 n w = (.ok (), ⟨w.out ++ putUint64 n, none⟩)) ∧ _ :=
    emits_writeAll (putUint64 n)
  refine ⟨?_, ?_, ?_⟩
  · rintro ⟨⟨o, b⟩, cw⟩ hs
    simp only [] at hs
    subst hs
    unfold setContentWriter
    rw [newBytesWriter_eq, (key ⟨o, none⟩).1 rfl]
    exact ⟨rfl, List.prefix_append _ _⟩
  · rintro ⟨⟨o, b⟩, cw⟩ hs
    simp only [] at hs
    subst hs
    unfold setContentWriter
    have := (key ⟨o, some 0⟩).2 0 rfl
    rw [if_neg (by simp [putUint64])] at this
    have e : writeUint64 n ⟨o, some 0⟩ = writeAll (putUint64 n) ⟨o, some 0⟩ := rfl
    simp only []
    rw [newBytesWriter_eq, e, this]
    simp
  · rintro ⟨⟨o, b⟩, cw⟩ k hs
    simp only [] at hs
    subst hs
    unfold setContentWriter WState.on
    simp only []
    rw [newBytesWriter_eq, newBytesWriter_eq, (key ⟨o, none⟩).1 rfl]
    have := (key ⟨o, some k⟩).2 k rfl
    have e : writeUint64 n ⟨o, some k⟩ = writeAll (putUint64 n) ⟨o, some k⟩ := rfl
    rw [e]
    split at this
    · left; rw [this]; exact ⟨_, by simp; omega, rfl⟩
    · right
      rw [this]
      refine ⟨⟨_, rfl⟩, rfl, ?_, ?_, ?_⟩
      · exact (List.prefix_append_right_inj o).2 (List.take_prefix _ _)
      · simp; omega
      · simp; omega

theorem tame_setDummyWriter : Tame setDummyWriter where
  mono s h := ⟨h, List.prefix_rfl⟩
  froz _ _ := rfl
  sim s k h := .inl ⟨k, rfl, rfl⟩

theorem tame_emitStart (h : Header) : Tame (emitStart h) := by
  unfold emitStart
  refine tame_bind (tame_str _) fun _ => tame_bind (tame_str _) fun _ => tame_bind (tame_str _) fun _ => ?_
  refine tame_ite (tame_ite ?_ ?_) (tame_ite ?_ (tame_ite tame_setDummyWriter (tame_pure _)))
  · exact tame_bind (tame_str _) fun _ => tame_bind (tame_wr (emits_writeBytes [])) fun _ =>
      tame_bind (tame_str _) fun _ => tame_setContentWriter _
  · exact tame_bind (tame_str _) fun _ => tame_setContentWriter _
  · exact tame_bind (tame_str _) fun _ => tame_bind (tame_str _) fun _ => tame_setDummyWriter

theorem tame_entryStart (n : Bytes) : Tame (entryStart n) := by
  unfold entryStart
  exact tame_bind (tame_str _) fun _ => tame_bind (tame_str _) fun _ => tame_bind (tame_str _) fun _ =>
    tame_bind (tame_str _) fun _ => tame_str _

theorem tame_contentClose : Tame contentClose := by
  refine ⟨?_, ?_, ?_⟩
  · rintro ⟨⟨o, b⟩, cw⟩ hs
    simp only [] at hs
    subst hs
    unfold contentClose
    cases cw with
    | none => exact ⟨rfl, List.prefix_rfl⟩
    | some c =>
      simp only []
      split
      · split <;> exact ⟨rfl, List.prefix_rfl⟩
      · unfold BytesWriter.close
        by_cases h1 : c.bw.paddingWritten = true
        · rw [if_pos h1]; exact ⟨rfl, List.prefix_rfl⟩
        · rw [if_neg h1]
          by_cases h2 : c.bw.bytesWritten ≠ c.bw.totalLength
          · rw [if_pos h2]; exact ⟨rfl, List.prefix_rfl⟩
          · rw [if_neg h2, (emits_writePadding c.bw.totalLength ⟨o, none⟩).1 rfl]
            exact ⟨rfl, List.prefix_append _ _⟩
  · rintro ⟨⟨o, b⟩, cw⟩ hs
    simp only [] at hs
    subst hs
    unfold contentClose
    cases cw with
    | none => rfl
    | some c =>
      simp only []
      split
      · split <;> rfl
      · unfold BytesWriter.close
        by_cases h1 : c.bw.paddingWritten = true
        · rw [if_pos h1]
        · rw [if_neg h1]
          by_cases h2 : c.bw.bytesWritten ≠ c.bw.totalLength
          · rw [if_pos h2]
          · rw [if_neg h2]
            have := (emits_writePadding c.bw.totalLength ⟨o, some 0⟩).2 0 rfl
            split at this
            · rename_i hl
              rw [this]
              have : pad c.bw.totalLength = [] := List.length_eq_zero_iff.1 (by omega)
              simp [this]
            · rw [this]; simp
  · rintro ⟨⟨o, b⟩, cw⟩ k hs
    simp only [] at hs
    subst hs
    unfold contentClose WState.on
    cases cw with
    | none => exact .inl ⟨k, rfl, rfl⟩
    | some c =>
      simp only []
      by_cases hd : c.dummy = true
      · rw [if_pos hd, if_pos hd]
        left
        refine ⟨k, ?_⟩
        split <;> exact ⟨rfl, rfl⟩
      · rw [if_neg hd, if_neg hd]
        unfold BytesWriter.close
        by_cases h1 : c.bw.paddingWritten = true
        · rw [if_pos h1, if_pos h1]; exact .inl ⟨k, rfl, rfl⟩
        · rw [if_neg h1, if_neg h1]
          by_cases h2 : c.bw.bytesWritten ≠ c.bw.totalLength
          · rw [if_pos h2, if_pos h2]; exact .inl ⟨k, rfl, rfl⟩
          · rw [if_neg h2, if_neg h2]
            rw [(emits_writePadding c.bw.totalLength ⟨o, none⟩).1 rfl]
            have := (emits_writePadding c.bw.totalLength ⟨o, some k⟩).2 k rfl
            split at this
            · left; rw [this]; exact ⟨_, by simp; omega, rfl⟩
            · right
              rw [this]
              refine ⟨⟨_, rfl⟩, rfl, ?_, ?_, ?_⟩
              · exact (List.prefix_append_right_inj o).2 (List.take_prefix _ _)
              · simp; omega
              · simp; omega

theorem tame_descend (h : Header) (S : List Header) : Tame (descend h S) := by
  induction S with
  | nil => exact tame_fail _
  | cons cur rest ih =>
    unfold descend
    refine tame_bind (tame_ret _) fun p => ?_
    cases p with
    | none =>
      exact tame_bind (tame_str _) fun _ => tame_ite (tame_fail _) (tame_bind (tame_str _) fun _ => ih)
    | some n =>
      exact tame_bind (tame_entryStart _) fun _ => tame_bind (tame_emitStart _) fun _ => tame_pure _

theorem tame_unwind (S : List Header) : Tame (unwind S) := by
  induction S with
  | nil => exact tame_pure _
  | cons cur rest ih =>
    unfold unwind
    exact tame_bind (tame_str _) fun _ => tame_ite (tame_pure _) (tame_bind (tame_str _) fun _ => ih)

theorem tame_emitHeader (h : Header) (p : WPhase) : Tame (emitHeader h p) := by
  cases p with
  | start => exact tame_ite (tame_fail _) (tame_bind (tame_emitStart _) fun _ => tame_pure _)
  | running S => exact tame_bind tame_contentClose fun _ => tame_descend h S
  | ended => exact tame_panic

theorem tame_emitClose (p : WPhase) : Tame (emitClose p) := by
  cases p with
  | start => exact tame_fail _
  | running S => exact tame_bind tame_contentClose fun _ => tame_unwind S
  | ended => exact tame_pure _

/-- the same writer on a sink with budget `k` -/
def Writer.on (w : Writer) (k : Nat) : Writer := { w with st := w.st.on k }

theorem on_sink (s : WState) (k : Nat) : (s.on k).sink = ⟨s.sink.out, some k⟩ := rfl

/-- one call: on the unlimited sink -/
theorem op_mono (w : Writer) (o : WOp) (hs : w.st.sink.budget = none) :
    (w.op o).2.st.sink.budget = none ∧ w.st.sink.out <+: (w.op o).2.st.sink.out := by
  cases o with
  | header h =>
    simp only [Writer.op, Writer.writeHeader]
    have := (tame_emitHeader h w.phase).mono w.st hs
    split
    · exact ⟨hs, List.prefix_rfl⟩
    · exact ⟨hs, List.prefix_rfl⟩
    · split
      · exact ⟨hs, List.prefix_rfl⟩
      · split
        · exact ⟨hs, List.prefix_rfl⟩
        · split <;> (rename_i he; rw [he] at this; exact this)
  | write p =>
    simp only [Writer.op, Writer.write]
    cases hc : w.st.cw with
    | none => exact ⟨hs, List.prefix_rfl⟩
    | some c =>
      simp only []
      split
      · exact ⟨hs, List.prefix_rfl⟩
      · unfold BytesWriter.write
        split
        · exact ⟨hs, List.prefix_rfl⟩
        · simp only [Sink.write, hs]
          exact ⟨trivial, List.prefix_append _ _⟩
  | close =>
    simp only [Writer.op, Writer.close]
    have := (tame_emitClose w.phase).mono w.st hs
    split
    · exact ⟨hs, List.prefix_rfl⟩
    · split <;> (rename_i he; rw [he] at this; exact this)

/-- one call: on a full sink -/
theorem op_froz (w : Writer) (o : WOp) (hs : w.st.sink.budget = some 0) :
    (w.op o).2.st.sink = w.st.sink := by
  cases o with
  | header h =>
    simp only [Writer.op, Writer.writeHeader]
    have := (tame_emitHeader h w.phase).froz w.st hs
    split
    · rfl
    · rfl
    · split
      · rfl
      · split
        · rfl
        · split <;> (rename_i he; rw [he] at this; exact this)
  | write p =>
    simp only [Writer.op, Writer.write]
    cases hc : w.st.cw with
    | none => rfl
    | some c =>
      simp only []
      split
      · rfl
      · unfold BytesWriter.write
        split
        · rfl
        · rcases hw : w.st.sink with ⟨out, b⟩
          rw [hw] at hs
          simp only [] at hs
          subst hs
          simp only [Sink.write]
          split
          · rename_i hl
            have : p = [] := List.length_eq_zero_iff.1 (by omega)
            simp [this]
          · simp
  | close =>
    simp only [Writer.op, Writer.close]
    have := (tame_emitClose w.phase).froz w.st hs
    split
    · rfl
    · split <;> (rename_i he; rw [he] at this; exact this)

/-- the call returned an error -/
def WOut.failed : WOut → Prop
  | .unit r => ∃ e, r = .err e
  | .write r => ∃ n e, r = .ok (n, some e)

theorem failed_not_good {o : WOut} (h : o.failed) : o.good = false := by
  rcases o with r | r
  · obtain ⟨e, rfl⟩ := h; rfl
  · obtain ⟨n, e, rfl⟩ := h; rfl

/-- one call: limited against unlimited -/
theorem op_sim (w : Writer) (k : Nat) (o : WOp) (hs : w.st.sink.budget = none) :
    (∃ k', k' + (w.op o).2.st.sink.out.length = k + w.st.sink.out.length ∧
      (w.on k).op o = ((w.op o).1, (w.op o).2.on k')) ∨
    (((w.on k).op o).1.failed ∧ ((w.on k).op o).2.st.sink.budget = some 0 ∧
      ((w.on k).op o).2.st.sink.out <+: (w.op o).2.st.sink.out ∧
      ((w.on k).op o).2.st.sink.out.length = k + w.st.sink.out.length ∧
      k + w.st.sink.out.length < (w.op o).2.st.sink.out.length) := by
  cases o with
  | header h =>
    simp only [Writer.op, Writer.writeHeader]
    have hsim := (tame_emitHeader h w.phase).sim w.st k hs
    cases hv : h.validate with
    | err e => exact .inl ⟨k, rfl, rfl⟩
    | panic => exact .inl ⟨k, rfl, rfl⟩
    | ok u =>
      simp only []
      have ec : (w.on k).closed = w.closed := rfl
      have ep : (w.on k).phase = w.phase := rfl
      have es : (w.on k).st = w.st.on k := rfl
      rw [ec, ep, es]
      by_cases hc : w.closed = true
      · rw [if_pos hc, if_pos hc]; exact .inl ⟨k, rfl, rfl⟩
      · rw [if_neg hc, if_neg hc]
        by_cases hp : w.phase = .ended
        · rw [if_pos hp, if_pos hp]; exact .inl ⟨k, rfl, rfl⟩
        · rw [if_neg hp, if_neg hp]
          rcases hsim with ⟨k', hk, e⟩ | ⟨⟨e, he⟩, hb, ho⟩
          · left
            refine ⟨k', ?_⟩
            rw [e]
            revert hk
            rcases emitHeader h w.phase w.st with ⟨_ | _ | _, s'⟩ <;> exact fun hk => ⟨hk, rfl⟩
          · right
            rcases h' : emitHeader h w.phase (w.st.on k) with ⟨_ | _ | _, sb⟩ <;> rw [h'] at he hb ho <;> simp at he
            refine ⟨⟨_, rfl⟩, hb, ?_⟩
            rcases h'' : emitHeader h w.phase w.st with ⟨_ | _ | _, s'⟩ <;> rw [h''] at ho <;> exact ho
  | write p =>
    simp only [Writer.op, Writer.write]
    have ec : (w.on k).st.cw = w.st.cw := rfl
    have es : (w.on k).st.sink = ⟨w.st.sink.out, some k⟩ := rfl
    rw [ec, es]
    cases hc : w.st.cw with
    | none => exact .inl ⟨k, rfl, rfl⟩
    | some c =>
      simp only []
      by_cases hd : c.dummy = true
      · rw [if_pos hd, if_pos hd]; exact .inl ⟨k, rfl, rfl⟩
      · rw [if_neg hd, if_neg hd]
        unfold BytesWriter.write
        by_cases h1 : (c.bw.bytesWritten + p.length) % 2 ^ 64 > c.bw.totalLength
        · rw [if_pos h1, if_pos h1]; exact .inl ⟨k, rfl, rfl⟩
        · rw [if_neg h1, if_neg h1]
          simp only [Sink.write, hs]
          by_cases h2 : p.length ≤ k
          · simp only [h2, if_true]; exact .inl ⟨_, by simp; omega, rfl⟩
          · simp only [h2, if_false]
            right
            refine ⟨⟨_, _, rfl⟩, trivial, ?_, ?_, ?_⟩
            · exact (List.prefix_append_right_inj _).2 (List.take_prefix _ _)
            · simp; omega
            · simp; omega
  | close =>
    simp only [Writer.op, Writer.close]
    have hsim := (tame_emitClose w.phase).sim w.st k hs
    have ec : (w.on k).closed = w.closed := rfl
    have ep : (w.on k).phase = w.phase := rfl
    have es : (w.on k).st = w.st.on k := rfl
    rw [ec, ep, es]
    by_cases hc : w.closed = true
    · rw [if_pos hc, if_pos hc]; exact .inl ⟨k, rfl, rfl⟩
    · rw [if_neg hc, if_neg hc]
      rcases hsim with ⟨k', hk, e⟩ | ⟨⟨e, he⟩, hb, ho⟩
      · left
        refine ⟨k', ?_⟩
        rw [e]
        revert hk
        rcases emitClose w.phase w.st with ⟨_ | _ | _, s'⟩ <;> exact fun hk => ⟨hk, rfl⟩
      · right
        rcases h' : emitClose w.phase (w.st.on k) with ⟨_ | _ | _, sb⟩ <;> rw [h'] at he hb ho <;> simp at he
        refine ⟨⟨_, rfl⟩, hb, ?_⟩
        rcases h'' : emitClose w.phase w.st with ⟨_ | _ | _, s'⟩ <;> rw [h''] at ho <;> exact ho

theorem run_mono (w : Writer) (ops : List WOp) (hs : w.st.sink.budget = none) :
    (w.run ops).2.st.sink.budget = none ∧ w.st.sink.out <+: (w.run ops).2.st.sink.out := by
  induction ops generalizing w with
  | nil => exact ⟨hs, List.prefix_rfl⟩
  | cons o ops ih =>
    obtain ⟨h1, h2⟩ := op_mono w o hs
    obtain ⟨h3, h4⟩ := ih _ h1
    exact ⟨h3, h2.trans h4⟩

theorem run_froz (w : Writer) (ops : List WOp) (hs : w.st.sink.budget = some 0) :
    (w.run ops).2.st.sink = w.st.sink := by
  induction ops generalizing w with
  | nil => rfl
  | cons o ops ih =>
    have h1 := op_froz w o hs
    have := ih (w.op o).2 (by rw [h1]; exact hs)
    simp only [Writer.run]
    rw [this, h1]

theorem run_sim (w : Writer) (k : Nat) (ops : List WOp) (hs : w.st.sink.budget = none) :
    ((w.on k).run ops).2.st.sink.out <+: (w.run ops).2.st.sink.out ∧
    ((∀ o ∈ ((w.on k).run ops).1, o.good = true) → ((w.on k).run ops).1 = (w.run ops).1 ∧
      ((w.on k).run ops).2.st.sink.out = (w.run ops).2.st.sink.out) := by
  induction ops generalizing w k with
  | nil => exact ⟨List.prefix_rfl, fun _ => ⟨rfl, rfl⟩⟩
  | cons o ops ih =>
    obtain ⟨h1, h2⟩ := op_mono w o hs
    simp only [Writer.run]
    rcases op_sim w k o hs with ⟨k', -, e⟩ | ⟨hg, hb, ho, -, -⟩
    · rw [e]
      obtain ⟨i1, i2⟩ := ih (w.op o).2 k' h1
      refine ⟨i1, ?_⟩
      intro hg
      obtain ⟨j1, j2⟩ := i2 (fun x hx => hg x (List.mem_cons_of_mem _ hx))
      exact ⟨by simp only [j1], j2⟩
    · refine ⟨?_, ?_⟩
      · rw [run_froz _ ops hb]
        exact ho.trans (run_mono _ ops h1).2
      · intro hgood
        have := hgood _ (List.mem_cons_self ..)
        rw [failed_not_good hg] at this
        simp at this

end Verif.Nar
