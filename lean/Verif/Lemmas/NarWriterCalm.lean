import Verif.Spec.NarWriterCalls
import Verif.Props.NarHeader
import Verif.Props.NarConcStop
import Verif.Model.NarDump

/-! When a `nar.Writer` does not panic. -/

namespace Verif.Nar
open Verif.GoLib Verif.Spec Verif.Wire

/-- Does not panic, and does not lose the content writer unless it fails. -/
def Calm {α : Type} (m : M WState α) : Prop :=
  ∀ s, (m s).1 ≠ .panic ∧ (s.cw ≠ none → ∀ a, (m s).1 = .ok a → (m s).2.cw ≠ none)

/-- Also has a content writer afterwards, unless it fails. -/
def Sets {α : Type} (m : M WState α) : Prop := ∀ s, (m s).1 ≠ .panic ∧ (∀ a, (m s).1 = .ok a → (m s).2.cw ≠ none)

theorem Sets.calm {α : Type} {m : M WState α} (h : Sets m) : Calm m := fun s => ⟨(h s).1, fun _ => (h s).2⟩

theorem calm_pure {α : Type} (a : α) : Calm (pure a : M WState α) := fun _ => ⟨nofun, fun h _ _ => h⟩
theorem calm_fail {α : Type} (e : Err) : Calm (M.fail e : M WState α) := fun _ => ⟨nofun, fun h _ _ => h⟩
theorem calm_ret {α : Type} (r : Res α) (hr : r ≠ .panic) : Calm (ret r) := fun _ => ⟨hr, fun h _ _ => h⟩

theorem calm_bind {α β : Type} {m : M WState α} {f : α → M WState β} (hm : Calm m) (hf : ∀ a, Calm (f a)) : Calm (m >>= f) := by
  intro s
  obtain ⟨h1, h2⟩ := hm s
  rcases h : m s with ⟨a | e | _, s'⟩
  · rw [M.bind_ok h]
    rw [h] at h2
    exact ⟨(hf a s').1, fun hs => (hf a s').2 (h2 hs a rfl)⟩
  · rw [M.bind_err h]; exact ⟨nofun, nofun⟩
  · rw [h] at h1; exact absurd rfl h1

theorem sets_bind {α β : Type} {m : M WState α} {f : α → M WState β} (hm : Calm m) (hf : ∀ a, Sets (f a)) : Sets (m >>= f) := by
  intro s
  obtain ⟨h1, h2⟩ := hm s
  rcases h : m s with ⟨a | e | _, s'⟩
  · rw [M.bind_ok h]
    exact hf a s'
  · rw [M.bind_err h]; exact ⟨nofun, nofun⟩
  · rw [h] at h1; exact absurd rfl h1

theorem sets_then {α β : Type} {m : M WState α} {f : α → M WState β} (hm : Sets m) (hf : ∀ a, Calm (f a)) : Sets (m >>= f) := by
  intro s
  obtain ⟨h1, h2⟩ := hm s
  rcases h : m s with ⟨a | e | _, s'⟩
  · rw [M.bind_ok h]
    rw [h] at h2
    exact ⟨(hf a s').1, (hf a s').2 (h2 a rfl)⟩
  · rw [M.bind_err h]; exact ⟨nofun, nofun⟩
  · rw [h] at h1; exact absurd rfl h1

theorem writeAll_calm (p : Bytes) (s : Sink) : (Wire.writeAll p s).1 ≠ .panic := by
  unfold Wire.writeAll
  split <;> exact nofun

theorem bind_calm {α β : Type} {m : M Sink α} {f : α → M Sink β} (hm : ∀ s, (m s).1 ≠ .panic) (hf : ∀ a s, (f a s).1 ≠ .panic) (s : Sink) :
    ((m >>= f) s).1 ≠ .panic := by
  have h1 := hm s
  rcases h : m s with ⟨a | e | _, s'⟩
  · rw [M.bind_ok h]; exact hf a s'
  · rw [M.bind_err h]; exact nofun
  · rw [h] at h1; exact absurd rfl h1

theorem writePadding_calm (n : Nat) (s : Sink) : (Wire.writePadding n s).1 ≠ .panic := by
  unfold Wire.writePadding
  split
  · exact writeAll_calm _ _
  · exact nofun

theorem writeBytes_calm (p : Bytes) (s : Sink) : (Wire.writeBytes p s).1 ≠ .panic :=
  bind_calm (writeAll_calm _) (fun _ => bind_calm (writeAll_calm _) fun _ => writePadding_calm _) s

theorem calm_wr (p : Bytes) : Calm (wr (writeBytes p)) := fun s => ⟨writeBytes_calm p _, fun h _ _ => h⟩

theorem sets_content (n : Nat) : Sets (setContentWriter n) := by
  intro s
  have hc : (newBytesWriter n s.sink).1 ≠ .panic := by
    unfold newBytesWriter
    exact bind_calm (writeAll_calm _) (fun _ _ h => absurd h (by simp [pure])) _
  unfold setContentWriter
  rcases h : newBytesWriter n s.sink with ⟨a | e | _, s'⟩
  · exact ⟨nofun, nofun⟩
  · exact ⟨nofun, nofun⟩
  · rw [h] at hc; exact absurd rfl hc

theorem sets_dummy : Sets setDummyWriter := fun s => ⟨nofun, nofun⟩

theorem sets_emitStart (h : Header) (hk : NarType h) : Sets (emitStart h) := by
  unfold emitStart
  refine sets_bind (calm_wr _) fun _ => sets_bind (calm_wr _) fun _ => sets_bind (calm_wr _) fun _ => ?_
  split
  · split
    · exact sets_bind (calm_wr _) fun _ => sets_bind (calm_wr _) fun _ => sets_bind (calm_wr _) fun _ => sets_content _
    · exact sets_bind (calm_wr _) fun _ => sets_content _
  · split
    · exact sets_bind (calm_wr _) fun _ => sets_bind (calm_wr _) fun _ => sets_dummy
    · split
      · exact sets_dummy
      · rename_i h1 h2 h3
        exact absurd hk (by unfold NarType; simp [h1, h2, h3])

theorem place_calm (cur h : Header) : place cur h ≠ .panic := by
  unfold place
  split
  · exact nofun
  · unfold rel
    split
    · exact nofun
    · rename_i h; split at h <;> cases h
    · split
      · exact nofun
      · split
        · exact nofun
        · split <;> exact nofun

theorem calm_descend (h : Header) (hk : NarType h) (stack : List Header) : Calm (descend h stack) := by
  induction stack with
  | nil => exact calm_fail _
  | cons cur rest ih =>
    unfold descend
    refine calm_bind (calm_ret _ (place_calm cur h)) fun p => ?_
    cases p with
    | none =>
      refine calm_bind (calm_wr _) fun _ => ?_
      split
      · exact calm_fail _
      · exact calm_bind (calm_wr _) fun _ => ih
    | some name =>
      refine calm_bind ?_ fun _ => calm_bind (sets_emitStart h hk).calm fun _ => calm_pure _
      exact calm_bind (calm_wr _) fun _ => calm_bind (calm_wr _) fun _ => calm_bind (calm_wr _) fun _ => calm_bind (calm_wr _) fun _ => calm_wr _

theorem calm_unwind (stack : List Header) : Calm (unwind stack) := by
  induction stack with
  | nil => exact calm_pure _
  | cons cur rest ih =>
    unfold unwind
    refine calm_bind (calm_wr _) fun _ => ?_
    split
    · exact calm_pure _
    · exact calm_bind (calm_wr _) fun _ => ih

theorem contentClose_calm (s : WState) (hs : s.cw ≠ none) : (contentClose s).1 ≠ .panic ∧ (contentClose s).2.cw ≠ none := by
  unfold contentClose
  split
  · exact absurd ‹_› hs
  · split
    · split <;> exact ⟨nofun, nofun⟩
    · split <;> exact ⟨nofun, nofun⟩

/-- Between two calls: not closed unless the goroutine has ended, and with a content writer unless it waits for the first header or has ended. -/
structure Fit (w : Writer) : Prop where
  closed : w.closed = true → w.phase = .ended
  cw : ∀ stack, w.phase = .running stack → w.st.cw ≠ none

theorem emitHeader_calm (h : Header) (hk : NarType h) (w : Writer) (hw : Fit w) (hp : w.phase ≠ .ended) :
    (emitHeader h w.phase w.st).1 ≠ .panic ∧ ∀ a, (emitHeader h w.phase w.st).1 = .ok a → (emitHeader h w.phase w.st).2.cw ≠ none := by
  cases hph : w.phase with
  | start =>
    unfold emitHeader
    split
    · exact ⟨nofun, nofun⟩
    · exact sets_then (sets_emitStart h hk) (fun _ => calm_pure _) w.st
  | running stack =>
    show ((contentClose >>= fun _ => descend h stack) w.st).1 ≠ .panic ∧
      ∀ a, ((contentClose >>= fun _ => descend h stack) w.st).1 = .ok a → ((contentClose >>= fun _ => descend h stack) w.st).2.cw ≠ none
    obtain ⟨h1, h2⟩ := contentClose_calm w.st (hw.cw stack hph)
    rcases hc : contentClose w.st with ⟨a | e | _, s'⟩
    · rw [M.bind_ok hc]
      rw [hc] at h2
      obtain ⟨h3, h4⟩ := calm_descend h hk stack s'
      exact ⟨h3, h4 h2⟩
    · rw [M.bind_err hc]; exact ⟨nofun, nofun⟩
    · rw [hc] at h1; exact absurd rfl h1
  | ended => exact absurd hph hp

theorem emitClose_calm (w : Writer) (hw : Fit w) : (emitClose w.phase w.st).1 ≠ .panic := by
  cases hph : w.phase with
  | start => exact nofun
  | running stack =>
    show ((contentClose >>= fun _ => unwind stack) w.st).1 ≠ .panic
    obtain ⟨h1, h2⟩ := contentClose_calm w.st (hw.cw stack hph)
    rcases hc : contentClose w.st with ⟨a | e | _, s'⟩
    · rw [M.bind_ok hc]; exact (calm_unwind stack s').1
    · rw [M.bind_err hc]; exact nofun
    · rw [hc] at h1; exact absurd rfl h1
  | ended => exact nofun

theorem unwind_cw (stack : List Header) (s : WState) : (unwind stack s).2.cw = s.cw := by
  induction stack generalizing s with
  | nil => rfl
  | cons cur rest ih =>
    unfold unwind
    have hw : ∀ (p : Bytes) (s : WState), (wr (writeBytes p) s).2.cw = s.cw := fun _ _ => rfl
    rcases h : wr (writeString b!")") s with ⟨a | e | _, s'⟩
    · have h1 := hw b!")" s
      rw [M.bind_ok h]
      rw [show wr (writeBytes b!")") s = _ from h] at h1
      split
      · exact h1
      · rcases h' : wr (writeString b!")") s' with ⟨a | e | _, s''⟩
        · have h2 := hw b!")" s'
          rw [M.bind_ok h']
          rw [show wr (writeBytes b!")") s' = _ from h'] at h2
          rw [ih, h2, h1]
        · have h2 := hw b!")" s'
          rw [M.bind_err h']
          rw [show wr (writeBytes b!")") s' = _ from h'] at h2
          exact h2.trans h1
        · have h2 := hw b!")" s'
          rw [M.bind_panic h']
          rw [show wr (writeBytes b!")") s' = _ from h'] at h2
          exact h2.trans h1
    · have h1 := hw b!")" s
      rw [M.bind_err h]
      rw [show wr (writeBytes b!")") s = _ from h] at h1
      exact h1
    · have h1 := hw b!")" s
      rw [M.bind_panic h]
      rw [show wr (writeBytes b!")") s = _ from h] at h1
      exact h1

/-- What a `WriteHeader` does. -/
theorem writeHeader_cases (h : Header) (hk : NarType h) (w : Writer) (hw : Fit w) :
    (h.validate ≠ .ok () ∧ ∃ e, w.writeHeader h = (.err e, w)) ∨
    (h.validate = .ok () ∧ w.closed = true ∧ w.writeHeader h = (.panic, w)) ∨
    (h.validate = .ok () ∧ w.closed = false ∧ w.phase = .ended ∧ w.writeHeader h = (.block, w)) ∨
    (h.validate = .ok () ∧ w.closed = false ∧ w.phase ≠ .ended ∧
      ((∃ st stack, st.cw ≠ none ∧ w.writeHeader h = (.ok (), ⟨st, .running stack, false⟩)) ∨
        ∃ st e, w.writeHeader h = (.err e, ⟨st, .ended, false⟩))) := by
  have hnp := (Props.C34_validate_iff h).2
  unfold Writer.writeHeader
  cases hv : h.validate with
  | err e => exact .inl ⟨nofun, _, rfl⟩
  | panic => exact absurd hv hnp
  | ok u =>
    simp only []
    cases hc : w.closed with
    | true => exact .inr (.inl ⟨trivial, rfl, rfl⟩)
    | false =>
      simp only [Bool.false_eq_true, if_false]
      by_cases hp : w.phase = .ended
      · rw [if_pos hp]; exact .inr (.inr (.inl ⟨trivial, trivial, hp, rfl⟩))
      · rw [if_neg hp]
        refine .inr (.inr (.inr ⟨trivial, trivial, hp, ?_⟩))
        obtain ⟨h1, h2⟩ := emitHeader_calm h hk w hw hp
        rcases he : emitHeader h w.phase w.st with ⟨a | e | _, st⟩
        · rw [he] at h2; exact .inl ⟨st, a, h2 a rfl, rfl⟩
        · exact .inr ⟨st, e, rfl⟩
        · rw [he] at h1; exact absurd rfl h1

end Verif.Nar
