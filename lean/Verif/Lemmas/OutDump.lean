import Verif.Lemmas.Out
import Verif.Lemmas.NarWriterRun

/-! `DumpPathFilter`, a series of calls and `bufio.Writer` on an arbitrary `io.Writer`. -/

namespace Verif.Out
open Verif.GoLib Verif.Wire Verif.Nar

variable {D : Dev}

theorem closed_after (w : Writer) : w.close.2.closed = true := by
  unfold Writer.close
  split
  · rename_i h; exact h
  · split <;> rfl

theorem gclosed_after (w : GWriter D) : w.close.2.closed = true := by
  unfold GWriter.close
  split
  · rename_i h; exact h
  · split <;> rfl

theorem close_closed {w : Writer} (h : w.closed = true) : w.close.2 = w := by
  unfold Writer.close; rw [if_pos h]

theorem gclose_closed {w : GWriter D} (h : w.closed = true) : w.close.2 = w := by
  unfold GWriter.close; rw [if_pos h]

theorem newWriter_sim {P E C : GSink D → Prop} (hc : Contract P E C) (s : GSink D) (s' : Sink) (hp : P s) (ho : s.out = s'.out ∧ C s)
    (hb : s'.budget = none) :
    (∃ w w', newWriter s = (.ok w, w.st.sink) ∧ Nar.newWriter s' = (.ok w', w'.st.sink) ∧ RelW C w w' ∧ P w.st.sink) ∨
    (∃ e s1 w', newWriter s = (.err e, s1) ∧ Nar.newWriter s' = (.ok w', w'.st.sink) ∧ w'.st.sink.budget = none ∧
      s1.out <+: w'.st.sink.out ∧ P s1 ∧ E s1) := by
  have h1 := (tameS_writeString hc narVersionMagic1).sim s s' hp ho hb
  have h2 := (tameS_writeString hc narVersionMagic1).mono s' hb
  have h3 := (tameS_writeString hc narVersionMagic1).pres s hp
  have h4 := (emits_writeString narVersionMagic1 s').1 hb
  unfold newWriter Nar.newWriter
  rw [h4] at h1 h2 ⊢
  rcases h : writeBytes narVersionMagic1 s with ⟨r, w⟩
  rw [h] at h1 h3
  simp only [] at h1 h2 h3
  rcases h1 with ⟨e1, e2⟩ | ⟨⟨e, e1⟩, e2, e3⟩
  · subst e1
    exact .inl ⟨_, _, rfl, rfl, ⟨⟨e2, rfl, rfl⟩, rfl, rfl⟩, h3⟩
  · subst e1
    exact .inr ⟨e, w, _, rfl, rfl, rfl, e2, h3, e3⟩

/-- `DumpPathFilter` on any writer against an unlimited sink. -/
theorem dump_sim {P E C : GSink D → Prop} (hc : Contract P E C) (filter : Option Filter) (path : Bytes) (root : FNode)
    (s : GSink D) (hp : P s) (ho : s.out = []) (hC : C s) :
    P (dumpPathFilter filter path root s).2 ∧
    (((dumpPathFilter filter path root s).1 = (Nar.dumpPathFilter filter path root ⟨[], none⟩).1 ∧
      (dumpPathFilter filter path root s).2.out = (Nar.dumpPathFilter filter path root ⟨[], none⟩).2.out ∧
      ((dumpPathFilter filter path root s).1 = .ok () → C (dumpPathFilter filter path root s).2)) ∨
    (((∃ e, (dumpPathFilter filter path root s).1 = .err e) ∨
        ((dumpPathFilter filter path root s).1 = (Nar.dumpPathFilter filter path root ⟨[], none⟩).1 ∧
         (dumpPathFilter filter path root s).1 ≠ .ok ())) ∧
      ∃ w1 : GSink D, P w1 ∧ E w1 ∧ w1.out <+: (Nar.dumpPathFilter filter path root ⟨[], none⟩).2.out ∧
        ((dumpPathFilter filter path root s).2 = w1 ∨
          ∃ w : GWriter D, w.st.sink = w1 ∧ (dumpPathFilter filter path root s).2 = w.close.2.st.sink))) := by
  have hS := simW_andThen (simW_dumpNode hc filter path root b!"/") (g := fun _ w => w.close) (g' := fun _ w => w.close)
    fun _ => simW_close hc
  unfold dumpPathFilter Nar.dumpPathFilter
  rcases newWriter_sim hc s ⟨[], none⟩ hp ⟨ho, hC⟩ rfl with ⟨w, w', e1, e2, hr, hpw⟩ | ⟨e, s1, w', e1, e2, hb, hpre, hp1, hE⟩
  · rw [e1, e2]
    simp only []
    have q1 := hS.pres w hpw
    have q2 := hS.sim w w' hpw hr
    have q3 := hS.mono w' hr.st.free
    have hcl : (andThen (dumpNode filter path root b!"/" w) fun _ w => w.close).1 = .ok () →
        (andThen (dumpNode filter path root b!"/" w) fun _ w => w.close).2.closed = true := by
      rcases dumpNode filter path root b!"/" w with ⟨_ | _ | _ | _, w1⟩ <;> simp only [andThen] <;> intro h
      · exact gclosed_after w1
      all_goals simp at h
    have hcl' : (Nar.andThen (Nar.dumpNode filter path root b!"/" w') fun _ w => w.close).1 = .ok () →
        (Nar.andThen (Nar.dumpNode filter path root b!"/" w') fun _ w => w.close).2.closed = true := by
      rcases Nar.dumpNode filter path root b!"/" w' with ⟨_ | _ | _ | _, w1⟩ <;> simp only [Nar.andThen] <;> intro h
      · exact closed_after w1
      all_goals simp at h
    generalize (andThen (dumpNode filter path root b!"/" w) fun _ w => w.close) = L at *
    generalize (Nar.andThen (Nar.dumpNode filter path root b!"/" w') fun _ w => w.close) = U at *
    have q4 := (simW_close hc).pres L.2 q1
    refine ⟨q4, ?_⟩
    rcases q2 with ⟨r1, r2⟩ | ⟨⟨e, r1⟩, r2, r3⟩
    · by_cases hok : L.1 = .ok ()
      · left
        rw [gclose_closed (hcl hok), close_closed (hcl' (r1 ▸ hok))]
        exact ⟨r1, r2.st.out.1, fun _ => r2.st.out.2⟩
      · rcases (simW_close hc).sim L.2 U.2 q1 r2 with ⟨t1, t2⟩ | ⟨⟨e, t1⟩, t2, t3⟩
        · exact .inl ⟨r1, t2.st.out.1, fun h => absurd h hok⟩
        · exact .inr ⟨.inr ⟨r1, hok⟩, _, q4, t3, t2, .inl rfl⟩
    · right
      refine ⟨.inl ⟨e, r1⟩, L.2.st.sink, q1, r3, ?_, .inr ⟨L.2, rfl, rfl⟩⟩
      exact r2.trans ((simW_close hc).mono U.2 q3.1).2
  · rw [e1, e2]
    simp only []
    refine ⟨hp1, .inr ⟨.inl ⟨e, rfl⟩, s1, hp1, hE, ?_, .inl rfl⟩⟩
    have m1 := hS.mono w' hb
    have m2 := (simW_close hc).mono _ m1.1
    exact hpre.trans (m1.2.trans m2.2)

/-- A series of calls on any writer against an unlimited sink, up to the first error. -/
theorem run_sim {P E C : GSink D → Prop} (hc : Contract P E C) (w : GWriter D) (w' : Writer) (ops : List WOp) (hp : P w.st.sink)
    (hr : RelW C w w') :
    ((w.run ops).1 = (w'.run ops).1 ∧ (w.run ops).2.st.sink.out = (w'.run ops).2.st.sink.out) ∨
    ∃ pre o post, (w.run ops).1 = pre ++ o :: post ∧ o.failed ∧ pre = (w'.run ops).1.take pre.length ∧
      (w.run (ops.take (pre.length + 1))).2.st.sink.out <+: (w'.run ops).2.st.sink.out ∧
      E (w.run (ops.take (pre.length + 1))).2.st.sink := by
  induction ops generalizing w w' with
  | nil => exact .inl ⟨rfl, hr.st.out.1⟩
  | cons o ops ih =>
    have hp1 := op_pres hc w o hp
    have hm := op_mono w' o hr.st.free
    simp only [GWriter.run, Writer.run]
    rcases op_sim hc w w' o hp hr with ⟨e1, e2⟩ | ⟨h1, h2, h3⟩
    · rcases ih _ _ hp1 e2 with ⟨i1, i2⟩ | ⟨pre, x, post, i1, i2, i3, i4, i5⟩
      · exact .inl ⟨by rw [e1, i1], i2⟩
      · refine .inr ⟨(w.op o).1 :: pre, x, post, by rw [i1]; rfl, i2, ?_, ?_, ?_⟩
        · simp only [List.length_cons, List.take_succ_cons, e1]
          rw [← i3]
        · simpa [GWriter.run] using i4
        · simpa [GWriter.run] using i5
    · refine .inr ⟨[], _, _, rfl, h1, by simp, ?_, ?_⟩
      · simp only [List.length_nil, List.take_succ_cons, List.take_zero, GWriter.run]
        exact h2.trans (run_mono _ ops hm.1).2
      · simpa [GWriter.run] using h3

/-- The calls of `WriteDerivation`. -/
theorem tameS_writeChunks {P E C : GSink D → Prop} (hc : Contract P E C) : ∀ cs : List Bytes,
    TameS P E C (writeChunks cs) (Derivation.writeChunks cs)
  | [] => tameS_ret _
  | c :: cs => tameS_bind (tameS_writeAll hc c) fun _ => tameS_writeChunks hc cs

theorem tameS_writeDrv {P E C : GSink D → Prop} (hc : Contract P E C) (d : Derivation.Derivation) :
    TameS P E C (writeDrv d) d.write := by
  unfold writeDrv Derivation.Derivation.write
  cases Derivation.writeDerivation d false [] with
  | ok cs => exact tameS_writeChunks hc cs
  | err e => exact tameS_ret _
  | panic => exact tameS_ret _

/-! ## bufio.Writer -/

/-- The part of the contract of `io.Writer` that matters: a call that accepts less than it was given reports an error. -/
def NoShort (D : Dev) : Prop := ∀ st p, (D.write st p).1.2 = none → (D.write st p).1.1 = p.length

/-- The writer never fails. -/
def Never (D : Dev) : Prop := ∀ st p, (D.write st p).1.2 = none

theorem out_write (w : GSink D) (p : Bytes) : (w.write p).2.out = w.out ++ p.take (w.write p).1.1 := by
  unfold GSink.write; rfl

theorem flush_spec (hD : NoShort D) (b : BufSt D) (h : b.err = none) :
    (flush b).2.err = (flush b).1 ∧
    ((flush b).1 = none → (flush b).2.buf = [] ∧ (flush b).2.u.out = b.u.out ++ b.buf) ∧
    (flush b).2.u.out <+: b.u.out ++ b.buf ∧ (flush b).2.buf.length ≤ b.buf.length ∧
    (Never D → (flush b).1 = none) := by
  unfold flush
  rw [h]
  simp only []
  by_cases hb : b.buf = []
  · rw [if_pos hb]
    refine ⟨h, fun _ => ⟨hb, by rw [hb]; simp⟩, ?_, Nat.le_refl _, fun _ => rfl⟩
    exact List.prefix_append _ _
  · rw [if_neg hb]
    have h1 : (b.u.write b.buf).1.2 = none → (b.u.write b.buf).1.1 = b.buf.length := hD b.u.st b.buf
    have h2 := out_write b.u b.buf
    have h3 : Never D → (b.u.write b.buf).1.2 = none := fun hn => hn b.u.st b.buf
    rcases hw : b.u.write b.buf with ⟨⟨n, _ | e⟩, u'⟩ <;> rw [hw] at h1 h2 h3 <;> simp only [] at h1 h2 h3 ⊢
    · have := h1 trivial
      subst this
      rw [if_neg (by simp)]
      simp only []
      rw [List.take_length] at h2
      exact ⟨trivial, fun _ => ⟨trivial, h2⟩, by rw [h2]; exact List.prefix_rfl, by simp, fun _ => trivial⟩
    · rw [if_neg (by simp)]
      simp only []
      refine ⟨trivial, by simp, ?_, by simp, fun hn => by simpa using h3 hn⟩
      rw [h2]
      exact (List.prefix_append_right_inj _).2 (List.take_prefix _ _)

theorem bufWrite_err (size fuel : Nat) (b : BufSt D) (p : Bytes) (nn : Nat) (e : Err) (h : b.err = some e) :
    bufWrite size (fuel + 1) b p nn = ((nn, some e), b) := by
  unfold bufWrite
  rw [if_neg (by simp [h])]
  simp [h]

theorem bufWrite_fits (size fuel : Nat) (b : BufSt D) (p : Bytes) (nn : Nat) (h : b.err = none)
    (hp : p.length ≤ size - b.buf.length) :
    bufWrite size (fuel + 1) b p nn = ((nn + p.length, none), { b with buf := b.buf ++ p }) := by
  unfold bufWrite
  rw [if_neg (by omega)]
  simp [h]

/-- what a call of `Write` does -/
structure WriteSpec (D : Dev) (size : Nat) (b : BufSt D) (p : Bytes) (nn : Nat) (r : (Nat × Option Err) × BufSt D) : Prop where
  room : r.2.buf.length ≤ size
  sticky : r.2.err = r.1.2
  full : r.1.2 = none → r.1.1 = nn + p.length ∧ r.2.u.out ++ r.2.buf = b.u.out ++ b.buf ++ p
  cnt : nn ≤ r.1.1
  pre : r.2.u.out <+: b.u.out ++ b.buf ++ p.take (r.1.1 - nn)
  never : Never D → r.1.2 = none

theorem bufWrite_direct (hD : NoShort D) (size fuel : Nat) (b : BufSt D) (p : Bytes) (nn : Nat) (h : b.err = none)
    (hb : b.buf = []) (hp : p.length > size) : WriteSpec D size b p nn (bufWrite size (fuel + 2) b p nn) := by
  have e : bufWrite size (fuel + 2) b p nn =
      bufWrite size (fuel + 1) ⟨(b.u.write p).2, [], (b.u.write p).1.2⟩ (p.drop (b.u.write p).1.1) (nn + (b.u.write p).1.1) := by
    rw [bufWrite.eq_def]
    simp only []
    rw [if_pos ⟨by rw [hb]; simp; omega, h⟩, if_pos hb]
  have h1 : (b.u.write p).1.2 = none → (b.u.write p).1.1 = p.length := hD b.u.st p
  have h2 := out_write b.u p
  have h3 : Never D → (b.u.write p).1.2 = none := fun hn => hn b.u.st p
  rw [e]
  rcases hw : b.u.write p with ⟨⟨n, _ | e⟩, u'⟩ <;> rw [hw] at h1 h2 h3 <;> simp only [] at h1 h2 h3 ⊢
  · have := h1 trivial
    subst this
    rw [List.drop_length, bufWrite_fits _ _ _ _ _ rfl (by simp)]
    rw [List.take_length] at h2
    refine ⟨by simp, rfl, fun _ => ⟨by simp, by simp [h2, hb]⟩, by simp, ?_, fun _ => rfl⟩
    simp [h2, hb]
  · rw [bufWrite_err _ _ _ _ _ e rfl]
    refine ⟨by simp, rfl, by simp, by simp, ?_, fun hn => by simpa using h3 hn⟩
    simp [h2, hb]

theorem bufWrite_spec1 (hD : NoShort D) (size fuel : Nat) (b : BufSt D) (p : Bytes) (nn : Nat) (h : b.err = none)
    (hb : b.buf = []) : WriteSpec D size b p nn (bufWrite size (fuel + 2) b p nn) := by
  by_cases hp : p.length > size
  · exact bufWrite_direct hD size fuel b p nn h hb hp
  · rw [bufWrite_fits _ _ _ _ _ h (by rw [hb]; simp; omega)]
    refine ⟨by simp [hb]; omega, h, fun _ => ⟨rfl, by simp⟩, by simp, ?_, fun _ => rfl⟩
    simp only [List.append_assoc]
    exact List.prefix_append _ _

theorem bufWrite_spec (hD : NoShort D) (size fuel : Nat) (b : BufSt D) (p : Bytes) (nn : Nat) (h : b.err = none)
    (hs : b.buf.length ≤ size) : WriteSpec D size b p nn (bufWrite size (fuel + 3) b p nn) := by
  by_cases hb : b.buf = []
  · exact bufWrite_spec1 hD size (fuel + 1) b p nn h hb
  · by_cases hp : p.length > size - b.buf.length
    · have e : bufWrite size (fuel + 3) b p nn =
          bufWrite size (fuel + 2) (flush ⟨b.u, b.buf ++ p.take (size - b.buf.length), b.err⟩).2
            (p.drop (size - b.buf.length)) (nn + (size - b.buf.length)) := by
        rw [bufWrite.eq_def]
        simp only []
        rw [if_pos ⟨hp, h⟩, if_neg hb]
      rw [e]
      obtain ⟨f1, f2, f3, f4, f5⟩ := flush_spec hD ⟨b.u, b.buf ++ p.take (size - b.buf.length), b.err⟩ h
      generalize flush ⟨b.u, b.buf ++ p.take (size - b.buf.length), b.err⟩ = F at *
      simp only [List.length_append, List.length_take] at f4
      rcases hF : F.1 with _ | er
      · rw [hF] at f1
        obtain ⟨g1, g2⟩ := f2 hF
        have hsp := bufWrite_spec1 hD size fuel F.2 (p.drop (size - b.buf.length)) (nn + (size - b.buf.length)) f1 g1
        refine ⟨hsp.room, hsp.sticky, fun hn => ?_, by have := hsp.cnt; omega, ?_, hsp.never⟩
        · obtain ⟨i1, i2⟩ := hsp.full hn
          refine ⟨by rw [i1, List.length_drop]; omega, ?_⟩
          rw [i2, g1, g2]
          simp only [List.append_assoc, List.append_nil]
          rw [List.take_append_drop]
        · have i3 := hsp.pre
          have i4 := hsp.cnt
          rw [g1, g2] at i3
          simp only [List.append_assoc, List.append_nil] at i3
          have : p.take (size - b.buf.length) ++ (p.drop (size - b.buf.length)).take ((bufWrite size (fuel + 2) F.2 (p.drop (size - b.buf.length)) (nn + (size - b.buf.length))).1.1 - (nn + (size - b.buf.length)))
              = p.take ((bufWrite size (fuel + 2) F.2 (p.drop (size - b.buf.length)) (nn + (size - b.buf.length))).1.1 - nn) := by
            rw [← List.take_add]
            congr 1
            omega
          rw [this] at i3
          simpa only [List.append_assoc] using i3
      · rw [hF] at f1
        rw [bufWrite_err _ _ _ _ _ er f1]
        refine ⟨by simp only []; omega, f1, by simp, by simp, ?_, fun hn => by have := f5 hn; rw [hF] at this; simp at this⟩
        simp only [] at f3 ⊢
        rw [Nat.add_sub_cancel_left]
        simpa only [List.append_assoc] using f3
    · rw [bufWrite_fits _ _ _ _ _ h (by omega)]
      refine ⟨by simp; omega, h, fun _ => ⟨rfl, by simp⟩, by simp, ?_, fun _ => rfl⟩
      simp only [List.append_assoc]
      exact List.prefix_append _ _

/-- The states of a `bufio.Writer` with the log of what it accepted. -/
structure BufP (D : Dev) (size : Nat) (w : GSink (bufDev size D)) : Prop where
  room : w.st.buf.length ≤ size
  pre : w.st.u.out <+: w.out
  all : w.st.err = none → w.out = w.st.u.out ++ w.st.buf
  never : Never D → w.st.err = none

theorem buf_contract (hD : NoShort D) (size : Nat) :
    Contract (BufP D size) (fun w => w.st.err ≠ none) (fun _ => True) := by
  have key : ∀ (w : GSink (bufDev size D)) p, (w.write p) =
      ((bufWrite size (p.length + 3) w.st p 0).1, ⟨(bufWrite size (p.length + 3) w.st p 0).2, w.out ++ p.take (bufWrite size (p.length + 3) w.st p 0).1.1⟩) := by
    intro w p; rfl
  refine ⟨?_, ?_, ?_, fun _ _ _ _ _ => trivial⟩ <;> intro w p hw <;> rw [key]
  · rcases he : w.st.err with _ | e
    · have hsp := bufWrite_spec hD size p.length w.st p 0 he hw.room
      refine ⟨hsp.room, ?_, ?_, ?_⟩
      · have := hsp.pre
        rw [hw.all he]
        simpa using this
      · intro hn
        have hn' : (bufWrite size (p.length + 3) w.st p 0).1.2 = none := hsp.sticky ▸ hn
        obtain ⟨i1, i2⟩ := hsp.full hn'
        simp only []
        rw [i2, i1, Nat.zero_add, List.take_length, hw.all he]
      · intro hn
        have := hsp.never hn
        exact hsp.sticky.trans this
    · rw [bufWrite_err _ _ _ _ _ e he]
      exact ⟨hw.room, by simpa using hw.pre, fun h => by simp only [] at h; rw [he] at h; simp at h,
        fun hn => by have := hw.never hn; rw [he] at this; simp at this⟩
  · rcases he : w.st.err with _ | e
    · have hsp := bufWrite_spec hD size p.length w.st p 0 he hw.room
      intro hn
      have := (hsp.full hn).1
      simp only []
      omega
    · rw [bufWrite_err _ _ _ _ _ e he]
      simp
  · rcases he : w.st.err with _ | e
    · have hsp := bufWrite_spec hD size p.length w.st p 0 he hw.room
      intro hn
      simp only [hsp.sticky]
      exact hn
    · rw [bufWrite_err _ _ _ _ _ e he]
      simp [he]

/-- A `bufio.Writer` with an error does nothing any more. -/
theorem frozen_contract (size : Nat) (w0 : GSink (bufDev size D)) (h0 : w0.st.err ≠ none) :
    Contract (fun w => w = w0) (fun _ => True) (fun _ => True) := by
  have key : ∀ p, (w0.write p) =
      ((bufWrite size (p.length + 3) w0.st p 0).1, ⟨(bufWrite size (p.length + 3) w0.st p 0).2, w0.out ++ p.take (bufWrite size (p.length + 3) w0.st p 0).1.1⟩) := by
    intro p; rfl
  rcases he : w0.st.err with _ | e
  · exact absurd he h0
  refine ⟨?_, ?_, fun _ _ _ _ => trivial, fun _ _ _ _ _ => trivial⟩ <;> rintro w p rfl <;> rw [key, bufWrite_err _ _ _ _ _ e he] <;> simp

end Verif.Out
