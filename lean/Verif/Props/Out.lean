import Verif.Spec.Out
import Verif.Lemmas.OutDump
import Verif.Props.NarDump
import Verif.Props.Derivation

/-!
# C125: writing to any `io.Writer`

`D : Dev` is any `io.Writer`: it may accept or refuse what it likes, depending on everything that happened before, as long as it
reports an error when it accepts less than it was given. `w.out` is what the writer `w` has accepted. The comparison is
with the same calls on a sink that never fails (`⟨[], none⟩`), about which C09, C35 and C82 speak.
-/

namespace Verif.Props
open Verif.Nar Verif.GoLib Verif.Spec Verif.Wire

/-- C125: whatever calls are made on a `nar.Writer`, they return what they return on a writer that never fails and the writer accepts
the same bytes, or else this holds up to one call which reports an error, and after that call the
writer has accepted a prefix of those bytes. -/
theorem C125_writer {D : Out.Dev}
    (hD : ∀ st p, (D.write st p).1.2 = none → (D.write st p).1.1 = p.length) (st : D.S) (ops : List WOp)
    (w : Out.GWriter D) (s : Out.GSink D) (hn : Out.newWriter ⟨st, []⟩ = (.ok w, s))
    (w' : Writer) (s' : Sink) (hn' : newWriter ⟨[], none⟩ = (.ok w', s')) :
    ((w.run ops).1 = (w'.run ops).1 ∧ (w.run ops).2.st.sink.out = (w'.run ops).2.st.sink.out) ∨
    ∃ pre o post, (w.run ops).1 = pre ++ o :: post ∧
      ((∃ e, o = .unit (.err e)) ∨ ∃ n e, o = .write (.ok (n, some e))) ∧
      pre = (w'.run ops).1.take pre.length ∧
      (w.run (ops.take (pre.length + 1))).2.st.sink.out <+: (w'.run ops).2.st.sink.out := by
  have hc : Out.Contract (D := D) (fun _ => True) (fun _ => True) (fun _ => True) :=
    ⟨fun _ _ _ => trivial, fun w p _ h => hD w.st p h, fun _ _ _ _ => trivial, fun _ _ _ _ _ => trivial⟩
  rcases Out.newWriter_sim hc ⟨st, []⟩ ⟨[], none⟩ trivial ⟨rfl, trivial⟩ rfl with
    ⟨v, v', e1, e2, hr, hpw⟩ | ⟨e, s1, v', e1, e2, hb, hpre, hp1, hE⟩
  · rw [e1] at hn; rw [e2] at hn'
    simp only [Prod.mk.injEq, Res.ok.injEq] at hn hn'
    obtain ⟨rfl, -⟩ := hn
    obtain ⟨rfl, -⟩ := hn'
    rcases Out.run_sim hc v v' ops trivial hr with h | ⟨pre, o, post, h1, h2, h3, h4, -⟩
    · exact .inl h
    · refine .inr ⟨pre, o, post, h1, ?_, h3, h4⟩
      rcases o with r | r
      · obtain ⟨e, rfl⟩ := h2; exact .inl ⟨e, rfl⟩
      · obtain ⟨n, e, rfl⟩ := h2; exact .inr ⟨n, e, rfl⟩
  · rw [e1] at hn; simp at hn

/-- C125: a dump that returns nil has written exactly what it writes to a writer that never fails, where it returns nil too;
otherwise it returns what it returns there, or an error. With a writer that does not fail, there is no difference. -/
theorem C125_dump {D : Out.Dev}
    (hD : ∀ st p, (D.write st p).1.2 = none → (D.write st p).1.1 = p.length) (st : D.S)
    (filter : Option Filter) (path : Bytes) (root : FNode) :
    ((Out.dumpPathFilter filter path root (⟨st, []⟩ : Out.GSink D)).1 = .ok () →
      (dumpPathFilter filter path root ⟨[], none⟩).1 = .ok () ∧
      (Out.dumpPathFilter filter path root (⟨st, []⟩ : Out.GSink D)).2.out =
        (dumpPathFilter filter path root ⟨[], none⟩).2.out) ∧
    ((Out.dumpPathFilter filter path root (⟨st, []⟩ : Out.GSink D)).1 = (dumpPathFilter filter path root ⟨[], none⟩).1 ∨
      ∃ e, (Out.dumpPathFilter filter path root (⟨st, []⟩ : Out.GSink D)).1 = .err e) ∧
    ((∀ st p, (D.write st p).1.2 = none) →
      (Out.dumpPathFilter filter path root (⟨st, []⟩ : Out.GSink D)).1 = (dumpPathFilter filter path root ⟨[], none⟩).1 ∧
      (Out.dumpPathFilter filter path root (⟨st, []⟩ : Out.GSink D)).2.out =
        (dumpPathFilter filter path root ⟨[], none⟩).2.out) := by
  have hc : Out.Contract (D := D) (fun _ => True) (fun _ => ∃ st p, (D.write st p).1.2 ≠ none) (fun _ => True) :=
    ⟨fun _ _ _ => trivial, fun w p _ h => hD w.st p h, fun w p _ h => ⟨w.st, p, h⟩, fun _ _ _ _ _ => trivial⟩
  obtain ⟨-, h⟩ := Out.dump_sim hc filter path root ⟨st, []⟩ trivial rfl trivial
  rcases h with ⟨h1, h2, -⟩ | ⟨h1, w1, -, ⟨st', p, hf⟩, -, -⟩
  · exact ⟨fun h => ⟨by rw [← h1]; exact h, h2⟩, .inl h1, fun _ => ⟨h1, h2⟩⟩
  · refine ⟨fun h => ?_, ?_, fun hn => absurd (hn st' p) hf⟩
    · rcases h1 with ⟨e, h1⟩ | ⟨-, h1⟩
      · rw [h1] at h; simp at h
      · exact absurd h h1
    · rcases h1 with ⟨e, h1⟩ | ⟨h1, -⟩
      · exact .inr ⟨e, h1⟩
      · exact .inl h1

/-- C125: so a dump that returns nil has written the NAR serialisation of the tree without the nodes rejected by the filter,
to whatever writer (for file names other than `..foo`). -/
theorem C125_complete {D : Out.Dev}
    (hD : ∀ st p, (D.write st p).1.2 = none → (D.write st p).1.1 = p.length) (st : D.S)
    (filter : Option Filter) (path : Bytes) (root : FNode) (hok : root.Ok NameWr)
    (h : (Out.dumpPathFilter filter path root (⟨st, []⟩ : Out.GSink D)).1 = .ok ()) :
    ∃ t, root.prune (keeps filter) path b!"/" = some t ∧
      (Out.dumpPathFilter filter path root (⟨st, []⟩ : Out.GSink D)).2.out = t.nar := by
  obtain ⟨h1, h2⟩ := (C125_dump hD st filter path root).1 h
  obtain ⟨t, ht, ho⟩ := (C35_dump_filter_partial filter path root hok).2 h1
  exact ⟨t, ht, by rw [h2, ho]⟩

/-- C125: `gonix nar dump-path`, whatever the standard output does: what it gets is always a prefix of what a dump to a writer
that never fails writes; if the command succeeds it gets all of it, and that dump succeeds;
otherwise the command returns what that dump returns, or an error; and if the standard output never fails, the command
returns what that dump returns. -/
theorem C125_command {D : Out.Dev}
    (hD : ∀ st p, (D.write st p).1.2 = none → (D.write st p).1.1 = p.length) (st : D.S)
    (path : Bytes) (root : FNode) :
    (Out.dumpCmd path root (⟨st, []⟩ : Out.GSink D)).2.out <+: (dumpPathFilter none path root ⟨[], none⟩).2.out ∧
    ((Out.dumpCmd path root (⟨st, []⟩ : Out.GSink D)).1 = .ok () →
      (dumpPathFilter none path root ⟨[], none⟩).1 = .ok () ∧
      (Out.dumpCmd path root (⟨st, []⟩ : Out.GSink D)).2.out = (dumpPathFilter none path root ⟨[], none⟩).2.out) ∧
    ((Out.dumpCmd path root (⟨st, []⟩ : Out.GSink D)).1 = (dumpPathFilter none path root ⟨[], none⟩).1 ∨
      ∃ e, (Out.dumpCmd path root (⟨st, []⟩ : Out.GSink D)).1 = .err e) ∧
    ((∀ st p, (D.write st p).1.2 = none) →
      (Out.dumpCmd path root (⟨st, []⟩ : Out.GSink D)).1 = (dumpPathFilter none path root ⟨[], none⟩).1) := by
  have hc := Out.buf_contract (D := D) hD 4096
  have hp0 : Out.BufP D 4096 ⟨⟨⟨st, []⟩, [], none⟩, []⟩ :=
    ⟨by simp, List.prefix_rfl, fun _ => rfl, fun _ => rfl⟩
  obtain ⟨hP, h⟩ := Out.dump_sim hc none path root ⟨⟨⟨st, []⟩, [], none⟩, []⟩ hp0 rfl trivial
  unfold Out.dumpCmd
  generalize Out.dumpPathFilter none path root (⟨⟨⟨st, []⟩, [], none⟩, []⟩ : Out.GSink (Out.bufDev 4096 D)) = R at *
  generalize dumpPathFilter none path root ⟨[], none⟩ = U at *
  obtain ⟨r, w⟩ := R
  simp only [] at hP h ⊢
  -- the log is a prefix in any case
  have hlog : w.st.u.out <+: U.2.out := by
    rcases h with ⟨-, h2, -⟩ | ⟨-, w1, hw1, hE, hpre, h3⟩
    · rw [← h2]; exact hP.pre
    · have : w = w1 := by
        rcases h3 with h3 | ⟨v, hv, h3⟩
        · exact h3
        · have hf := Out.frozen_contract 4096 w1 hE
          have := (Out.simW_close hf).pres v hv
          rw [h3]; exact this
      subst this
      exact hw1.pre.trans hpre
  rcases h with ⟨h1, h2, -⟩ | ⟨h1, w1, hw1, hE, hpre, -⟩
  · cases r with
    | ok u =>
      cases u
      simp only []
      by_cases hz : w.st.err = none
      · obtain ⟨f1, f2, f3, f4, f5⟩ := Out.flush_spec hD w.st hz
        have hall := hP.all hz
        rw [h2] at hall
        rw [← hall] at f3
        rcases hF : Out.flush w.st with ⟨_ | e, b⟩ <;> rw [hF] at f1 f2 f3 f5 <;> simp only [] at f1 f2 f3 f5 ⊢
        · obtain ⟨g1, g2⟩ := f2 trivial
          rw [← hall] at g2
          exact ⟨f3, fun _ => ⟨h1.symm, g2⟩, .inl h1, fun _ => h1⟩
        · exact ⟨f3, by simp, .inr ⟨e, rfl⟩, fun hn => by simpa using f5 hn⟩
      · rcases hz' : w.st.err with _ | e
        · exact absurd hz' hz
        · have : Out.flush w.st = (some e, w.st) := by unfold Out.flush; simp only [hz']; rfl
          rw [this]
          simp only []
          exact ⟨hlog, by simp, .inr ⟨e, rfl⟩, fun hn => absurd (hP.never hn) hz⟩
    | err e => exact ⟨hlog, by simp, .inl h1, fun _ => h1⟩
    | panic => exact ⟨hlog, by simp, .inl h1, fun _ => h1⟩
    | block => exact ⟨hlog, by simp, .inl h1, fun _ => h1⟩
  · have hnv : ¬ Out.Never D := fun hn => hE (hw1.never hn)
    rcases h1 with ⟨e, h1⟩ | ⟨h1, h1'⟩
    · subst h1
      exact ⟨hlog, by simp, .inr ⟨e, rfl⟩, fun hn => absurd hn hnv⟩
    · cases r with
      | ok u => exact absurd rfl h1'
      | err e => exact ⟨hlog, by simp, .inl h1, fun _ => h1⟩
      | panic => exact ⟨hlog, by simp, .inl h1, fun _ => h1⟩
      | block => exact ⟨hlog, by simp, .inl h1, fun _ => h1⟩

/-- C125: `WriteDerivation` to any writer: it returns what it returns on a writer that never fails and writes the same, or it returns an
error and has written a prefix of that; with a writer that never fails, the first. -/
theorem C125_derivation {D : Out.Dev}
    (hD : ∀ st p, (D.write st p).1.2 = none → (D.write st p).1.1 = p.length) (st : D.S) (d : Derivation.Derivation) :
    ((Out.writeDrv d (⟨st, []⟩ : Out.GSink D)).1 = (d.write ⟨[], none⟩).1 ∧
      (Out.writeDrv d (⟨st, []⟩ : Out.GSink D)).2.out = (d.write ⟨[], none⟩).2.out) ∨
    ((∃ e, (Out.writeDrv d (⟨st, []⟩ : Out.GSink D)).1 = .err e) ∧
      (Out.writeDrv d (⟨st, []⟩ : Out.GSink D)).2.out <+: (d.write ⟨[], none⟩).2.out ∧
      ∃ st p, (D.write st p).1.2 ≠ none) := by
  have hc : Out.Contract (D := D) (fun _ => True) (fun _ => ∃ st p, (D.write st p).1.2 ≠ none) (fun _ => True) :=
    ⟨fun _ _ _ => trivial, fun w p _ h => hD w.st p h, fun w p _ h => ⟨w.st, p, h⟩, fun _ _ _ _ _ => trivial⟩
  simpa using (Out.tameS_writeDrv hc d).sim ⟨st, []⟩ ⟨[], none⟩ trivial ⟨rfl, trivial⟩ rfl

/-- what copying to any writer does, against what is there to copy -/
theorem copyAll_out {D : Out.Dev}
    (hD : ∀ st p, (D.write st p).1.2 = none → (D.write st p).1.1 = p.length) (fuel : Nat) :
    ∀ (r : Reader) (w : Out.GSink D),
    ((Out.copyAll fuel r w).1 = (Cmd.copyAll fuel r).2 ∧ (Out.copyAll fuel r w).2.out = w.out ++ (Cmd.copyAll fuel r).1) ∨
    ((∃ e, (Out.copyAll fuel r w).1 = .err e) ∧ (Out.copyAll fuel r w).2.out <+: w.out ++ (Cmd.copyAll fuel r).1 ∧
      ∃ st p, (D.write st p).1.2 ≠ none) := by
  induction fuel with
  | zero => intro r w; exact .inl ⟨rfl, by simp [Out.copyAll, Cmd.copyAll]⟩
  | succ fuel ih =>
    intro r w
    unfold Out.copyAll Cmd.copyAll
    rcases r.read 32768 with ⟨d | e | _, r'⟩ <;> simp only []
    · by_cases hd : d = []
      · rw [if_pos hd]
        subst hd
        exact ih r' w
      · rw [if_neg hd]
        have h1 : (w.write d).1.2 = none → (w.write d).1.1 = d.length := hD w.st d
        have h2 := Out.out_write w d
        have h3 : (w.write d).1.2 ≠ none → ∃ st p, (D.write st p).1.2 ≠ none := fun h => ⟨w.st, d, h⟩
        rcases hw : w.write d with ⟨⟨n, _ | e⟩, w'⟩ <;> rw [hw] at h1 h2 h3 <;> simp only [] at h1 h2 h3 ⊢
        · have := h1 trivial
          subst this
          rw [if_neg (by simp)]
          rw [List.take_length] at h2
          have := ih r' w'
          rw [h2] at this
          simpa only [List.append_assoc] using this
        · refine .inr ⟨⟨e, rfl⟩, ?_, h3 (by simp)⟩
          rw [h2]
          exact (List.prefix_append_right_inj _).2 ((List.take_prefix _ _).trans (List.prefix_append _ _))
    · exact .inl ⟨trivial, by simp⟩
    · exact .inl ⟨trivial, by simp⟩

/-- C125: `gonix nar cat`, whatever the standard output does: with `(out, r) = catRun s path` the output and the result when the standard
output never fails (C73, C107), it gets a prefix of `out`; if the command succeeds it gets all of `out`, and
`r` is success; otherwise the command returns `r` or an error; if the standard output never fails,
`r`. -/
theorem C125_cat {D : Out.Dev}
    (hD : ∀ st p, (D.write st p).1.2 = none → (D.write st p).1.1 = p.length) (st : D.S) (s : Stream) (path : Bytes) :
    (Out.catRun s path (⟨st, []⟩ : Out.GSink D)).2.out <+: (Cmd.catRun s path).1 ∧
    ((Out.catRun s path (⟨st, []⟩ : Out.GSink D)).1 = .ok () →
      (Cmd.catRun s path).2 = .ok () ∧ (Out.catRun s path (⟨st, []⟩ : Out.GSink D)).2.out = (Cmd.catRun s path).1) ∧
    ((Out.catRun s path (⟨st, []⟩ : Out.GSink D)).1 = (Cmd.catRun s path).2 ∨
      ∃ e, (Out.catRun s path (⟨st, []⟩ : Out.GSink D)).1 = .err e) ∧
    ((∀ st p, (D.write st p).1.2 = none) →
      (Out.catRun s path (⟨st, []⟩ : Out.GSink D)).1 = (Cmd.catRun s path).2 ∧
      (Out.catRun s path (⟨st, []⟩ : Out.GSink D)).2.out = (Cmd.catRun s path).1) := by
  have hloop : ∀ (fuel : Nat) (r : Reader) (w : Out.GSink D), w.out = [] →
      ((Out.catLoop path w fuel r).1 = (Cmd.catLoop path fuel r).2 ∧
        (Out.catLoop path w fuel r).2.out = (Cmd.catLoop path fuel r).1) ∨
      ((∃ e, (Out.catLoop path w fuel r).1 = .err e) ∧ (Out.catLoop path w fuel r).2.out <+: (Cmd.catLoop path fuel r).1 ∧
        ∃ st p, (D.write st p).1.2 ≠ none) := by
    intro fuel
    induction fuel with
    | zero => intro r w hw; exact .inl ⟨rfl, hw⟩
    | succ fuel ih =>
      intro r w hw
      unfold Out.catLoop Cmd.catLoop
      rcases r.next with ⟨h | e | _ | _, r'⟩ <;> simp only []
      · by_cases hp : h.path = path
        · rw [if_pos hp, if_pos hp]
          by_cases ht : h.typ ≠ typeRegular
          · rw [if_pos ht, if_pos ht]; exact .inl ⟨rfl, hw⟩
          · rw [if_neg ht, if_neg ht]
            have := copyAll_out hD (h.size.toNat + 1) r' w
            rw [hw] at this
            exact this
        · rw [if_neg hp, if_neg hp]
          exact ih r' w hw
      all_goals exact .inl ⟨trivial, hw⟩
  have key : ((Out.catRun s path (⟨st, []⟩ : Out.GSink D)).1 = (Cmd.catRun s path).2 ∧
        (Out.catRun s path (⟨st, []⟩ : Out.GSink D)).2.out = (Cmd.catRun s path).1) ∨
      ((∃ e, (Out.catRun s path (⟨st, []⟩ : Out.GSink D)).1 = .err e) ∧
        (Out.catRun s path (⟨st, []⟩ : Out.GSink D)).2.out <+: (Cmd.catRun s path).1 ∧
        ∃ st p, (D.write st p).1.2 ≠ none) := by
    unfold Out.catRun Cmd.catRun
    rcases newReader s with ⟨r | e | _, s'⟩ <;> simp only []
    · exact hloop _ _ _ rfl
    all_goals exact .inl ⟨trivial, trivial⟩
  rcases key with ⟨h1, h2⟩ | ⟨⟨e, h1⟩, h2, st', p, h3⟩
  · exact ⟨by rw [h2]; exact List.prefix_rfl, fun h => ⟨by rw [← h1]; exact h, h2⟩, .inl h1, fun _ => ⟨h1, h2⟩⟩
  · exact ⟨h2, fun h => by rw [h1] at h; simp at h, .inr ⟨e, h1⟩, fun hn => absurd (hn st' p) h3⟩

/-- a writer that refuses its third call, keeping half of it, and accepts everything else -/
def flaky : Out.Dev := ⟨Nat, fun n p => if n = 2 then ((p.length / 2, some .io), 3) else ((p.length, none), n + 1)⟩

/-- a pipe that breaks after `k` bytes -/
def pipe : Out.Dev := ⟨Nat, fun k p => if p.length ≤ k then ((p.length, none), k - p.length) else ((k, some .io), 0)⟩

/-- the hypothesis holds, and the cases are non-empty -/
example : (∀ st p, (flaky.write st p).1.2 = none → (flaky.write st p).1.1 = p.length) ∧
    (∀ st p, (pipe.write st p).1.2 = none → (pipe.write st p).1.1 = p.length) ∧
    (Out.dumpCmd b!"/d" (onDisk sampleTree) (⟨(10000 : Nat), []⟩ : Out.GSink pipe)).1 = .ok () ∧
    (Out.dumpCmd b!"/d" (onDisk sampleTree) (⟨(100 : Nat), []⟩ : Out.GSink pipe)).1 = .err .io ∧
    (Out.dumpCmd b!"/d" (onDisk sampleTree) (⟨(100 : Nat), []⟩ : Out.GSink pipe)).2.out.length = 100 ∧
    (Out.dumpPathFilter none b!"/d" (onDisk sampleTree) (⟨(10000 : Nat), []⟩ : Out.GSink pipe)).1 = .ok () ∧
    (Out.dumpPathFilter none b!"/d" (onDisk sampleTree) (⟨(0 : Nat), []⟩ : Out.GSink flaky)).1 = .err .io ∧
    (Out.catRun ⟨sampleTree.nar, .eof⟩ b!"/a.txt" (⟨(12 : Nat), []⟩ : Out.GSink pipe)).1 = .ok () ∧
    (Out.catRun ⟨sampleTree.nar, .eof⟩ b!"/a.txt" (⟨(5 : Nat), []⟩ : Out.GSink pipe)).1 = .err .io ∧
    (Out.catRun ⟨sampleTree.nar, .eof⟩ b!"/a.txt" (⟨(5 : Nat), []⟩ : Out.GSink pipe)).2.out = b!"hello" ∧
    (Out.writeDrv sampleDrv (⟨(0 : Nat), []⟩ : Out.GSink flaky)).1 = .err .io := by
  refine ⟨?_, ?_, ?_⟩
  · intro (st : Nat) p
    simp only [flaky]
    by_cases h : st = 2
    · rw [if_pos h]; simp
    · rw [if_neg h]; simp
  · intro (st : Nat) p
    simp only [pipe]
    by_cases h : List.length p ≤ st
    · rw [if_pos h]; simp
    · rw [if_neg h]; simp
  · decide +kernel

/-- C125: a `BytesWriter` over any writer, after any `Write` calls, whether they failed or not: `Close` returns nil only if the writer
accepted exactly the announced number of bytes, and then the string is complete with its padding; if it accepted another number,
`Close` returns an error and writes nothing. More than announced is never written. -/
theorem C125_bytes_writer {D : Out.Dev} (hD : ∀ st p, (D.write st p).1.2 = none → (D.write st p).1.1 = p.length)
    (hle : ∀ st p, (D.write st p).1.1 ≤ p.length) (total : Nat) (ht : total < 2 ^ 63) (w : Out.GSink D) (ps : List Bytes)
    (hps : ∀ p ∈ ps, p.length < 2 ^ 63) :
    ∃ got, (bwWrites ps (⟨0, total, false⟩, w)).2.out = w.out ++ got ∧ got.length ≤ total ∧
      let c := Out.bwClose (bwWrites ps (⟨0, total, false⟩, w)).1 (bwWrites ps (⟨0, total, false⟩, w)).2
      (c.1 = none → got.length = total ∧ c.2.2.out = w.out ++ got ++ List.replicate ((8 - total % 8) % 8) 0) ∧
      (got.length ≠ total → c.1 ≠ none ∧ c.2.2.out = w.out ++ got) := by
  have key : ∀ (ps : List Bytes), (∀ p ∈ ps, p.length < 2 ^ 63) → ∀ (k : Nat) (w : Out.GSink D), k ≤ total →
      ∃ got, (bwWrites ps (⟨k, total, false⟩, w)).2.out = w.out ++ got ∧ k + got.length ≤ total ∧
        (bwWrites ps (⟨k, total, false⟩, w)).1 = ⟨k + got.length, total, false⟩ := by
    intro ps
    induction ps with
    | nil => intro _ k w hk; exact ⟨[], by simp [bwWrites], by simpa using hk, rfl⟩
    | cons p ps ih =>
      intro hps k w hk
      have hp := hps p List.mem_cons_self
      have hps' : ∀ p ∈ ps, p.length < 2 ^ 63 := fun q hq => hps q (List.mem_cons_of_mem _ hq)
      have hmod : (k + p.length) % 2 ^ 64 = k + p.length := Nat.mod_eq_of_lt (by omega)
      simp only [bwWrites]
      unfold Out.bwWrite
      simp only [hmod]
      by_cases hx : k + p.length > total
      · rw [if_pos hx]
        exact ih hps' k w hk
      · rw [if_neg hx]
        have hn := hle w.st p
        have hw : w.write p = (((D.write w.st p).1.1, (D.write w.st p).1.2), ⟨(D.write w.st p).2, w.out ++ p.take (D.write w.st p).1.1⟩) := rfl
        rw [hw]
        simp only []
        have hmod2 : (k + (D.write w.st p).1.1) % 2 ^ 64 = k + (D.write w.st p).1.1 := Nat.mod_eq_of_lt (by omega)
        rw [hmod2]
        obtain ⟨got, h1, h2, h3⟩ := ih hps' (k + (D.write w.st p).1.1) ⟨(D.write w.st p).2, w.out ++ p.take (D.write w.st p).1.1⟩ (by omega)
        refine ⟨p.take (D.write w.st p).1.1 ++ got, by rw [h1, List.append_assoc], ?_, ?_⟩
        · rw [List.length_append, List.length_take]; omega
        · rw [h3, List.length_append, List.length_take, Nat.min_eq_left hn, Nat.add_assoc]
  obtain ⟨got, h1, h2, h3⟩ := key ps hps 0 w (by omega)
  rw [Nat.zero_add] at h2 h3
  refine ⟨got, h1, h2, ?_⟩
  generalize bwWrites ps (⟨0, total, false⟩, w) = x at h1 h3
  obtain ⟨bw, v⟩ := x
  simp only at h1 h3
  subst h3
  simp only [Out.bwClose, Bool.false_eq_true, if_false]
  by_cases hg : got.length = total
  · rw [if_neg (by simp [hg])]
    refine ⟨fun hc => ⟨hg, ?_⟩, fun hne => absurd hg hne⟩
    unfold Out.writePadding at hc ⊢
    by_cases hm : total % 8 = 0
    · rw [if_neg (by simp [hm])]
      show v.out = _
      rw [h1, hm]; simp
    · rw [if_pos (by simpa using hm)] at hc ⊢
      unfold Out.writeAll at hc ⊢
      have hw : v.write (List.replicate (8 - total % 8) 0) = (((D.write v.st (List.replicate (8 - total % 8) 0)).1.1, (D.write v.st (List.replicate (8 - total % 8) 0)).1.2),
        ⟨(D.write v.st (List.replicate (8 - total % 8) 0)).2, v.out ++ (List.replicate (8 - total % 8) 0).take (D.write v.st (List.replicate (8 - total % 8) 0)).1.1⟩) := rfl
      rw [hw] at hc ⊢
      have hd := hD v.st (List.replicate (8 - total % 8) 0)
      cases he : (D.write v.st (List.replicate (8 - total % 8) 0)).1.2 with
      | some e => rw [he] at hc; simp at hc
      | none =>
        rw [he] at hc
        simp only []
        have e : (8 - total % 8) % 8 = 8 - total % 8 := Nat.mod_eq_of_lt (by omega)
        rw [hd he, List.take_length, h1, e]
  · rw [if_pos (by simpa using hg)]
    exact ⟨fun hc => by simp at hc, fun _ => ⟨by simp, h1⟩⟩

/-- The third write fails half way and counts as one byte; the fifth would be too much. -/
example : (bwWrites [b!"abcd", b!"efgh", b!"ij", b!"kl", b!"kl"] (⟨0, 12, false⟩, (⟨(0 : Nat), []⟩ : Out.GSink flaky))).2.out = b!"abcdefghikl" ∧
    (∀ st p, (flaky.write st p).1.1 ≤ p.length) := by
  refine ⟨by decide +kernel, ?_⟩
  intro (st : Nat) p
  simp only [flaky]
  by_cases h : st = 2
  · rw [if_pos h]; simp only []; omega
  · rw [if_neg h]; simp

end Verif.Props
