import Verif.Lemmas.NarDumpSink
import Verif.Props.NarDump

/-!
# C123: `DumpPath` to a writer that fails

`⟨[], some k⟩` is a sink that accepts `k` bytes and then fails, `⟨[], none⟩` one that never fails; the
second component of `dumpPathFilter` is the sink afterwards, and its `out` is what it got.
-/

namespace Verif.Props
open Verif.Nar Verif.GoLib Verif.Spec Verif.Wire

/-- C123: whatever the file system holds, the bytes that a sink with room for `k` bytes gets are the first `k`
of those that an unlimited sink gets. If there is room for all of them, the two calls have the
same result; if not, the limited call does not return nil. -/
theorem C123_limited (filter : Option Filter) (path : Bytes) (root : FNode) (k : Nat) :
    (dumpPathFilter filter path root ⟨[], some k⟩).2.out =
      (dumpPathFilter filter path root ⟨[], none⟩).2.out.take k ∧
    ((dumpPathFilter filter path root ⟨[], none⟩).2.out.length ≤ k →
      (dumpPathFilter filter path root ⟨[], some k⟩).1 = (dumpPathFilter filter path root ⟨[], none⟩).1) ∧
    (k < (dumpPathFilter filter path root ⟨[], none⟩).2.out.length →
      (dumpPathFilter filter path root ⟨[], some k⟩).1 ≠ .ok ()) := by
  rw [dump_eq]
  have hT : TameW (fun w => andThen (dumpNode filter path root b!"/" w) fun _ w => w.close) :=
    tameW_andThen (tameW_dumpNode filter path root b!"/") fun _ => tameW_close
  obtain ⟨m1, m2⟩ := hT.mono freshWriter rfl
  have m3 := (tameW_close.mono _ m1).2
  have m4 := (tameW_close.mono _ m1).1
  have hclosed : (andThen (dumpNode filter path root b!"/" freshWriter) fun _ w => w.close).1 = .ok () →
      (andThen (dumpNode filter path root b!"/" freshWriter) fun _ w => w.close).2.close.2.st.sink.out =
      (andThen (dumpNode filter path root b!"/" freshWriter) fun _ w => w.close).2.st.sink.out := by
    rcases dumpNode filter path root b!"/" freshWriter with ⟨_ | _ | _ | _, w1⟩ <;> simp only [andThen] <;> intro h
    · have : w1.close.2.closed = true := by
        unfold Writer.close at h ⊢
        split
        · rename_i h'; exact h'
        · split <;> rfl
      generalize w1.close.2 = v at this
      unfold Writer.close
      rw [if_pos this]
    all_goals simp at h
  have hf : freshWriter.st.sink.out = packet narVersionMagic1 := by
    show str b!"nix-archive-1" = _
    rw [str_eq]; rfl
  have hem := (emits_writeString narVersionMagic1 ⟨[], some k⟩).2 k rfl
  generalize hU : (andThen (dumpNode filter path root b!"/" freshWriter) fun _ w => w.close) = U at *
  by_cases hk : (packet narVersionMagic1).length ≤ k
  · rw [if_pos hk] at hem
    have hn : newWriter ⟨[], some k⟩ = (.ok (freshWriter.on (k - (packet narVersionMagic1).length)), ⟨packet narVersionMagic1, some (k - (packet narVersionMagic1).length)⟩) := by
      unfold newWriter
      rw [hem]
      simp [freshWriter, Writer.on, WState.on, str_eq, narVersionMagic1]
    have hd : dumpPathFilter filter path root ⟨[], some k⟩ =
        ((andThen (dumpNode filter path root b!"/" (freshWriter.on (k - (packet narVersionMagic1).length))) fun _ w => w.close).1,
         (andThen (dumpNode filter path root b!"/" (freshWriter.on (k - (packet narVersionMagic1).length))) fun _ w => w.close).2.close.2.st.sink) := by
      unfold dumpPathFilter
      rw [hn]
    rw [hd]
    clear hd hn
    have hs := hT.sim freshWriter (k - (packet narVersionMagic1).length) rfl
    simp only [hU, hf] at hs
    generalize hL : (andThen (dumpNode filter path root b!"/" (freshWriter.on (k - (packet narVersionMagic1).length))) fun _ w => w.close) = L at *
    simp only []
    rcases hs with ⟨k', e1, e2⟩ | ⟨⟨e, e1⟩, e2, e3, e4, e5⟩
    · subst e2
      simp only []
      rcases tameW_close.sim U.2 k' m1 with ⟨k2, j1, j2⟩ | ⟨⟨e, j1⟩, j2, j3, j4, j5⟩
      · have : (Writer.on U.2 k').close.2.st.sink.out = U.2.close.2.st.sink.out := by
          rw [j2]; rfl
        rw [this]
        refine ⟨?_, fun _ => trivial, fun h => ?_⟩
        · rw [List.take_of_length_le]; omega
        · omega
      · refine ⟨?_, fun _ => trivial, fun h h' => ?_⟩
        · rw [List.prefix_iff_eq_take] at j3
          rw [j3]; congr 1; omega
        · have := hclosed h'
          rw [this] at h
          omega
    · have hz := op_froz L.2 .close e2
      have hz' : L.2.close.2.st.sink = L.2.st.sink := hz
      rw [hz']
      have := m3.length_le
      refine ⟨?_, fun h => ?_, fun h => by rw [e1]; simp⟩
      · have e3' := e3.trans m3
        rw [List.prefix_iff_eq_take] at e3'
        rw [e3', e4]; congr 1; omega
      · omega
  · rw [if_neg hk] at hem
    have hn : dumpPathFilter filter path root ⟨[], some k⟩ = (.err .io, ⟨(packet narVersionMagic1).take k, some 0⟩) := by
      unfold dumpPathFilter newWriter
      rw [hem]
      simp
    rw [hn]
    simp only []
    have hp := m2.trans m3
    rw [hf] at hp
    have := hp.length_le
    refine ⟨?_, fun h => by omega, fun _ => by simp⟩
    obtain ⟨t, ht⟩ := hp
    rw [← ht, List.take_append_of_le_length (by omega)]

/-- C123: so if the dump of a path to a writer that never fails succeeds, the dump of it to a writer with room for
`k` bytes succeeds exactly if there is room for the whole archive. -/
theorem C123_enough (filter : Option Filter) (path : Bytes) (root : FNode) (k : Nat)
    (h : (dumpPathFilter filter path root ⟨[], none⟩).1 = .ok ()) :
    (dumpPathFilter filter path root ⟨[], some k⟩).1 = .ok () ↔
      (dumpPathFilter filter path root ⟨[], none⟩).2.out.length ≤ k := by
  obtain ⟨_, h2, h3⟩ := C123_limited filter path root k
  refine ⟨fun hk => ?_, fun hk => by rw [h2 hk, h]⟩
  rcases Nat.lt_or_ge k (dumpPathFilter filter path root ⟨[], none⟩).2.out.length with hlt | hge
  · exact absurd hk (h3 hlt)
  · exact hge

/-- C123: a dump that reports success has written a complete archive: with file names other than `..foo`,
the NAR serialisation of the tree without the nodes rejected by the filter, whatever the writer. -/
theorem C123_complete (filter : Option Filter) (path : Bytes) (root : FNode) (hok : root.Ok NameWr) (k : Nat)
    (h : (dumpPathFilter filter path root ⟨[], some k⟩).1 = .ok ()) :
    ∃ t, root.prune (keeps filter) path b!"/" = some t ∧
      (dumpPathFilter filter path root ⟨[], some k⟩).2.out = t.nar ∧ t.nar.length ≤ k := by
  obtain ⟨h1, h2, h3⟩ := C123_limited filter path root k
  have hle : (dumpPathFilter filter path root ⟨[], none⟩).2.out.length ≤ k := by
    rcases Nat.lt_or_ge k (dumpPathFilter filter path root ⟨[], none⟩).2.out.length with hlt | hge
    · exact absurd h (h3 hlt)
    · exact hge
  rw [h2 hle] at h
  obtain ⟨t, ht, ho⟩ := (C35_dump_filter_partial filter path root hok).2 h
  exact ⟨t, ht, by rw [h1, List.take_of_length_le hle, ho], by rw [← ho]; exact hle⟩

/-- the hypotheses hold for a directory, and the three cases are non-empty -/
example : sampleDisk.Ok NameWr ∧
    (dumpPathFilter (some fun p _ => p != b!"/d/b" && p != b!"/d/e") b!"/d" sampleDisk ⟨[], none⟩).1 = .ok () ∧
    (dumpPathFilter (some fun p _ => p != b!"/d/b" && p != b!"/d/e") b!"/d" sampleDisk ⟨[], none⟩).2.out.length = 512 ∧
    (dumpPathFilter (some fun p _ => p != b!"/d/b" && p != b!"/d/e") b!"/d" sampleDisk ⟨[], some 512⟩).1 = .ok () ∧
    (dumpPathFilter (some fun p _ => p != b!"/d/b" && p != b!"/d/e") b!"/d" sampleDisk ⟨[], some 511⟩).1 = .err .io := by
  refine ⟨?_, ?_, ?_, ?_, ?_⟩
  · simp only [sampleDisk, FNode.Ok, FEntries.Ok, FEntries.names, NameWr]; decide
  all_goals decide +kernel

/-- a series of calls, limited against unlimited, exactly -/
theorem run_limited (w : Writer) (k : Nat) (ops : List WOp) (hs : w.st.sink.budget = none) :
    ((w.on k).run ops).2.st.sink.out = (w.run ops).2.st.sink.out.take (k + w.st.sink.out.length) ∧
    ((w.run ops).2.st.sink.out.length ≤ k + w.st.sink.out.length → ((w.on k).run ops).1 = (w.run ops).1) ∧
    (k + w.st.sink.out.length < (w.run ops).2.st.sink.out.length →
      ∃ pre o post, ((w.on k).run ops).1 = pre ++ o :: post ∧ o.failed ∧
        pre = (w.run ops).1.take pre.length) := by
  induction ops generalizing w k with
  | nil =>
    refine ⟨?_, fun _ => rfl, fun h => ?_⟩
    · show w.st.sink.out = w.st.sink.out.take _
      rw [List.take_of_length_le (by omega)]
    · have : (w.run []).2 = w := rfl
      rw [this] at h
      omega
  | cons o ops ih =>
    obtain ⟨h1, h2⟩ := op_mono w o hs
    have h3 := run_mono _ ops h1
    simp only [Writer.run]
    rcases op_sim w k o hs with ⟨k', hk, e⟩ | ⟨hg, hb, ho, hl, hlt⟩
    · rw [e]
      obtain ⟨i1, i2, i3⟩ := ih (w.op o).2 k' h1
      rw [hk] at i1 i2 i3
      refine ⟨i1, fun h => by simp only [i2 h], fun h => ?_⟩
      obtain ⟨pre, x, post, a, b, c⟩ := i3 h
      refine ⟨(w.op o).1 :: pre, x, post, by simp [a], b, ?_⟩
      simp only [List.length_cons, List.take_succ_cons]
      rw [← c]
    · rw [run_froz _ ops hb]
      refine ⟨?_, fun h => ?_, fun _ => ⟨[], _, _, rfl, hg, by simp⟩⟩
      · have := ho.trans h3.2
        rw [List.prefix_iff_eq_take] at this
        rw [this, hl]
      · have := h3.2.length_le
        omega

/-- C123, for the calls on a `nar.Writer`: whatever calls are made, a sink with room for `k` bytes gets the
first `k` of the bytes that an unlimited sink gets from the same calls; with room for all of them, every
call returns the same; without, the calls return the same up to one that reports an error. -/
theorem C123_writer (k : Nat) (ops : List WOp) (w w' : Writer) (s s' : Sink)
    (hu : newWriter ⟨[], none⟩ = (.ok w, s)) (hb : newWriter ⟨[], some k⟩ = (.ok w', s')) :
    (w'.run ops).2.st.sink.out = (w.run ops).2.st.sink.out.take k ∧
    ((w.run ops).2.st.sink.out.length ≤ k → (w'.run ops).1 = (w.run ops).1) ∧
    (k < (w.run ops).2.st.sink.out.length →
      ∃ pre o post, (w'.run ops).1 = pre ++ o :: post ∧
        ((∃ e, o = .unit (.err e)) ∨ ∃ n e, o = .write (.ok (n, some e))) ∧
        pre = (w.run ops).1.take pre.length) := by
  have e := newWriter_ok hu
  subst e
  have hf : freshWriter.st.sink.out = packet narVersionMagic1 := by
    show str b!"nix-archive-1" = _
    rw [str_eq]; rfl
  unfold newWriter at hb
  have hem := (emits_writeString narVersionMagic1 ⟨[], some k⟩).2 k rfl
  split at hem
  · rename_i hk
    rw [hem] at hb
    simp at hb
    have : w' = freshWriter.on (k - (packet narVersionMagic1).length) := by
      rw [← hb.1]
      simp [freshWriter, Writer.on, WState.on, str_eq, narVersionMagic1]
    subst this
    have hr := run_limited freshWriter (k - (packet narVersionMagic1).length) ops rfl
    rw [hf, Nat.sub_add_cancel hk] at hr
    obtain ⟨r1, r2, r3⟩ := hr
    refine ⟨r1, r2, fun h => ?_⟩
    obtain ⟨pre, o, post, a, b, c⟩ := r3 h
    refine ⟨pre, o, post, a, ?_, c⟩
    rcases o with r | r
    · obtain ⟨e, rfl⟩ := b; exact .inl ⟨e, rfl⟩
    · obtain ⟨n, e, rfl⟩ := b; exact .inr ⟨n, e, rfl⟩
  · rw [hem] at hb
    simp at hb

/-- the hypotheses hold, with a limit that is met in the middle of the calls -/
example : (∃ w s, newWriter ⟨[], none⟩ = (.ok w, s)) ∧ (∃ w s, newWriter ⟨[], some 100⟩ = (.ok w, s)) ∧
    100 < (freshWriter.run (sampleOps ++ [.close])).2.st.sink.out.length := by
  refine ⟨⟨_, _, newWriter_fresh⟩, ⟨_, _, rfl⟩, ?_⟩
  decide +kernel

end Verif.Props
