import Verif.Spec.NarWriterCalls
import Verif.Lemmas.NarWriterSink
import Verif.Props.NarReader

/-!
# NAR writer: C20 (writer part), C21, C22, C24, C36

`newWriter s = (.ok w, s')` is a successful `NewWriter` on the sink `s`; `w.run ops` are the
results of a sequence of calls of `WriteHeader`, `Write` and `Close`, and the writer afterwards.
`⟨[], none⟩` is a sink that never fails.
-/

namespace Verif.Props
open Verif.Nar Verif.GoLib Verif.Spec Verif.Wire

theorem newWriter_fresh : newWriter ⟨[], none⟩ = (.ok freshWriter, ⟨str b!"nix-archive-1", none⟩) := by
  decide +kernel

theorem newWriter_ok {w : Writer} {s : Sink} (h : newWriter ⟨[], none⟩ = (.ok w, s)) : w = freshWriter := by
  rw [newWriter_fresh] at h
  simp at h
  exact h.1.symm

/-! ## C21 -/

/-- C21 as stated is false: an entry called `..foo` is taken for something outside its directory. -/
theorem C21_refuted : ∃ t : Tree, t.All NameOk NodeWr ∧ ∃ w s, newWriter ⟨[], none⟩ = (.ok w, s) ∧
    ∃ o ∈ (w.run (writeOps ((t.entriesAt b!"/").map fun e => (e, [e.contents])))).1, o.good = false := by
  refine ⟨.directory (.cons b!"..foo" (.symlink b!"x") .nil), ?_, freshWriter, _, newWriter_fresh, ?_⟩
  · simp only [Tree.All, Entries.All, NodeWr, Entries.names]
    decide
  · exact ⟨.unit (.err (.msg "additional header detected")), by decide +kernel, rfl⟩

theorem ready_close {w : Writer} {J : List Header} {d : Header} {out : Bytes}
    (hr : Ready w (J ++ [d]) out) :
    WOut.good (.unit w.close.1) = true ∧ w.close.2.st.sink.out = out ++ closes J ++ str b!")" := by
  obtain ⟨h, c, o, hcur, hcomp, rfl⟩ := hr.cur
  obtain ⟨cw, hc⟩ := contentClose_complete hcur hcomp
  have hun : unwind (J ++ [d]) ⟨⟨o ++ hdrBytes h ++ c ++ pad c.length, none⟩, cw⟩ =
      (.ok (), ⟨⟨o ++ hdrBytes h ++ c ++ pad c.length ++ closes J ++ str b!")", none⟩, cw⟩) := by
    generalize o ++ hdrBytes h ++ c ++ pad c.length = x
    clear hc hr
    induction J generalizing x with
    | nil =>
      have := unwind_ok [] d x cw
      simpa [closes] using this
    | cons j J ih =>
      simp only [List.cons_append]
      unfold unwind
      rw [wr_bind, if_neg (by simp), wr_bind, ih]
      simp [closes]
  have hcl : emitClose w.phase w.st = (.ok (), ⟨⟨o ++ hdrBytes h ++ c ++ pad c.length ++ closes J ++ str b!")", none⟩, cw⟩) := by
    rw [hr.phase]
    show (contentClose >>= fun _ => unwind (J ++ [d])) w.st = _
    rw [M.bind_ok hc, hun]
  unfold Writer.close
  rw [if_neg (by rw [hr.opened]; simp), hcl]
  exact ⟨rfl, rfl⟩

/-- the root header and its contents -/
theorem root_run {e : Entry} {t : Tree} {cks : List Bytes} (hh : IsHead e t) (hnode : NodeWr t)
    (hp : e.path = b!"/") (hck : cks.flatten = e.contents) :
    ∃ w', RunsTo freshWriter (.header (hdrOf e) :: cks.map .write) w' ∧
      Ready w' [hdrOf e] (str b!"nix-archive-1" ++ headPart t) := by
  obtain ⟨f1, f2, f3, f4, f5, f6⟩ := head_facts (cs := []) hh hnode hp (by simp)
  have hem : emitHeader (hdrOf e) freshWriter.phase freshWriter.st = (.ok [hdrOf e],
      ⟨⟨str b!"nix-archive-1" ++ hdrBytes (hdrOf e), none⟩, some (cwOf (hdrOf e))⟩) := by
    show (if (hdrOf e).path ≠ b!"/" then _ else _ : M WState (List Header)) _ = _
    rw [if_neg (by simpa [hdrOf] using hp)]
    have hst : freshWriter.st = ⟨⟨str b!"nix-archive-1", none⟩, none⟩ := rfl
    rw [hst, M.bind_ok (emitStart_ok (hdrOf e) f1 (str b!"nix-archive-1") none)]
    rfl
  have hwh : freshWriter.writeHeader (hdrOf e) = (.ok (), ⟨⟨⟨str b!"nix-archive-1" ++ hdrBytes (hdrOf e), none⟩,
      some (cwOf (hdrOf e))⟩, .running [hdrOf e], false⟩) := by
    unfold Writer.writeHeader
    rw [f2]
    simp only []
    rw [if_neg (by decide), if_neg (by decide), hem]
    rfl
  obtain ⟨w', r1, r2, r3, r4⟩ := writes_run f3 cks []
    ⟨⟨⟨str b!"nix-archive-1" ++ hdrBytes (hdrOf e), none⟩, some (cwOf (hdrOf e))⟩, .running [hdrOf e], false⟩
    (cur_start (hdrOf e) _) rfl
    (by intro hreg; rw [hck]; simpa using f4 hreg) (by rw [hck]; exact f5)
  refine ⟨w', runsTo_cons (by simp only [Writer.op, hwh]) (by simp [Writer.op, hwh, WOut.good]) r1, r3, r2,
    hdrOf e, e.contents, str b!"nix-archive-1", ?_, f4, ?_⟩
  · rw [List.nil_append, hck] at r4
    exact r4
  · rw [← f6]; simp

/-- C21: writing the headers of a tree in canonical order, each followed by its contents in any
pieces, and closing: every call succeeds, and what is written is the NAR serialisation of the tree.
Missing for the full statement: entries with names like `..foo` (`C21_refuted`). -/
theorem C21_writes_nar_partial (t : Tree) (ht : t.All NameWr NodeWr)
    (es : List (Entry × List Bytes)) (hes : es.map (·.1) = t.entriesAt b!"/")
    (hck : ∀ e ∈ es, e.2.flatten = e.1.contents)
    (w : Writer) (s : Sink) (hnew : newWriter ⟨[], none⟩ = (.ok w, s)) :
    (∀ o ∈ (w.run (writeOps es ++ [.close])).1, o.good = true) ∧
    (w.run (writeOps es ++ [.close])).2.st.sink.out = t.nar := by
  rw [newWriter_ok hnew]
  suffices h : ∃ w' J d out, RunsTo freshWriter (writeOps es) w' ∧ Ready w' (J ++ [d]) out ∧
      out ++ closes J ++ str b!")" = t.nar by
    obtain ⟨w', J, d, out, h1, h2, h3⟩ := h
    obtain ⟨c1, c2⟩ := ready_close h2
    rw [h3] at c2
    have := h1.append (b := [.close]) (w2 := w'.close.2)
      (runsTo_cons (w1 := w'.close.2) rfl (by exact c1) (runsTo_nil _))
    exact ⟨this.1, by rw [this.2]; exact c2⟩
  have leaf : ∀ e : Entry, t.entriesAt b!"/" = [e] → e.path = b!"/" → IsHead e t → NodeWr t →
      headPart t = t.openPart → ∃ w' J d out, RunsTo freshWriter (writeOps es) w' ∧ Ready w' (J ++ [d]) out ∧
      out ++ closes J ++ str b!")" = t.nar := by
    intro e he hp hh hn hhp
    rw [he] at hes
    obtain ⟨⟨e', cks⟩, rfl⟩ : ∃ x, es = [x] := by
      rcases es with _ | ⟨x, _ | _⟩ <;> simp at hes
      exact ⟨x, rfl⟩
    simp only [List.map_cons, List.map_nil, List.cons.injEq, and_true] at hes
    subst hes
    obtain ⟨w', r1, r2⟩ := root_run (cks := cks) hh hn hp (hck (e', cks) (by simp))
    refine ⟨w', [], hdrOf e', _, by simpa [writeOps] using r1, r2, ?_⟩
    rw [hhp, Tree.nar, Tree.node_eq]; simp [closes]
  match t with
  | .regular x c => exact leaf _ rfl rfl ⟨rfl, rfl, rfl, rfl⟩ ht rfl
  | .symlink l => exact leaf _ rfl rfl ⟨rfl, rfl, rfl, rfl⟩ ht rfl
  | .directory ents =>
    simp only [Tree.entriesAt] at hes
    obtain ⟨⟨e', cks⟩, es', rfl⟩ : ∃ x es', es = x :: es' := by
      rcases es with _ | ⟨x, es'⟩
      · simp at hes
      · exact ⟨x, es', rfl⟩
    simp only [List.map_cons, List.cons.injEq] at hes
    obtain ⟨rfl, hes⟩ := hes
    obtain ⟨w1, r1, r2⟩ := root_run (e := ⟨b!"/", b!"directory", false, [], []⟩) (t := .directory ents) (cks := cks)
      ⟨rfl, rfl, rfl, rfl⟩ trivial rfl (hck (⟨b!"/", b!"directory", false, [], []⟩, cks) (by simp))
    simp only [Tree.All] at ht
    obtain ⟨w2, J2, out2, q1, q2, q3, q4⟩ := entries_run ents ht.2.2 ht.2.1 [] (by simp) w1 []
      (hdrOf ⟨b!"/", b!"directory", false, [], []⟩) [] _ r2 rfl rfl (by simp) es' hes
      (fun e he => hck e (List.mem_cons_of_mem _ he))
    refine ⟨w2, J2, _, out2, ?_, q2, ?_⟩
    · have := r1.append q1
      simpa [writeOps] using this
    · rw [q3]
      simp [headPart, Tree.openPart, Entries.nodes, Tree.node, Tree.nar, closes]

theorem sampleTree_wr : sampleTree.All NameWr NodeWr := by
  simp only [sampleTree, Tree.All, Entries.All, NameWr, NodeWr, Entries.names]
  decide

example : sampleTree.All NameWr NodeWr ∧
    ((sampleTree.entriesAt b!"/").map fun e => (e, e.contents.map ([·]))).map (·.1) = sampleTree.entriesAt b!"/" ∧
    (∀ e ∈ (sampleTree.entriesAt b!"/").map fun e => (e, e.contents.map ([·])), e.2.flatten = e.1.contents) ∧
    newWriter ⟨[], none⟩ = (.ok freshWriter, ⟨str b!"nix-archive-1", none⟩) :=
  ⟨sampleTree_wr, by decide +kernel, by decide +kernel, newWriter_fresh⟩

/-! ## C22 -/

/-- C22 as stated is false: with paths that are not clean, entries can be written in the wrong
order, or twice. -/
theorem C22_refuted : ∃ ops : List WOp,
    (∀ o ∈ (freshWriter.run (ops ++ [.close])).1, o.good = true) ∧
    (freshWriter.run (ops ++ [.close])).2.st.sink.out =
      (Tree.directory (.cons b!"b" (.symlink b!"x") (.cons b!"a" (.symlink b!"y") .nil))).nar := by
  refine ⟨[.header ⟨b!"/", b!"directory", [], 0, false⟩, .header ⟨b!"/b", b!"symlink", b!"x", 0, false⟩,
    .header ⟨b!"/c/../a", b!"symlink", b!"y", 0, false⟩], ?_, ?_⟩
  · decide +kernel
  · decide +kernel

/-- C22 as stated is false: the header of a directory given twice writes an entry called `.`. -/
theorem C22_refuted_twice :
    (∀ o ∈ (freshWriter.run [.header ⟨b!"/", b!"directory", [], 0, false⟩,
      .header ⟨b!"/", b!"directory", [], 0, false⟩, .close]).1, o.good = true) ∧
    (freshWriter.run [.header ⟨b!"/", b!"directory", [], 0, false⟩,
      .header ⟨b!"/", b!"directory", [], 0, false⟩, .close]).2.st.sink.out =
      (Tree.directory (.cons b!"." (.directory .nil) .nil)).nar := by
  constructor <;> decide +kernel

/-- C22 as stated is false: a header of an unknown type is written as a node of that type. -/
theorem C22_refuted_type :
    (∀ o ∈ (freshWriter.run [.header ⟨b!"/", b!"directory", [], 0, false⟩,
      .header ⟨b!"/a", b!"fifo", [], 0, false⟩, .close]).1, o.good = true) ∧
    (freshWriter.run [.header ⟨b!"/", b!"directory", [], 0, false⟩,
      .header ⟨b!"/a", b!"fifo", [], 0, false⟩, .close]).2.st.sink.out =
      str b!"nix-archive-1" ++ str b!"(" ++ str b!"type" ++ str b!"directory" ++ str b!"entry" ++ str b!"(" ++
      str b!"name" ++ str b!"a" ++ str b!"node" ++ str b!"(" ++ str b!"type" ++ str b!"fifo" ++ str b!")" ++
      str b!")" ++ str b!")" := by
  constructor <;> decide +kernel

/-- C22: if every call of a history ending with `Close` succeeds, the output is the NAR
serialisation of a tree with valid names and strictly sorted entries, whose entries are, in order,
the headers given to `WriteHeader` with the data written after each. Missing for the full
statement: paths that are not clean, unknown types, negative sizes, and the same path given twice
in a row (`C22_refuted`, `C22_refuted_twice`, `C22_refuted_type`). -/
theorem C22_valid_nar_partial (w : Writer) (s : Sink) (hnew : newWriter ⟨[], none⟩ = (.ok w, s))
    (ops : List WOp) (hh : ∀ h, .header h ∈ ops → HeaderWr h)
    (hw : ∀ p, .write p ∈ ops → p.length < 2 ^ 63)
    (hd : NoRepeat ((written ops).map (·.1.path)))
    (hg : ∀ o ∈ (w.run (ops ++ [.close])).1, o.good = true) :
    ∃ t : Tree, t.All NameWr NodeWr ∧ (w.run (ops ++ [.close])).2.st.sink.out = t.nar ∧
      (t.entriesAt b!"/").map said = written ops := by
  have := newWriter_ok hnew
  subst this
  cases ops with
  | nil =>
    have := hg (.unit (.err (.msg "unexpected Close()"))) (by decide)
    simp [WOut.good] at this
  | cons o ops =>
    have hg1 : WOut.good (freshWriter.op o).1 = true := hg _ (by simp [Writer.run])
    have hg2 : ∀ o' ∈ ((freshWriter.op o).2.run (ops ++ [.close])).1, o'.good = true := by
      intro o' ho'; exact hg o' (by simp [Writer.run, ho'])
    cases o with
    | close => simp [Writer.op, Writer.close, freshWriter, emitClose, WOut.good] at hg1
    | write p => simp [Writer.op, Writer.write, freshWriter, WOut.good] at hg1
    | header h =>
      have hwr := hh h (by simp)
      obtain ⟨hv, hcl, stack, st, he, hw'⟩ := writeHeader_good hg1
      have hroot : h.path = b!"/" ∧ stack = [h] ∧
          st = ⟨⟨str b!"nix-archive-1" ++ hdrBytes h, none⟩, some (cwOf h)⟩ := by
        have he' : (if h.path ≠ b!"/" then M.fail (.msg "first header always needs to have a / as path")
            else do emitStart h; pure [h] : M WState (List Header))
            ⟨⟨str b!"nix-archive-1", none⟩, none⟩ = (.ok stack, st) := he
        by_cases hp : h.path = b!"/"
        · rw [if_neg (by simpa using hp), M.bind_ok (emitStart_ok h hwr.known _ _)] at he'
          simp at he'
          exact ⟨hp, he'.1.symm, he'.2.symm⟩
        · rw [if_pos hp] at he'
          simp at he'
      obtain ⟨h1, h2, h3⟩ := hroot
      have hrun : Running [] h [] [] (freshWriter.writeHeader h).2 := by
        rw [hw']
        subst h2 h3
        exact ⟨⟨[], _, _, Ctx.root, cur_start h _, rfl⟩, rfl, h1, hwr, hv⟩
      obtain ⟨t, t1, t2, t3⟩ := session_sound ops hrun (fun h' hm => hh h' (List.mem_cons_of_mem _ hm))
        (fun p hm => hw p (List.mem_cons_of_mem _ hm)) hd hg2
      exact ⟨t, t1, t2, by simpa [written] using t3⟩

/-- a history meeting the hypotheses -/
def sampleOps : List WOp :=
  [.header ⟨b!"/", b!"directory", [], 0, false⟩, .header ⟨b!"/a", b!"regular", [], 5, true⟩,
    .write b!"he", .write b!"llo", .header ⟨b!"/b", b!"directory", [], 0, false⟩,
    .header ⟨b!"/b/c", b!"symlink", b!"../a", 0, false⟩]

theorem sampleOps_ok : (∀ h, .header h ∈ sampleOps → HeaderWr h) ∧
    (∀ p, .write p ∈ sampleOps → p.length < 2 ^ 63) ∧ NoRepeat ((written sampleOps).map (·.1.path)) ∧
    (∀ o ∈ (freshWriter.run (sampleOps ++ [.close])).1, o.good = true) := by
  refine ⟨?_, ?_, by decide +kernel, by decide +kernel⟩
  · intro h hm
    simp only [sampleOps, List.mem_cons, WOp.header.injEq, reduceCtorEq, false_or, List.not_mem_nil, or_false] at hm
    rcases hm with rfl | rfl | rfl | rfl <;> exact ⟨by decide, by decide, by decide⟩
  · intro p hm
    simp only [sampleOps, List.mem_cons, WOp.write.injEq, reduceCtorEq, false_or, List.not_mem_nil, or_false] at hm
    rcases hm with rfl | rfl <;> decide

example : ∃ w s, newWriter ⟨[], none⟩ = (.ok w, s) ∧
    ∀ o ∈ (w.run (sampleOps ++ [.close])).1, o.good = true :=
  ⟨_, _, newWriter_fresh, sampleOps_ok.2.2.2⟩

/-! ## C20, writer part -/

/-- C20 (nar.Writer): on a sink that accepts `k` bytes and then fails, whatever calls are made, what
reached the sink is a prefix of what the same calls write to a sink that never fails; and if no call
reported an error then it is all of it (so a failure of the sink is reported by some call). -/
theorem C20_writer_sink_failure (k : Nat) (ops : List WOp) (w w' : Writer) (s s' : Sink)
    (hu : newWriter ⟨[], none⟩ = (.ok w, s)) (hb : newWriter ⟨[], some k⟩ = (.ok w', s')) :
    (w'.run ops).2.st.sink.out <+: (w.run ops).2.st.sink.out ∧
    ((∀ o ∈ (w'.run ops).1, o.good = true) → (w'.run ops).1 = (w.run ops).1 ∧
      (w'.run ops).2.st.sink.out = (w.run ops).2.st.sink.out) := by
  have e := newWriter_ok hu
  subst e
  have he : ∃ k', w' = freshWriter.on k' := by
    unfold newWriter at hb
    have hem := (emits_writeString narVersionMagic1 ⟨[], some k⟩).2 k rfl
    split at hem
    · rw [hem] at hb
      simp at hb
      refine ⟨k - (packet narVersionMagic1).length, ?_⟩
      rw [← hb.1]
      simp [freshWriter, Writer.on, WState.on, str_eq, narVersionMagic1]
    · rw [hem] at hb
      simp at hb
  obtain ⟨k', rfl⟩ := he
  exact run_sim freshWriter k' ops rfl

/-- C20 (nar.Writer): `NewWriter` itself fails when the sink does not take the first 24 bytes. -/
theorem C20_newWriter_sink_failure (k : Nat) :
    (newWriter ⟨[], some k⟩).1.isOk = decide (24 ≤ k) ∧
    (newWriter ⟨[], some k⟩).1 ≠ .panic ∧
    (newWriter ⟨[], some k⟩).2.out <+: str b!"nix-archive-1" := by
  unfold newWriter
  have hem := (emits_writeString narVersionMagic1 ⟨[], some k⟩).2 k rfl
  have hl : (packet narVersionMagic1).length = 24 := by decide
  have hs : str b!"nix-archive-1" = packet narVersionMagic1 := str_eq _
  split at hem
  · rw [hem]
    refine ⟨?_, by simp, by rw [hs]; simp⟩
    simp; omega
  · rw [hem]
    refine ⟨?_, by simp, by rw [hs]; simpa using List.take_prefix _ _⟩
    simp; omega

example : ∃ w s, newWriter ⟨[], some 300⟩ = (.ok w, s) ∧
    ¬ ∀ o ∈ (w.run (sampleOps ++ [.close])).1, o.good = true :=
  ⟨⟨⟨⟨str b!"nix-archive-1", some 276⟩, none⟩, .start, false⟩, ⟨str b!"nix-archive-1", some 276⟩,
    by decide +kernel, by decide +kernel⟩

/-! ## C24 -/

mutual
theorem tree_rd (t : Tree) (ht : t.All NameWr NodeWr) (cs : List Bytes) (hcs : ∀ c ∈ cs, Good c)
    (h1 : ∀ e ∈ t.entriesAt (absPath cs), ∀ c ∈ cleanComps e.path, c ≠ b!")" ∧ c.length ≤ 255)
    (h2 : ∀ e ∈ t.entriesAt (absPath cs), e.target.length ≤ 4095) : t.All NameRd NodeRd := by
  match t with
  | .regular x c => exact ht
  | .symlink l => exact h2 ⟨absPath cs, b!"symlink", false, l, []⟩ (by simp [Tree.entriesAt])
  | .directory es =>
    simp only [Tree.All] at ht ⊢
    simp only [Tree.entriesAt] at h1 h2
    exact ⟨trivial, ht.2.1, entries_rd es ht.2.2 cs hcs (fun e he => h1 e (List.mem_cons_of_mem _ he))
      (fun e he => h2 e (List.mem_cons_of_mem _ he))⟩
theorem entries_rd (es : Entries) (ht : es.All NameWr NodeWr) (cs : List Bytes) (hcs : ∀ c ∈ cs, Good c)
    (h1 : ∀ e ∈ es.entriesAt (absPath cs), ∀ c ∈ cleanComps e.path, c ≠ b!")" ∧ c.length ≤ 255)
    (h2 : ∀ e ∈ es.entriesAt (absPath cs), e.target.length ≤ 4095) : es.All NameRd NodeRd := by
  match es with
  | .nil => trivial
  | .cons n t es =>
    simp only [Entries.All] at ht ⊢
    have hg := good_snoc hcs (ht.1.good)
    simp only [Entries.entriesAt, ← absPath_snoc cs n hcs] at h1 h2
    obtain ⟨e, he, hp⟩ : ∃ e ∈ t.entriesAt (absPath (cs ++ [n])), e.path = absPath (cs ++ [n]) := by
      cases t <;> simp [Tree.entriesAt]
    have hn := h1 e (List.mem_append_left _ he) n (by rw [hp, cleanComps_absPath hg]; simp)
    refine ⟨⟨ht.1.1, hn⟩, tree_rd t ht.2.1 _ hg (fun e he => h1 e (List.mem_append_left _ he))
      (fun e he => h2 e (List.mem_append_left _ he)), entries_rd es ht.2.2 cs hcs
      (fun e he => h1 e (List.mem_append_right _ he)) (fun e he => h2 e (List.mem_append_right _ he))⟩
end

/-- C24: what a successful writer session wrote, a reader returns: the same headers in the same
order and, with any sizes of `Read` calls, the data written for each, then `io.EOF`. Missing for the
full statement: the restrictions of C22 and C23 (clean paths, known types, no path twice in a row;
no entry called `)`, names of at most 255 and targets of at most 4095 bytes). -/
theorem C24_reader_inverts_writer_partial (w : Writer) (s : Sink)
    (hnew : newWriter ⟨[], none⟩ = (.ok w, s))
    (ops : List WOp) (hh : ∀ h, .header h ∈ ops → HeaderWr h)
    (hlim : ∀ h, .header h ∈ ops → h.linkTarget.length ≤ 4095 ∧
      ∀ c ∈ cleanComps h.path, c ≠ b!")" ∧ c.length ≤ 255)
    (hw : ∀ p, .write p ∈ ops → p.length < 2 ^ 63)
    (hd : NoRepeat ((written ops).map (·.1.path)))
    (hg : ∀ o ∈ (w.run (ops ++ [.close])).1, o.good = true)
    (plan : List (List Nat)) (hplan : plan.length = (written ops).length) :
    ∃ r s', newReader ⟨(w.run (ops ++ [.close])).2.st.sink.out, .eof⟩ = (.ok r, s') ∧
      (r.session plan).1 = List.zipWith (fun hc ks => (.ok hc.1, readResults hc.2 ks)) (written ops) plan ∧
      ∃ r'', (r.session plan).2.next = (.err .eof, r'') := by
  obtain ⟨t, t1, t2, t3⟩ := C22_valid_nar_partial w s hnew ops hh hw hd hg
  have hmem : ∀ e ∈ t.entriesAt b!"/", .header (hdrOf e) ∈ ops := by
    intro e he
    have hm : said e ∈ written ops := by rw [← t3]; exact List.mem_map_of_mem he
    have key : ∀ (l : List WOp) (x : Header × Bytes), x ∈ written l → .header x.1 ∈ l := by
      intro l
      induction l with
      | nil => simp [written]
      | cons o l ih =>
        intro x hx
        cases o with
        | header h =>
          simp only [written, List.mem_cons] at hx
          rcases hx with rfl | hx
          · simp
          · exact List.mem_cons_of_mem _ (ih x hx)
        | write p => exact List.mem_cons_of_mem _ (ih x hx)
        | close => exact List.mem_cons_of_mem _ (ih x hx)
    exact key ops _ hm
  have hrd : t.All NameRd NodeRd := tree_rd t t1 [] (by simp)
    (fun e he => (hlim _ (hmem e he)).2) (fun e he => (hlim _ (hmem e he)).1)
  have hlen : (written ops).length = (t.entriesAt b!"/").length := by rw [← t3]; simp
  obtain ⟨r, s', r1, r2, r'', r3, _⟩ := C23_read_back_partial t hrd [] .eof plan (by omega)
  rw [List.append_nil] at r1
  rw [t2]
  refine ⟨r, s', r1, ?_, r'', r3⟩
  rw [r2, ← t3, List.zipWith_map_left]
  rfl

example : (∀ h, .header h ∈ sampleOps → h.linkTarget.length ≤ 4095 ∧
      ∀ c ∈ cleanComps h.path, c ≠ b!")" ∧ c.length ≤ 255) ∧
    (written sampleOps).length = 4 := by
  refine ⟨?_, by decide⟩
  intro h hm
  simp only [sampleOps, List.mem_cons, WOp.header.injEq, reduceCtorEq, false_or, List.not_mem_nil, or_false] at hm
  rcases hm with rfl | rfl | rfl | rfl <;> decide

/-! ## C36 -/

/-- C36 is false: after a `WriteHeader` that failed (here: wrong order), a further `WriteHeader`
blocks forever. -/
theorem C36_refuted_blocks : ∃ ops h, h.validate = .ok () ∧
    (freshWriter.run ops).1 = [.unit (.ok ()), .unit (.ok ()),
      .unit (.err (.msg "isn't lexicographically greater than the previous one"))] ∧
    ((freshWriter.run ops).2.writeHeader h).1 = .block := by
  refine ⟨[.header ⟨b!"/", b!"directory", [], 0, false⟩, .header ⟨b!"/b", b!"symlink", b!"x", 0, false⟩,
    .header ⟨b!"/a", b!"symlink", b!"x", 0, false⟩], ⟨b!"/c", b!"symlink", b!"x", 0, false⟩, ?_, ?_, ?_⟩
  all_goals decide +kernel

/-- C36 is false: after a `WriteHeader` that failed, `Close` returns nil although the archive is
incomplete. -/
theorem C36_refuted_close : ∃ ops,
    (freshWriter.run ops).1 = [.unit (.ok ()),
      .unit (.err (.msg "wrote other number of bytes than expected"))] ∧
    (freshWriter.run ops).2.close.1 = .ok () ∧
    (freshWriter.run ops).2.close.2.st.sink.out =
      str b!"nix-archive-1" ++ str b!"(" ++ str b!"type" ++ str b!"regular" ++ str b!"contents" ++
        [3, 0, 0, 0, 0, 0, 0, 0] := by
  refine ⟨[.header ⟨b!"/", b!"regular", [], 3, false⟩, .header ⟨b!"/a", b!"symlink", b!"x", 0, false⟩], ?_, ?_, ?_⟩
  all_goals decide +kernel

theorem phase_op (w : Writer) (o : WOp) (ho : o ≠ .close) (hc : w.closed = false) :
    (w.op o).2.closed = false ∧
    ((w.op o).2.phase = .ended ↔ w.phase = .ended ∨
      ∃ h, o = .header h ∧ h.validate = .ok () ∧ (w.op o).1.good = false) := by
  cases o with
  | close => exact absurd rfl ho
  | write p =>
    simp only [Writer.op, Writer.write]
    cases w.st.cw with
    | none => exact ⟨hc, by simp⟩
    | some c =>
      simp only []
      split <;> exact ⟨hc, by simp⟩
  | header h =>
    simp only [Writer.op, Writer.writeHeader, WOp.header.injEq]
    cases hv : h.validate with
    | err e =>
      refine ⟨hc, ?_⟩
      simp only []
      constructor
      · exact .inl
      · rintro (h' | ⟨h', rfl, h2, _⟩)
        · exact h'
        · rw [hv] at h2; simp at h2
    | panic =>
      refine ⟨hc, ?_⟩
      simp only []
      constructor
      · exact .inl
      · rintro (h' | ⟨h', rfl, h2, _⟩)
        · exact h'
        · rw [hv] at h2; simp at h2
    | ok u =>
      simp only []
      rw [if_neg (by rw [hc]; simp)]
      by_cases hp : w.phase = .ended
      · rw [if_pos hp]; exact ⟨hc, by simp [hp]⟩
      · rw [if_neg hp]
        rcases emitHeader h w.phase w.st with ⟨_ | _ | _, st⟩
        · exact ⟨hc, by simp [hp, WOut.good]⟩
        · exact ⟨hc, by simp [hp, hv, WOut.good]⟩
        · exact ⟨hc, by simp [hp, hv, WOut.good]⟩

theorem phase_run' (ops : List WOp) (ho : .close ∉ ops) : ∀ w : Writer, w.closed = false →
    w.phase ≠ .ended →
    (w.run ops).2.closed = false ∧
    ((w.run ops).2.phase = .ended ↔ ¬ headersGood ops (w.run ops).1) := by
  induction ops with
  | nil => intro w hc hp; exact ⟨hc, by simp [Writer.run, hp, headersGood]⟩
  | cons o ops ih =>
    intro w hc hp
    have ho' : .close ∉ ops := fun h => ho (List.mem_cons_of_mem _ h)
    obtain ⟨h1, h2⟩ := phase_op w o (by rintro rfl; simp at ho) hc
    simp only [Writer.run]
    have hsplit : headersGood (o :: ops) ((w.op o).1 :: ((w.op o).2.run ops).1) ↔
        (∀ h, o = .header h → h.validate = .ok () → (w.op o).1.good = true) ∧
        headersGood ops ((w.op o).2.run ops).1 := by
      simp only [headersGood, List.zip_cons_cons, List.mem_cons, forall_eq_or_imp]
    rw [hsplit]
    by_cases hend : (w.op o).2.phase = .ended
    · -- ended stays
      have stay : ∀ (l : List WOp) (v : Writer), .close ∉ l → v.closed = false → v.phase = .ended →
          (v.run l).2.closed = false ∧ (v.run l).2.phase = .ended := by
        intro l
        induction l with
        | nil => intro v _ a b; exact ⟨a, b⟩
        | cons o' l ih' =>
          intro v hl a b
          obtain ⟨a1, a2⟩ := phase_op v o' (by rintro rfl; simp at hl) a
          exact ih' _ (fun h => hl (List.mem_cons_of_mem _ h)) a1 (a2.2 (.inl b))
      obtain ⟨s1, s2⟩ := stay ops _ ho' h1 hend
      refine ⟨s1, ?_⟩
      rcases h2.1 hend with h | ⟨h, e1, e2, e3⟩
      · exact absurd h hp
      · constructor
        · intro _ hcon
          rw [hcon.1 h e1 e2] at e3
          simp at e3
        · intro _; exact s2
    · obtain ⟨i1, i2⟩ := ih ho' _ h1 hend
      refine ⟨i1, ?_⟩
      rw [i2]
      have hfirst : ∀ h, o = .header h → h.validate = .ok () → (w.op o).1.good = true := by
        intro h e1 e2
        cases hgd : (w.op o).1.good with
        | true => rfl
        | false => exact absurd (h2.2 (.inr ⟨h, e1, e2, hgd⟩)) hend
      constructor
      · intro hn hc'; exact hn hc'.2
      · intro hn hc'; exact hn ⟨hfirst, hc'⟩

/-- C36, what holds, exactly: before `Close`, a `WriteHeader` with a header that passes `Validate`
blocks forever if and only if an earlier such call failed; in that case it changes nothing, and
`Close` writes nothing and returns nil. A header that does not pass `Validate` is refused with an
error without any effect. Missing: the property asks for errors instead of blocking and nil. -/
theorem C36_after_error_partial (w : Writer) (s : Sink) (hnew : newWriter ⟨[], none⟩ = (.ok w, s))
    (ops : List WOp) (ho : .close ∉ ops) (h : Header) :
    (h.validate = .ok () →
      (((w.run ops).2.writeHeader h).1 = .block ↔ ¬ headersGood ops (w.run ops).1)) ∧
    (¬ headersGood ops (w.run ops).1 →
      ((w.run ops).2.writeHeader h).2 = (w.run ops).2 ∧
      (w.run ops).2.close.1 = .ok () ∧ (w.run ops).2.close.2.st = (w.run ops).2.st) ∧
    (h.validate ≠ .ok () → (∃ e, ((w.run ops).2.writeHeader h).1 = .err e) ∧
      ((w.run ops).2.writeHeader h).2 = (w.run ops).2) := by
  have e := newWriter_ok hnew
  subst e
  obtain ⟨h1, h2⟩ := phase_run' ops ho freshWriter rfl (by decide)
  refine ⟨?_, ?_, ?_⟩
  · intro hv
    rw [← h2]
    unfold Writer.writeHeader
    rw [hv]
    simp only []
    rw [if_neg (by rw [h1]; simp)]
    by_cases hp : (freshWriter.run ops).2.phase = .ended
    · rw [if_pos hp]; simp [hp]
    · rw [if_neg hp]
      simp only [hp, iff_false]
      split <;> simp
  · intro hb
    have hp := h2.2 hb
    refine ⟨?_, ?_, ?_⟩
    · unfold Writer.writeHeader
      split
      · rfl
      · rfl
      · rw [if_neg (by rw [h1]; simp), if_pos hp]
    · unfold Writer.close
      rw [if_neg (by rw [h1]; simp), hp]; rfl
    · unfold Writer.close
      rw [if_neg (by rw [h1]; simp), hp]; rfl
  · intro hv
    have hnp := (C34_validate_iff h).2
    unfold Writer.writeHeader
    cases hv' : h.validate with
    | ok u => exact absurd hv' hv
    | panic => exact absurd hv' hnp
    | err e => exact ⟨⟨_, rfl⟩, rfl⟩

example : ¬ headersGood [.header ⟨b!"/x", b!"directory", [], 0, false⟩]
    (freshWriter.run [.header ⟨b!"/x", b!"directory", [], 0, false⟩]).1 := by
  intro h
  have := h (.header ⟨b!"/x", b!"directory", [], 0, false⟩,
    .unit (.err (.msg "first header always needs to have a / as path"))) (by decide) _ rfl (by decide)
  simp [WOut.good] at this

end Verif.Props
