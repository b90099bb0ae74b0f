import Verif.Spec.NarCalls
import Verif.Lemmas.NarHistory

/-!
# NAR reader: C23, C25–C32, C79

`newReader s = (.ok r, s')` is a successful `NewReader` on the stream `s`; `r.run ops` are the
results of a sequence of calls of `Next`, `Read` and `Close`, and the reader afterwards.
-/

namespace Verif.Props
open Verif.Nar Verif.GoLib Verif.Spec Verif.Wire

/-- A tree used in the examples:
`a.txt` (file), `b/` with a symlink `x`, and `bin` (executable). -/
def sampleTree : Tree := .directory
  (.cons b!"a.txt" (.regular false b!"hello, world")
    (.cons b!"b" (.directory (.cons b!"x" (.symlink b!"../a.txt") .nil))
      (.cons b!"bin" (.regular true b!"#!") .nil)))

theorem sampleTree_ok : sampleTree.All NameRd NodeRd := by
  simp only [sampleTree, Tree.All, Entries.All, NameRd, NodeRd, Entries.names]
  decide

theorem newReader_nar (t : Tree) (rest : Bytes) (e : Err) : newReader ⟨t.nar ++ rest, e⟩ =
    (.ok ⟨⟨⟨t.node ++ rest, e⟩, 0, 0⟩, .start, none, [], false⟩, ⟨t.node ++ rest, e⟩) := by
  unfold newReader Tree.nar
  rw [List.append_assoc]
  have := expectString_str b!"nix-archive-1" (t.node ++ rest) e (by simp)
  unfold narVersionMagic1
  rw [this]

theorem newReader_nar' (t : Tree) (e : Err) : newReader ⟨t.nar, e⟩ =
    (.ok ⟨⟨⟨t.node, e⟩, 0, 0⟩, .start, none, [], false⟩, ⟨t.node, e⟩) := by
  have := newReader_nar t [] e
  rwa [List.append_nil, List.append_nil] at this

/-! ## C23 -/

/-- C23 as stated is false: an entry called `)` ends the directory, the entries after it are not
returned. -/
theorem C23_refuted : ∃ t : Tree, t.All (fun n => NameOk n ∧ n.length ≤ 255) NodeRd ∧
    ∃ r s', newReader ⟨t.nar, .eof⟩ = (.ok r, s') ∧
      hdrsOf (r.run [.next, .next, .next, .next]).1 ≠ (t.entriesAt b!"/").map hdrOf ∧
      (r.run [.next, .next, .next]).1.getLast? = some (.next (.err .eof)) := by
  refine ⟨.directory (.cons b!")" (.symlink b!"x") (.cons b!"a" (.symlink b!"y") .nil)), ?_, ?_⟩
  · simp only [Tree.All, Entries.All, NodeRd, Entries.names]
    decide
  · exact ⟨_, _, newReader_nar' _ _, by decide +kernel, by decide +kernel⟩

/-- C23: reading the serialisation of a tree, followed by any data, with any sizes of `Read` calls
for each entry, gives the headers of the tree in canonical order, the contents of the files, then
`io.EOF`, and the underlying reader is left exactly after the archive. Missing for the full
statement: entries called `)`; the documented limits (names of 255, link targets of 4095 bytes). -/
theorem C23_read_back_partial (t : Tree) (ht : t.All NameRd NodeRd) (rest : Bytes) (e : Err)
    (plan : List (List Nat)) (hplan : plan.length = (t.entriesAt b!"/").length) :
    ∃ r s', newReader ⟨t.nar ++ rest, e⟩ = (.ok r, s') ∧
      (r.session plan).1 = List.zipWith (fun en ks => (.ok (hdrOf en), readResults en.contents ks))
        (t.entriesAt b!"/") plan ∧
      ∃ r'', (r.session plan).2.next = (.err .eof, r'') ∧ r''.st.stream = ⟨rest, e⟩ := by
  refine ⟨_, _, newReader_nar t rest e, ?_⟩
  have hP : ∀ n, NameRd n → Good n := fun n hn => nameOk_good hn.1
  obtain ⟨hp1, hp2⟩ := tree_paths hP t ht [] (by simp)
  have hbind : ∀ st : Step RState Header Bool Unit, st.bind (fun a s => .done (.ok a) s) = st := by
    intro st
    induction st with
    | done r s => rcases r with _ | _ | _ <;> rfl
    | yield y s k ih => simp only [Step.bind_yield]; congr 1; funext i s'; exact ih i s'
  have hruns : Runs (fun st : Step RState Header Bool Unit => ∃ r l, st = .done (.ok ()) ⟨⟨rest, e⟩, r, l⟩)
      (t.entriesAt b!"/") ((parseNode ((t.node ++ rest).length + 1) b!"/").run ⟨⟨t.node ++ rest, e⟩, 0, 0⟩) := by
    have := runs_node (β := Unit) t ht ((t.node ++ rest).length + 1) [] (by simp) rest e 0 0
      (Nat.lt_succ_self _) [] (fun st => ∃ r l, st = .done (.ok ()) ⟨⟨rest, e⟩, r, l⟩)
      (fun a s => .done (.ok a) s) (fun r l => ⟨r, l, rfl⟩)
    rw [hbind, List.append_nil] at this
    exact this
  have hpw : (t.entriesAt b!"/").Pairwise (fun a b => pathIsLexicographicallyOrdered a.path b.path = true) := by
    have hp2' : (t.entriesAt b!"/").Pairwise (fun a b => cleanComps a.path < cleanComps b.path) := hp2
    refine hp2'.imp_of_mem ?_
    intro a b ha hb hab
    obtain ⟨ds, e1, g1⟩ := hp1 a ha
    obtain ⟨ds', e2, g2⟩ := hp1 b hb
    rw [e1, e2] at hab ⊢
    rw [cleanComps_absPath g1, cleanComps_absPath g2] at hab
    exact ordered_abs g1 g2 (List.le_of_lt hab)
  obtain ⟨h1, h2, h3, st', h4, h5⟩ := session_spec (t.entriesAt b!"/") plan
    ⟨⟨⟨t.node ++ rest, e⟩, 0, 0⟩, .start, none, [], false⟩ _ rfl rfl rfl hruns
    (by intro e' _; simp [pathIsLexicographicallyOrdered, strLe])
    hpw (by omega)
  refine ⟨h1, ?_⟩
  rw [hplan, List.drop_length] at h5
  obtain ⟨r, l, rfl⟩ := h5
  generalize (Reader.session _ plan).2 = q at h2 h3 h4 ⊢
  have : q.next = q.receive (.done (.ok ()) ⟨⟨rest, e⟩, r, l⟩) := by
    unfold Reader.next
    rw [h2]
    simp only []
    rw [if_neg (by rw [h3]; simp), h4]
  exact ⟨_, this, rfl⟩

example : sampleTree.All NameRd NodeRd ∧ (sampleTree.entriesAt b!"/").length = 5 :=
  ⟨sampleTree_ok, by decide⟩

/-! ## C25 -/

/-- C25: whatever bytes are read and whatever calls are made, every path returned by `Next` starts
with a slash, is its own `path.Clean`, has no NUL byte, and unless it is the root it has no empty,
`.` or `..` component. -/
theorem C25_paths_clean (s s' : Stream) (r : Reader) (hnew : newReader s = (.ok r, s'))
    (ops : List ROp) : ∀ h ∈ hdrsOf (r.run ops).1,
      h.path.head? = some 47 ∧ clean h.path = h.path ∧ (0 : UInt8) ∉ h.path ∧
      (h.path = b!"/" ∨ ∀ c ∈ (splitByte h.path 47).drop 1, c ≠ [] ∧ c ≠ b!"." ∧ c ≠ b!"..") := by
  intro h hm
  obtain ⟨n, st, hok⟩ := run_hdrOk (rinv_new hnew) ops h hm
  obtain ⟨cs, hcs, hp⟩ := hok.path
  have hg : ∀ c ∈ cs, Good c := fun c hc => (hcs c hc).1
  rw [hp]
  refine ⟨rfl, clean_absPath hg, ?_, ?_⟩
  · intro h0
    rcases mem_absPath h0 with h0 | ⟨x, hx, h0⟩
    · simp at h0
    · exact (hcs x hx).2.1 h0
  · by_cases hn : cs = []
    · left; rw [hn]; rfl
    · right
      rw [splitByte_absPath hg, if_neg hn]
      intro c hc
      have := hg c hc
      exact ⟨this.1, this.2.1, this.2.2.1⟩

example : ∃ r s', newReader ⟨sampleTree.nar, .eof⟩ = (.ok r, s') ∧
    hdrsOf (r.run [.next, .next, .read 3, .next, .next, .next, .next]).1 =
      (sampleTree.entriesAt b!"/").map hdrOf :=
  ⟨_, _, newReader_nar' _ _, by decide +kernel⟩

/-! ## C26 -/

/-- C26: all headers returned, in order, are pairwise ordered component by component (so in
particular consecutive ones pass the check), and the entries of any directory `d` come out in
non-decreasing order of their names. -/
theorem C26_order (s s' : Stream) (r : Reader) (hnew : newReader s = (.ok r, s')) (ops : List ROp) :
    (hdrsOf (r.run ops).1).Pairwise fun a b =>
      pathIsLexicographicallyOrdered a.path b.path = true ∧
      splitByte a.path 47 ≤ splitByte b.path 47 ∧
      ∀ d n m : Bytes, n ≠ [] → m ≠ [] → (47 : UInt8) ∉ n → (47 : UInt8) ∉ m →
        a.path = childPath d n → b.path = childPath d m → n ≤ m := by
  have hi := rinv_new hnew
  have h := (run_sorted hi (sinv_new hnew) ops).1
  refine h.imp_of_mem ?_
  intro a b ha hb hab
  obtain ⟨_, _, ha⟩ := run_hdrOk hi ops a ha
  obtain ⟨_, _, hb⟩ := run_hdrOk hi ops b hb
  obtain ⟨ca, ga, ea⟩ := ha.path
  obtain ⟨cb, gb, eb⟩ := hb.path
  have ga' : ∀ c ∈ ca, Good c := fun c hc => (ga c hc).1
  have gb' : ∀ c ∈ cb, Good c := fun c hc => (gb c hc).1
  rw [ea, eb, cleanComps_absPath ga', cleanComps_absPath gb'] at hab
  rw [ea, eb]
  refine ⟨ordered_abs ga' gb' hab, split_abs_le ga' gb' hab, ?_⟩
  intro d n m hn hm hns hms h1 h2
  exact siblings_le ga' gb' hab hn hns hm hms h1 h2

/-- C26: a header that is not ordered after the previous one is not returned: `Next` fails. -/
theorem C26_rejects (s s' : Stream) (r : Reader) (hnew : newReader s = (.ok r, s')) (ops : List ROp)
    (h : Header) (r2 : Reader) (hn : (r.run ops).2.next = (.ok h, r2)) :
    ∀ h0 ∈ hdrsOf (r.run ops).1, splitByte h0.path 47 ≤ splitByte h.path 47 := by
  intro h0 hm
  have key := C26_order s s' r hnew (ops ++ [.next])
  have e : hdrsOf (r.run (ops ++ [.next])).1 = hdrsOf (r.run ops).1 ++ [h] := by
    rw [run_append]
    simp only [Reader.run, Reader.op, hn, hdrsOf, List.filterMap_append]
    rfl
  rw [e, List.pairwise_append] at key
  exact (key.2.2 h0 hm h (by simp)).2.1

/-- an archive with entries in the wrong order is not read to the end -/
example : ∃ r s', newReader ⟨(Tree.directory (.cons b!"b" (.symlink b!"x")
    (.cons b!"a" (.symlink b!"y") .nil))).nar, .eof⟩ = (.ok r, s') ∧
    (r.run [.next, .next, .next]).1.getLast? =
      some (.next (.err (.msg "received header in the wrong order"))) :=
  ⟨_, _, newReader_nar' _ _, by decide +kernel⟩

/-! ## C27 -/

/-- C27: after a failed `Next`, whatever is called, every later `Next` returns the same error and
changes nothing (in particular reads nothing). -/
theorem C27_sticky (r r1 : Reader) (e : Err) (hn : r.next = (.err e, r1)) (ops : List ROp) :
    (r1.run ops).2.next = (.err e, (r1.run ops).2) := by
  have h1 := (next_err hn).1
  have : (r1.run ops).2.err = some e := by
    clear hn
    induction ops generalizing r1 with
    | nil => exact h1
    | cons o ops ih => exact ih _ (op_err h1 o).1
  unfold Reader.next
  rw [this]

example : ∃ r s', newReader ⟨str b!"nix-archive-1" ++ [1, 2], .eof⟩ = (.ok r, s') ∧
    (r.run [.next, .close, .next]).1 =
      [.next (.err .unexpectedEOF), .close (.ok ()), .next (.err .unexpectedEOF)] :=
  ⟨⟨⟨_, 0, 0⟩, .start, none, [], false⟩, _, rfl, by decide +kernel⟩

/-! ## C28 -/

/-- C28: two sequences of calls that differ only in their `Read` calls get the same results from
`Next` and `Close`. -/
theorem C28_reading_irrelevant (s s' : Stream) (r : Reader) (hnew : newReader s = (.ok r, s'))
    (ops1 ops2 : List ROp)
    (h : ops1.filter ROp.notRead = ops2.filter ROp.notRead) :
    (r.run ops1).1.filter ROut.notRead = (r.run ops2).1.filter ROut.notRead := by
  have hs := same_refl (rinv_new hnew)
  rw [run_filter hs ops1, run_filter hs ops2, h]

example : [ROp.next, .next, .read 3, .next].filter ROp.notRead =
    [ROp.next, .read 1, .next, .read 5, .read 7, .next].filter ROp.notRead := by decide

/-! ## C29 and C30 -/

/-- C29 as stated is false: an archive truncated inside a directory gives `io.EOF`. -/
theorem C29_refuted : ∃ r s',
    newReader ⟨str b!"nix-archive-1" ++ str b!"(" ++ str b!"type" ++ str b!"directory", .eof⟩ = (.ok r, s') ∧
      (r.run [.next, .next]).1 = [.next (.ok ⟨b!"/", b!"directory", [], 0, false⟩), .next (.err .eof)] :=
  ⟨⟨⟨_, 0, 0⟩, .start, none, [], false⟩, _, rfl, by decide +kernel⟩

/-- C30 as stated is false: unknown tokens in a directory are skipped. -/
theorem C30_refuted : ∃ r s',
    newReader ⟨str b!"nix-archive-1" ++ str b!"(" ++ str b!"type" ++ str b!"directory" ++ str b!"junk" ++
      str b!")", .eof⟩ = (.ok r, s') ∧
      (r.run [.next, .next]).1 = [.next (.ok ⟨b!"/", b!"directory", [], 0, false⟩), .next (.err .eof)] :=
  ⟨⟨⟨_, 0, 0⟩, .start, none, [], false⟩, _, rfl, by decide +kernel⟩

/-- The archive of `C30_refuted` is not the serialisation of a tree. -/
theorem C30_refuted_not_nar (t : Tree) :
    t.nar ≠ str b!"nix-archive-1" ++ str b!"(" ++ str b!"type" ++ str b!"directory" ++ str b!"junk" ++
      str b!")" := by
  intro h
  unfold Tree.nar at h
  simp only [List.append_assoc] at h
  have h := List.append_cancel_left h
  cases t with
  | regular ex c =>
    simp only [Tree.node, List.append_assoc] at h
    have h := List.append_cancel_left (List.append_cancel_left h)
    simp [str, List.range, List.range.loop] at h
  | symlink c =>
    simp only [Tree.node, List.append_assoc] at h
    have h := List.append_cancel_left (List.append_cancel_left h)
    simp [str, List.range, List.range.loop] at h
  | directory es =>
    simp only [Tree.node, List.append_assoc] at h
    have h := List.append_cancel_left (List.append_cancel_left (List.append_cancel_left h))
    cases es with
    | nil => simp [Entries.nodes, str, List.range, List.range.loop] at h
    | cons n t es => simp [Entries.nodes, str, List.range, List.range.loop] at h

/-- C29, what holds: when `Next` fails for the first time and the error is `io.EOF`, then either the
underlying reader has reported its end, nothing is left and the archive is cut off at one of the places
listed in `Verif.Spec.CutNode` after exactly the headers returned, or a complete archive in the relaxed
format (`Verif.Spec.RelNode`) with exactly the headers returned has been consumed. In particular
`io.EOF` from an archive cut short by another error of the underlying reader is never reported.
Missing for the full statement: the first alternative, see `C29_refuted`. -/
theorem C29_eof_partial (s s' : Stream) (r r' : Reader) (hnew : newReader s = (.ok r, s'))
    (ops : List ROp) (hcl : ROp.close ∉ ops) (hno : ∀ e, ROut.next (.err e) ∉ (r.run ops).1)
    (heof : (r.run ops).2.next = (.err .eof, r')) :
    (r'.st.stream.data = [] ∧ s.term = .eof ∧
      ∃ xs, CutNode b!"/" s'.data xs ∧ hdrsOf (r.run ops).1 = xs.map hdrSeen) ∨
    ∃ es, RelNode b!"/" s'.data es r'.st.stream.data ∧ hdrsOf (r.run ops).1 = es.map hdrOf := by
  obtain ⟨h1, h2, h3, h4, h5, h6⟩ := newReader_facts hnew
  have hp : PInv (RelR s') (CutC s') s' [] r :=
    ⟨fun _ => ⟨rfl, by rw [h1], by rw [h1]⟩, fun k hk => by rw [h2] at hk; simp at hk⟩
  have := run_eof (rinv_new hnew) hp ops hno hcl h5 r' heof h3
  simpa using this

/-- C29: if the underlying reader ends with an error other than `io.EOF`, then `io.EOF` from `Next`
means that a complete archive (in the relaxed format) was read. -/
theorem C29_io_error_partial (s s' : Stream) (r r' : Reader) (hnew : newReader s = (.ok r, s'))
    (hterm : s.term ≠ .eof)
    (ops : List ROp) (hcl : ROp.close ∉ ops) (hno : ∀ e, ROut.next (.err e) ∉ (r.run ops).1)
    (heof : (r.run ops).2.next = (.err .eof, r')) :
    ∃ es, RelNode b!"/" s'.data es r'.st.stream.data ∧ hdrsOf (r.run ops).1 = es.map hdrOf := by
  rcases C29_eof_partial s s' r r' hnew ops hcl hno heof with ⟨_, h, _⟩ | h
  · exact absurd h hterm
  · exact h

/-- C30, what holds: when `Next` fails for the first time, with `io.EOF`, and something is left in
the underlying reader, then what was consumed is an archive in the relaxed format and the headers
returned are those of its entries. Missing for the full statement: the relaxed format (see
`Verif.Spec.RelNode`) is larger than the NAR format, see `C30_refuted`. -/
theorem C30_grammar_partial (s s' : Stream) (r r' : Reader) (hnew : newReader s = (.ok r, s'))
    (ops : List ROp) (hcl : ROp.close ∉ ops) (hno : ∀ e, ROut.next (.err e) ∉ (r.run ops).1)
    (heof : (r.run ops).2.next = (.err .eof, r')) (hleft : r'.st.stream.data ≠ []) :
    ∃ es, RelNode b!"/" s'.data es r'.st.stream.data ∧ hdrsOf (r.run ops).1 = es.map hdrOf := by
  rcases C29_eof_partial s s' r r' hnew ops hcl hno heof with ⟨h, _⟩ | h
  · exact absurd h hleft
  · exact h

example : ∃ r s', newReader ⟨sampleTree.nar ++ [1, 2], .io⟩ = (.ok r, s') ∧
    (∀ e, ROut.next (.err e) ∉ (r.run [.next, .next, .read 3, .next, .next, .next]).1) ∧
    (r.run [.next, .next, .read 3, .next, .next, .next]).2.next.1 = .err .eof ∧
    (r.run [.next, .next, .read 3, .next, .next, .next]).2.next.2.st.stream.data = [1, 2] := by
  refine ⟨_, _, newReader_nar _ _ _, ?_, by decide +kernel, by decide +kernel⟩
  have h : ∀ o ∈ ((⟨⟨⟨sampleTree.node ++ [1, 2], .io⟩, 0, 0⟩, .start, none, [], false⟩ : Reader).run
      [.next, .next, .read 3, .next, .next, .next]).1,
      (match o with | .next (.err _) => false | _ => true) = true := by decide +kernel
  intro e he
  have := h _ he
  simp at this

/-! ## C31 -/

/-- C31: every header returned is consistent: it passes `Validate` unless it is a symlink with an
empty target; the size is between 0 and the largest `int64`; the link target has at most 4095 bytes
and every component of the path at most 255. -/
theorem C31_headers_consistent (s s' : Stream) (r : Reader) (hnew : newReader s = (.ok r, s'))
    (ops : List ROp) : ∀ h ∈ hdrsOf (r.run ops).1,
      (h.validate = .ok () ∨ (h.typ = b!"symlink" ∧ h.linkTarget = [])) ∧
      (h.typ = b!"regular" ∨ h.typ = b!"directory" ∨ h.typ = b!"symlink") ∧
      0 ≤ h.size ∧ h.size ≤ 2 ^ 63 - 1 ∧ h.linkTarget.length ≤ 4095 ∧
      ∀ c ∈ splitByte h.path 47, c.length ≤ 255 := by
  intro h hm
  obtain ⟨n, st, hok⟩ := run_hdrOk (rinv_new hnew) ops h hm
  obtain ⟨cs, hcs, hp⟩ := hok.path
  have hg : ∀ c ∈ cs, Good c := fun c hc => (hcs c hc).1
  refine ⟨?_, hok.typ, hok.size.1, hok.size.2, hok.target.1, ?_⟩
  · by_cases hl : h.typ = b!"symlink" ∧ h.linkTarget = []
    · exact .inr hl
    · left
      have h0 : ¬ h.path.contains 0 = true := by
        rw [hp]
        intro h0
        rcases mem_absPath (List.contains_iff_mem.1 h0) with h0 | ⟨x, hx, h0⟩
        · simp at h0
        · exact (hcs x hx).2.1 h0
      unfold Header.validate
      have e1 : ¬ (h.path.length < 1 ∨ h.path.take 1 ≠ b!"/") := by rw [hp]; simp [absPath]
      rw [if_neg e1, if_neg h0]
      rcases hok.typ with ht | ht | ht
      · have hlt := hok.target.2 (by rw [ht]; decide)
        have n2 : ¬ (h.typ = typeDirectory ∨ h.typ = typeSymlink) := by rw [ht]; decide
        have n3 : ¬ h.typ = typeSymlink := by rw [ht]; decide
        rw [if_neg (by simp [hlt]), if_neg (fun h => n2 h.1), if_neg (fun h => n2 h.1),
          if_neg (fun h => n3 h.1)]
      · have hlt := hok.target.2 (by rw [ht]; decide)
        have ho := hok.other (by rw [ht]; decide)
        have n3 : ¬ h.typ = typeSymlink := by rw [ht]; decide
        simp [hlt, n3, ho.1, ho.2]
      · have ho := hok.other (by rw [ht]; decide)
        have n3 : ¬ (h.typ = typeRegular ∨ h.typ = typeDirectory) := by rw [ht]; decide
        have hl' : h.linkTarget ≠ [] := fun e => hl ⟨ht, e⟩
        rw [if_neg (fun h => n3 h.1), if_neg (by simp [ho.1]), if_neg (by simp [ho.2]), if_neg (by simp [hl'])]
  · rw [hp, splitByte_absPath hg]
    intro c hc
    rcases List.mem_cons.1 hc with rfl | hc
    · simp
    · split at hc
      · simp at hc; subst hc; simp
      · exact (hcs c hc).2.2

/-- a symlink with an empty target is returned although `Validate` rejects it -/
example : ∃ r s', newReader ⟨(Tree.symlink []).nar, .eof⟩ = (.ok r, s') ∧
    hdrsOf (r.run [.next]).1 = [⟨b!"/", b!"symlink", [], 0, false⟩] ∧
    (⟨b!"/", b!"symlink", [], 0, false⟩ : Header).validate ≠ .ok () :=
  ⟨_, _, newReader_nar' _ _, by decide +kernel, by decide⟩

/-! ## C32 -/

theorem goroutineEnded_iff (r : Reader) : goroutineEnded r = true ↔ r.phase = .finished := by
  unfold goroutineEnded
  cases r.phase <;> simp

/-- C32 as stated is false: closing after the first header leaves the goroutine blocked forever. -/
theorem C32_refuted : ∃ r s', newReader ⟨sampleTree.nar, .eof⟩ = (.ok r, s') ∧
    (r.run [.next, .close]).1 = [.next (.ok ⟨b!"/", b!"directory", [], 0, false⟩), .close (.ok ())] ∧
    goroutineEnded (r.run [.next, .close]).2 = false := by
  refine ⟨_, _, newReader_nar' _ _, by decide +kernel, by decide +kernel⟩

theorem phase_run {t : Err} {r : Reader} (hi : RInv t r) (hstart : r.phase = .start → r.err = none)
    (ops : List ROp) (hcl : ROp.close ∉ ops) (hc : r.closed = false)
    (hns : r.phase ≠ .stuck) (hf : r.phase = .finished → r.err ≠ none) :
    (r.run ops).2.closed = false ∧ (r.run ops).2.phase ≠ .stuck ∧
    ((r.run ops).2.phase = .start → r.phase = .start ∧ ROp.next ∉ ops) ∧
    (r.phase = .start → ROp.next ∉ ops → (r.run ops).2.phase = .start) ∧
    ((r.run ops).2.phase = .finished → (r.run ops).2.err ≠ none) := by
  induction ops generalizing r with
  | nil => exact ⟨hc, hns, fun h => ⟨h, by simp⟩, fun h _ => h, hf⟩
  | cons o ops ih =>
    have hcl' : ROp.close ∉ ops := fun h => hcl (List.mem_cons_of_mem _ h)
    simp only [Reader.run]
    cases o with
    | close => simp at hcl
    | read k =>
      obtain ⟨s', _, e⟩ := read_consume r k
      have := ih (r := (r.read k).2) (rinv_read hi k) (by rw [e]; exact hstart) hcl' (by rw [e]; exact hc)
        (by rw [e]; exact hns) (by rw [e]; exact hf)
      simp only [Reader.op]
      have ep : (r.read k).2.phase = r.phase := by rw [e]
      rw [ep] at this
      obtain ⟨h1, h2, h3, h4, h5⟩ := this
      exact ⟨h1, h2, fun h => ⟨(h3 h).1, by simpa using (h3 h).2⟩,
        fun hs hn => h4 hs (by simpa using hn), h5⟩
    | next =>
      simp only [Reader.op]
      have hnp := next_not_panic hi hc
      have hr' := rinv_next hi
      have hph : r.next.2.closed = false ∧ r.next.2.phase ≠ .stuck ∧ r.next.2.phase ≠ .start ∧
          (r.next.2.phase = .finished → r.next.2.err ≠ none) := by
        rcases next_cases r with ⟨e', he, h1⟩ | ⟨_, h0, h1⟩ | ⟨he, hc, hp, h1⟩ | ⟨he, hc', st, hst, h1⟩
        · rw [h1]
          refine ⟨hc, hns, ?_, hf⟩
          intro hs; rw [hstart hs] at he; simp at he
        · rw [h1] at hnp; simp at hnp
        · rw [h1] at hnp; simp at hnp
        · rw [h1] at hnp ⊢
          cases st with
          | done res s =>
            rcases res with _ | e' | _
            · exact ⟨hc, by simp [Reader.receive], by simp [Reader.receive], by simp [Reader.receive]⟩
            · exact ⟨hc, by simp [Reader.receive], by simp [Reader.receive], by simp [Reader.receive]⟩
            · simp [Reader.receive] at hnp
          | yield h' s k =>
            rw [receive_yield]
            split
            · exact ⟨hc, by simp, by simp, by simp⟩
            · exact ⟨hc, by simp, by simp, by simp⟩
      obtain ⟨p1, p2, p3, p4⟩ := hph
      obtain ⟨h1, h2, h3, h4, h5⟩ := ih hr' (fun h => absurd h p3) hcl' p1 p2 p4
      exact ⟨h1, h2, fun h => absurd (h3 h).1 p3, fun _ hn => absurd (by simp) hn, h5⟩

/-- C32, what holds: after the first `Close` the goroutine has returned exactly when `Next` was
never called or the parser had ended (its error was returned by `Next`); in all other cases it is
blocked forever. Missing for the full statement: see `C32_refuted`. -/
theorem C32_close_partial (s s' : Stream) (r : Reader) (hnew : newReader s = (.ok r, s'))
    (ops : List ROp) (hcl : ROp.close ∉ ops) :
    (r.run ops).2.close.1 = .ok () ∧
    (goroutineEnded (r.run ops).2.close.2 = true ↔
      ROp.next ∉ ops ∨ goroutineEnded (r.run ops).2 = true) := by
  rw [goroutineEnded_iff, goroutineEnded_iff]
  obtain ⟨h1, h2, h3, h4, h5, h6⟩ := newReader_facts hnew
  have hi := rinv_new hnew
  obtain ⟨p1, p2, p3, p4, p5⟩ := phase_run hi (fun _ => h3) ops hcl h5 (by rw [h2]; simp) (by rw [h2]; simp)
  generalize hr' : (r.run ops).2 = q at *
  unfold Reader.close
  by_cases he : q.err = some .eof
  · rw [if_pos he]
    refine ⟨rfl, ?_⟩
    simp only []
    constructor
    · exact .inr
    · rintro (h | h)
      · have hph := p4 h2 h
        exfalso
        -- no Next was called, so there is no error
        have : ∀ (os : List ROp) (q0 : Reader), ROp.next ∉ os → ROp.close ∉ os → q0.err = none →
            (q0.run os).2.err = none := by
          intro os
          induction os with
          | nil => intro q0 _ _ h; exact h
          | cons o os ih =>
            intro q0 hn hc h
            cases o with
            | next => simp at hn
            | close => simp at hc
            | read k =>
              obtain ⟨s', _, e⟩ := read_consume q0 k
              exact ih _ (fun hm => hn (List.mem_cons_of_mem _ hm)) (fun hm => hc (List.mem_cons_of_mem _ hm))
                (by simp only [Reader.op]; rw [e]; exact h)
        have := this ops r h hcl h3
        rw [hr', he] at this
        simp at this
      · exact h
  · rw [if_neg he, if_neg (by rw [p1]; simp)]
    cases hp : q.phase with
    | start => exact ⟨rfl, by simp [(p3 hp).2]⟩
    | waiting k =>
      refine ⟨rfl, ?_⟩
      simp only [reduceCtorEq, or_false, false_iff]
      intro hn
      have := p4 h2 hn
      rw [hp] at this
      simp at this
    | finished => exact ⟨rfl, by simp⟩
    | stuck => exact absurd hp p2

/-! ## C79 -/

/-- C79: on arbitrary bytes, with a reader that was not closed, `Next` neither panics nor blocks
forever (nor runs out of the recursion bound of the model). -/
theorem C79_next_total (s s' : Stream) (r : Reader) (hnew : newReader s = (.ok r, s'))
    (ops : List ROp) (hcl : ROp.close ∉ ops) (hterm : s.term ≠ outOfFuel) :
    (r.run ops).2.next.1 ≠ .panic ∧ (r.run ops).2.next.1 ≠ .block ∧
      (r.run ops).2.next.1 ≠ .err outOfFuel := by
  obtain ⟨h1, h2, h3, h4, h5, h6⟩ := newReader_facts hnew
  have hi := rinv_new hnew
  obtain ⟨p1, p2, p3, p4, p5⟩ := phase_run hi (fun _ => h3) ops hcl h5 (by rw [h2]; simp) (by rw [h2]; simp)
  have hn := next_not_panic (rinv_run hi ops) p1
  refine ⟨hn.1, hn.2, ?_⟩
  -- the error is never the model's own
  have herr : ∀ (os : List ROp) (q : Reader), RInv s.term q → q.err ≠ some outOfFuel →
      (q.run os).2.err ≠ some outOfFuel ∧ ∀ q', q.next = (.err outOfFuel, q') → False := by
    have step : ∀ q : Reader, RInv s.term q → q.err ≠ some outOfFuel →
        q.next.2.err ≠ some outOfFuel ∧ ∀ q', q.next = (.err outOfFuel, q') → False := by
      intro q hq he
      rcases next_cases q with ⟨e', he', h1⟩ | ⟨_, h0, h1⟩ | ⟨he', hc, hp, h1⟩ | ⟨he', hc', st, hst, h1⟩
      · rw [h1]
        refine ⟨he, ?_⟩
        intro q' hq'
        simp at hq'
        rw [hq'.1] at he'
        exact he he'
      · rw [h1]; exact ⟨he, by simp⟩
      · rw [h1]; exact ⟨he, by simp⟩
      · rw [h1]
        obtain ⟨n, hok, _⟩ := resume_ok hq st hst
        cases st with
        | done res s0 =>
          rcases res with _ | e' | _
          · simp [Reader.receive, outOfFuel]
          · have := hok.noFuel hterm
            simp only [Reader.receive]
            refine ⟨by simpa using this, ?_⟩
            intro q' hq'
            simp at hq'
            rw [hq'.1] at this
            exact this rfl
          · exact absurd rfl hok.noPanic
        | yield h' s0 k =>
          rw [receive_yield]
          split
          · simp [he]
          · simp [outOfFuel]
    intro os
    induction os with
    | nil => intro q hq he; exact ⟨he, (step q hq he).2⟩
    | cons o os ih =>
      intro q hq he
      refine ⟨?_, (step q hq he).2⟩
      have ho : (q.op o).2.err ≠ some outOfFuel := by
        cases o with
        | next => exact (step q hq he).1
        | read k => obtain ⟨s', _, e⟩ := read_consume q k; simp only [Reader.op]; rw [e]; exact he
        | close =>
          simp only [Reader.op]
          unfold Reader.close
          split
          · exact he
          · split
            · exact he
            · split <;> exact he
      exact (ih _ (rinv_op hq o) ho).1
  have h0 : r.err ≠ some outOfFuel := by rw [h3]; simp
  have h7 := herr ops r hi h0
  have h8 := herr [] _ (rinv_run hi ops) h7.1
  intro he
  exact h8.2 _ (Prod.ext he rfl)

example : ∃ r s', newReader ⟨str b!"nix-archive-1" ++ str b!"(" ++ str b!"type" ++ [255, 255, 255, 255, 255, 255, 255, 255], .eof⟩ = (.ok r, s') ∧
    (r.run [.next]).1 = [.next (.err (.msg "content length exceeds maximum"))] :=
  ⟨⟨⟨_, 0, 0⟩, .start, none, [], false⟩, _, rfl, by decide +kernel⟩

end Verif.Props
