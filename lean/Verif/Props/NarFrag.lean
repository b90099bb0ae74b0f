import Verif.Spec.NarCalls
import Verif.Lemmas.NarFrag
import Verif.Lemmas.NarIter
import Verif.Props.Wire

/-!
# C121: the NAR reader does not depend on how the underlying reader delivers its bytes

`FReader` is an `io.Reader` that hands out its data in arbitrary pieces (`chunks`; an empty piece is
`(0, nil)`), then reports `term` for ever, possibly already together with its last data (`eager`).
`newFNarReader r` is
`NewReader` on such a reader, `f.run ops` a sequence of calls on the result.
-/

namespace Verif.Props
open Verif.Nar Verif.GoLib Verif.Spec Verif.Wire

theorem simR_new {r r' : FReader} {f : FNarReader} (h : newFNarReader r = (.ok f, r')) :
    ∃ q s', newReader r.abs = (.ok q, s') ∧ SimR f q := by
  obtain ⟨h1, h2⟩ := Sim.expectString narVersionMagic1 r
  unfold newFNarReader at h
  unfold newReader
  rcases hm : fexpectString narVersionMagic1 r with ⟨x, r1⟩
  rcases hm' : expectString narVersionMagic1 r.abs with ⟨x', s1⟩
  rw [hm] at h h1 h2
  rw [hm'] at h1 h2
  simp only at h1 h2
  subst h1 h2
  cases x with
  | ok a =>
    simp only [Prod.mk.injEq, Res.ok.injEq] at h
    obtain ⟨rfl, rfl⟩ := h
    exact ⟨_, _, rfl, rfl, .start, rfl, rfl, rfl⟩
  | err e => simp at h
  | panic => simp at h

theorem simR_run {f : FNarReader} {q : Reader} (h : SimR f q) (ops : List ROp) :
    ∃ ops', AllSame SameCall ops ops' ∧ AllSame SameOut (f.run ops).1 (q.run ops').1 ∧
      SimR (f.run ops).2 (q.run ops').2 := by
  induction ops generalizing f q with
  | nil => exact ⟨[], trivial, trivial, h⟩
  | cons o ops ih =>
    cases o with
    | next =>
      obtain ⟨h1, h2⟩ := simR_next h
      obtain ⟨ops', i1, i2, i3⟩ := ih h2
      exact ⟨.next :: ops', ⟨trivial, i1⟩, ⟨h1, i2⟩, i3⟩
    | close =>
      obtain ⟨h1, h2⟩ := simR_close h
      obtain ⟨ops', i1, i2, i3⟩ := ih h2
      exact ⟨.close :: ops', ⟨trivial, i1⟩, ⟨h1, i2⟩, i3⟩
    | read k =>
      obtain ⟨h1, h2, h3, h4⟩ := simR_read h k
      obtain ⟨ops', i1, i2, i3⟩ := ih h1
      refine ⟨.read (f.read k).1.1.length :: ops', ⟨h3, i1⟩, ⟨?_, i2⟩, i3⟩
      rcases h2 with h2 | ⟨h2, h5⟩
      · exact .inl h2
      · exact .inr ⟨h2, by rw [h5], by rw [h5]⟩

/-- C121: on a reader that delivers its bytes in pieces, `NewReader` succeeds exactly when it succeeds
on the whole stream, and fails with the same error otherwise; and every sequence of calls returns what
the same sequence, with `Read` buffers of the sizes actually filled, returns on the whole stream. -/
theorem C121_refines (r : FReader) :
    (∀ e, (newFNarReader r).1 = .err e ↔ (newReader ⟨r.chunks.flatten, r.term⟩).1 = .err e) ∧
    (newFNarReader r).1 ≠ .panic ∧
    ∀ f r', newFNarReader r = (.ok f, r') →
      ∃ q s', newReader ⟨r.chunks.flatten, r.term⟩ = (.ok q, s') ∧
        ∀ ops, ∃ ops', AllSame SameCall ops ops' ∧ AllSame SameOut (f.run ops).1 (q.run ops').1 := by
  refine ⟨?_, ?_, ?_⟩
  · obtain ⟨h1, h2⟩ := Sim.expectString narVersionMagic1 r
    intro e
    unfold newFNarReader newReader
    rcases hm : fexpectString narVersionMagic1 r with ⟨x, r1⟩
    rcases hm' : expectString narVersionMagic1 r.abs with ⟨x', s1⟩
    have hm'' : expectString narVersionMagic1 ⟨r.chunks.flatten, r.term⟩ = (x', s1) := hm'
    rw [hm, hm'] at h1
    rw [hm'']
    simp only at h1
    subst h1
    cases x <;> simp
  · have h1 := (Sim.expectString narVersionMagic1 r).1
    have hnp := (fwd_expectString narVersionMagic1 (by decide)).noPanic r.abs
    unfold newFNarReader
    rcases hm : fexpectString narVersionMagic1 r with ⟨x, r1⟩
    rw [hm] at h1
    cases x with
    | ok a => simp
    | err e => simp
    | panic => exact absurd h1.symm hnp
  · intro f r' hn
    obtain ⟨q, s', h1, h2⟩ := simR_new hn
    refine ⟨q, s', h1, fun ops => ?_⟩
    obtain ⟨ops', i1, i2, _⟩ := simR_run h2 ops
    exact ⟨ops', i1, i2⟩

theorem sameCall_filter {a b : List ROp} (h : AllSame SameCall a b) :
    a.filter ROp.notRead = b.filter ROp.notRead := by
  induction a generalizing b with
  | nil => cases b <;> simp_all [AllSame]
  | cons x a ih =>
    cases b with
    | nil => simp [AllSame] at h
    | cons y b =>
      obtain ⟨h1, h2⟩ := h
      have := ih h2
      cases x <;> cases y <;> simp_all [SameCall, ROp.notRead, List.filter_cons]

theorem sameOut_filter {a : List FROut} {b : List ROut} (h : AllSame SameOut a b) :
    a.filterMap FROut.call? = b.filter ROut.notRead := by
  induction a generalizing b with
  | nil => cases b <;> simp_all [AllSame]
  | cons x a ih =>
    cases b with
    | nil => simp [AllSame] at h
    | cons y b =>
      obtain ⟨h1, h2⟩ := h
      have := ih h2
      cases x <;> cases y <;> simp_all [SameOut, ROut.notRead, FROut.call?, List.filter_cons, List.filterMap_cons]

/-- C121: two readers that deliver the same bytes and the same final error in different pieces, used by
two sequences of calls that differ only in their `Read` calls, give the same results for `Next` and
`Close`. -/
theorem C121_calls (r1 r2 : FReader)
    (hd : r1.chunks.flatten = r2.chunks.flatten) (ht : r1.term = r2.term)
    (f1 f2 : FNarReader) (r1' r2' : FReader) (n1 : newFNarReader r1 = (.ok f1, r1'))
    (n2 : newFNarReader r2 = (.ok f2, r2')) (ops1 ops2 : List ROp)
    (h : ops1.filter ROp.notRead = ops2.filter ROp.notRead) :
    (f1.run ops1).1.filterMap FROut.call? = (f2.run ops2).1.filterMap FROut.call? := by
  obtain ⟨q1, s1, m1, e1⟩ := simR_new n1
  obtain ⟨q2, s2, m2, e2⟩ := simR_new n2
  have habs : r1.abs = r2.abs := by simp [FReader.abs, hd, ht]
  rw [habs, m2] at m1
  simp only [Prod.mk.injEq, Res.ok.injEq] at m1
  obtain ⟨rfl, rfl⟩ := m1
  obtain ⟨o1, a1, b1, _⟩ := simR_run e1 ops1
  obtain ⟨o2, a2, b2, _⟩ := simR_run e2 ops2
  rw [sameOut_filter b1, sameOut_filter b2]
  exact C28_reading_irrelevant _ _ _ m2 o1 o2 (by rw [← sameCall_filter a1, ← sameCall_filter a2, h])

/-! ## Reading an archive back -/

/-- The reader is about to return the headers of `es` and then to reach `Q`, whatever is read of the
current contents. -/
def Pos (Q : Step RState Header Bool Unit → Prop) (es : List Entry) (r : Reader) : Prop :=
  r.err = none ∧ r.closed = false ∧
  (∃ s0, Consume s0 r.st ∧ ∀ s', Consume s0 s' → ∃ st, ({ r with st := s' } : Reader).resume = some st ∧
    Runs Q es st) ∧
  (∀ e ∈ es.head?, pathIsLexicographicallyOrdered r.prev e.path = true) ∧
  es.Pairwise (fun a b => pathIsLexicographicallyOrdered a.path b.path = true)

theorem pos_read {Q : Step RState Header Bool Unit → Prop} {es : List Entry} {r : Reader}
    (h : Pos Q es r) (k : Nat) : Pos Q es (r.read k).2 := by
  obtain ⟨h1, h2, ⟨s0, hc, hs⟩, h4, h5⟩ := h
  obtain ⟨s', hc', e⟩ := read_consume r k
  rw [e]
  exact ⟨h1, h2, ⟨s0, hc.trans hc', hs⟩, h4, h5⟩

theorem pos_next {Q : Step RState Header Bool Unit → Prop} {e : Entry} {es : List Entry} {r : Reader}
    (h : Pos Q (e :: es) r) : ∃ r1 tail, r.next = (.ok (hdrOf e), r1) ∧ Pos Q es r1 ∧
      r1.st.stream.data = e.contents ++ tail ∧ r1.st.rem = e.contents.length ∧ tail ≠ [] := by
  obtain ⟨herr, hcl, ⟨s0, hc0, hs⟩, hord, hpw⟩ := h
  obtain ⟨st, hres, hrun⟩ := hs r.st hc0
  have hres : r.resume = some st := hres
  obtain ⟨tail, t, l, k, hne, rfl, hk⟩ := hrun
  have ho := hord e (by simp)
  have hnext : r.next = (.ok (hdrOf e), { r with
      st := ⟨⟨e.contents ++ tail, t⟩, e.contents.length, l⟩, phase := .waiting k, prev := e.path }) := by
    unfold Reader.next
    rw [herr]
    simp only []
    rw [if_neg (by simp [hcl]), hres]
    have ho' : pathIsLexicographicallyOrdered r.prev (hdrOf e).path = true := ho
    simp only [Reader.receive]
    rw [if_pos ho', ← herr]
    rfl
  rw [List.pairwise_cons] at hpw
  refine ⟨_, tail, hnext, ⟨herr, hcl, ⟨_, Consume.refl _, fun s' hc' => ⟨_, rfl, hk s' hc'⟩⟩, ?_, hpw.2⟩,
    rfl, rfl, hne⟩
  intro e' he'
  exact hpw.1 e' (List.mem_of_mem_head? he')

theorem pos_end {rest : Stream} {r : Reader}
    (h : Pos (fun st => ∃ r l, st = .done (.ok ()) ⟨rest, r, l⟩) [] r) :
    ∃ r1, r.next = (.err .eof, r1) ∧ r1.st.stream = rest := by
  obtain ⟨herr, hcl, ⟨s0, hc0, hs⟩, _, _⟩ := h
  obtain ⟨st, hres, r0, l, rfl⟩ := hs r.st hc0
  have hres : r.resume = some _ := hres
  have : r.next = r.receive (.done (.ok ()) ⟨rest, r0, l⟩) := by
    unfold Reader.next
    rw [herr]
    simp only []
    rw [if_neg (by simp [hcl]), hres]
  exact ⟨_, this, rfl⟩

theorem pos_new (t : Tree) (ht : t.All NameRd NodeRd) (rest : Bytes) (e : Err) :
    Pos (fun st => ∃ r l, st = .done (.ok ()) ⟨⟨rest, e⟩, r, l⟩) (t.entriesAt b!"/")
      ⟨⟨⟨t.node ++ rest, e⟩, 0, 0⟩, .start, none, [], false⟩ := by
  have hat := at_new t ht rest e
  obtain ⟨h1, h2, _, h4, h5⟩ := hat
  have hbind : ∀ st : Step RState Header Bool Unit, st.bind (fun a s => .done (.ok a) s) = st := by
    intro st
    induction st with
    | done r s => rcases r with _ | _ | _ <;> rfl
    | yield y s k ih => simp only [Step.bind_yield]; congr 1; funext i s'; exact ih i s'
  refine ⟨h1, h2, ⟨_, Consume.refl _, ?_⟩, h4, h5⟩
  intro s' hc
  have := consume_rem_zero hc rfl
  subst this
  refine ⟨_, rfl, ?_⟩
  have := runs_node (β := Unit) t ht ((t.node ++ rest).length + 1) [] (by simp) rest e 0 0
    (Nat.lt_succ_self _) [] (fun st => ∃ r l, st = .done (.ok ()) ⟨⟨rest, e⟩, r, l⟩)
    (fun a s => .done (.ok a) s) (fun r l => ⟨r, l, rfl⟩)
  rw [hbind, List.append_nil] at this
  exact this

theorem pos_run {Q : Step RState Header Bool Unit → Prop} {es1 es2 : List Entry} {f : FNarReader} {q : Reader}
    (hs : SimR f q) (h : Pos Q (es1 ++ es2) q) (pre : List ROp)
    (hp : pre.filter ROp.notRead = List.replicate es1.length .next) :
    ∃ q', SimR (f.run pre).2 q' ∧ Pos Q es2 q' := by
  induction pre generalizing f q es1 with
  | nil =>
    cases es1 with
    | nil => exact ⟨q, hs, h⟩
    | cons e es1 => simp [List.replicate_succ] at hp
  | cons o pre ih =>
    cases o with
    | read k =>
      obtain ⟨h1, _⟩ := simR_read hs k
      exact ih h1 (pos_read h _) (by simpa [ROp.notRead] using hp)
    | close =>
      exfalso
      cases es1 <;> simp [ROp.notRead, List.replicate_succ, List.filter_cons] at hp
    | next =>
      cases es1 with
      | nil => simp [ROp.notRead] at hp
      | cons e es1 =>
        obtain ⟨r1, tail, h1, h2, _⟩ := pos_next h
        have hn := (simR_next hs).2
        rw [h1] at hn
        exact ih hn h2 (by simpa [ROp.notRead, List.replicate_succ, List.filter_cons] using hp)

theorem run_reads (f : FNarReader) (ks : List Nat) :
    f.run (ks.map .read) = ((reads f.st ks).1.map (fun x => .read x.1 x.2),
      { f with st := (reads f.st ks).2 }) := by
  induction ks generalizing f with
  | nil => rfl
  | cons k ks ih =>
    simp only [List.map_cons, FNarReader.run, FNarReader.op]
    rw [ih]
    rfl

theorem dataOf_reads (l : List (Bytes × Option Err)) :
    dataOf (l.map (fun x => .read x.1 x.2)) = (l.map (·.1)).flatten := by
  unfold dataOf
  rw [List.map_map]
  rfl

theorem reads_eof (ks : List Nat) (br : BytesReader)
    (hl : br.rem < br.r.chunks.flatten.length) : ∀ x ∈ (reads br ks).1, ∀ t, x.2 = some t → t = .eof := by
  induction ks generalizing br with
  | nil => simp [reads]
  | cons k ks ih =>
    have hs := BytesReader.read_spec br k
    have hclean : ∀ e, (br.read k).1.2 = some e → (br.read k).1.1 ≠ [] → br.rem ≠ 0 → br.r.eager = true := by
      intro e he hd h0
      have hsp := FReader.read_spec br.r (min k br.rem)
      have : (br.read k).1 = (br.r.read (min k br.rem)).1 := by
        unfold BytesReader.read; rw [if_neg h0]
      rw [this] at he hd
      exact hsp.eager_err e he hd
    rcases hr : br.read k with ⟨⟨d, e⟩, br'⟩
    rw [hr] at hs hclean
    have hs : BRead br k d e br' := hs
    have hrd : reads br (k :: ks) = ((d, e) :: (reads br' ks).1, (reads br' ks).2) := by
      simp [reads, hr]
    have hdata := congrArg List.length hs.data
    rw [List.length_append] at hdata
    have hre := hs.rem
    rw [hrd]
    intro x hx t ht
    rcases List.mem_cons.mp hx with rfl | hx
    · simp only at ht
      rcases hs.err t ht with ⟨h1, _⟩ | ⟨h1, h2⟩
      · exact h1
      · by_cases h0 : br.rem = 0
        · have : br.read k = (([], some .eof), br) := by unfold BytesReader.read; rw [if_pos h0]
          rw [this] at hr
          simp only [Prod.mk.injEq] at hr
          rw [← hr.1.2] at ht
          exact (Option.some.inj ht).symm
        · rw [h2, List.flatten_nil, List.length_nil] at hdata
          omega
    · exact ih br' (by omega) x hx t ht

theorem reads_done (ks : List Nat) (br : BytesReader) (hp : ∀ k ∈ ks, 0 < k)
    (hl : br.r.fuel < ks.length) : ∃ x ∈ (reads br ks).1, x.2 ≠ none := by
  induction ks generalizing br with
  | nil => simp at hl
  | cons k ks ih =>
    have hs := BytesReader.read_spec br k
    rcases hr : br.read k with ⟨⟨d, e⟩, br'⟩
    rw [hr] at hs
    have hs : BRead br k d e br' := hs
    have hrd : reads br (k :: ks) = ((d, e) :: (reads br' ks).1, (reads br' ks).2) := by
      simp [reads, hr]
    rw [hrd]
    cases e with
    | some t => exact ⟨(d, some t), by simp, by simp⟩
    | none =>
      have := hs.dec rfl (hp k (by simp))
      simp only [List.length_cons] at hl
      obtain ⟨x, hx, hne⟩ := ih br' (fun k hk => hp k (by simp [hk])) (by omega)
      exact ⟨x, by simp [hx], hne⟩

/-- C121: the archive of a tree, followed by any data and delivered in any pieces, is read back.
However the entries before it were read, the next `Next` returns the header of the next entry; then,
whatever the sizes of the `Read` calls, the data they deliver is a beginning of the contents of the
entry; the only error they report is `io.EOF`, and then the contents have been delivered completely;
and sufficiently many calls with non-empty buffers do deliver them completely. When all entries have
been returned, `Next` returns `io.EOF` and the underlying reader has delivered exactly the archive. -/
theorem C121_read_back (t : Tree) (ht : t.All NameRd NodeRd) (rest : Bytes) (r : FReader)
    (hd : r.chunks.flatten = t.nar ++ rest) :
    ∃ f r', newFNarReader r = (.ok f, r') ∧
    (∀ es1 en es2, t.entriesAt b!"/" = es1 ++ en :: es2 → ∀ pre : List ROp,
      pre.filter ROp.notRead = List.replicate es1.length .next →
      (f.run pre).2.next.1 = .ok (hdrOf en) ∧
      (∀ ks : List Nat,
        let out := ((f.run pre).2.next.2.run (ks.map .read)).1
        dataOf out <+: en.contents ∧
        ∀ d e, .read d (some e) ∈ out → e = .eof ∧ dataOf out = en.contents) ∧
      ∃ n, ∀ ks : List Nat, n ≤ ks.length → (∀ k ∈ ks, 0 < k) →
        dataOf ((f.run pre).2.next.2.run (ks.map .read)).1 = en.contents) ∧
    ∀ pre : List ROp, pre.filter ROp.notRead = List.replicate (t.entriesAt b!"/").length .next →
      (f.run pre).2.next.1 = .err .eof ∧
      (f.run pre).2.next.2.st.r.chunks.flatten = rest ∧ (f.run pre).2.next.2.st.r.term = r.term := by
  have hnew := newReader_nar t rest r.term
  have habs : r.abs = ⟨t.nar ++ rest, r.term⟩ := by simp [FReader.abs, hd]
  have hok : ∃ f r', newFNarReader r = (.ok f, r') := by
    obtain ⟨h1, h2, _⟩ := C121_refines r
    have h1 : ∀ e, (newFNarReader r).1 = .err e ↔ (newReader r.abs).1 = .err e := h1
    rw [habs, hnew] at h1
    rcases hn : newFNarReader r with ⟨x, r'⟩
    rw [hn] at h1 h2
    cases x with
    | ok f => exact ⟨f, r', rfl⟩
    | err e => have := (h1 e).mp rfl; simp at this
    | panic => exact absurd rfl h2
  obtain ⟨f, r', hn⟩ := hok
  obtain ⟨q, s', hq, hsim⟩ := simR_new hn
  rw [habs, hnew] at hq
  simp only [Prod.mk.injEq, Res.ok.injEq] at hq
  obtain ⟨rfl, rfl⟩ := hq
  have hpos := pos_new t ht rest r.term
  refine ⟨f, r', hn, ?_, ?_⟩
  · intro es1 en es2 he pre hp
    rw [he] at hpos
    obtain ⟨q', hs', hpos'⟩ := pos_run hsim hpos pre hp
    obtain ⟨r1, tail, h1, h2, h3, h4, htail⟩ := pos_next hpos'
    obtain ⟨n1, n2⟩ := simR_next hs'
    rw [h1] at n1 n2
    have hrem : (f.run pre).2.next.2.st.rem = en.contents.length := by
      rw [← h4, n2.st]; rfl
    have hdat : (f.run pre).2.next.2.st.r.chunks.flatten = en.contents ++ tail := by
      rw [← h3, n2.st]; rfl
    generalize (f.run pre).2.next.2 = g at *
    have key : ∀ ks : List Nat,
        dataOf (g.run (ks.map .read)).1 <+: en.contents ∧
        ((∃ x ∈ (reads g.st ks).1, x.2 ≠ none) → dataOf (g.run (ks.map .read)).1 = en.contents) := by
      intro ks
      obtain ⟨m, k1, k2, k3, k4, k5, k6, k7⟩ := reads_spec ks g.st
      rw [run_reads]
      simp only [dataOf_reads]
      generalize hD : ((reads g.st ks).1.map (·.1)).flatten = D at *
      rw [hdat] at k6
      rw [hrem] at k1
      have hpre : D = en.contents.take m := by
        have := congrArg (List.take m) k6
        rw [List.take_append_of_le_length (by omega), List.take_left' k5] at this
        exact this.symm
      refine ⟨by rw [hpre]; exact List.take_prefix _ _, ?_⟩
      intro hx
      rw [hpre]
      apply List.take_of_length_le
      rcases k7 hx with h | h
      · omega
      · have := congrArg List.length k6
        rw [h] at this
        simp at this
        omega
    refine ⟨n1, ?_, g.st.r.fuel + 1, ?_⟩
    · intro ks
      refine ⟨(key ks).1, ?_⟩
      intro d e hm
      rw [run_reads] at hm
      obtain ⟨x, hx, e1⟩ := List.mem_map.mp hm
      simp only [FROut.read.injEq] at e1
      refine ⟨reads_eof ks g.st (by rw [hrem, hdat]; have := List.length_pos_iff.mpr htail; rw [List.length_append]; omega) x hx e e1.2, (key ks).2 ⟨x, hx, by simp [e1.2]⟩⟩
    · intro ks hk hp0
      exact (key ks).2 (reads_done ks g.st hp0 (by omega))
  · intro pre hp
    have hpos0 : Pos (fun st => ∃ r0 l, st = .done (.ok ()) ⟨⟨rest, r.term⟩, r0, l⟩)
        (t.entriesAt b!"/" ++ []) ⟨⟨⟨t.node ++ rest, r.term⟩, 0, 0⟩, .start, none, [], false⟩ := by
      rw [List.append_nil]; exact hpos
    obtain ⟨q', hs', hpos'⟩ := pos_run hsim hpos0 pre hp
    obtain ⟨r1, h1, h2⟩ := pos_end hpos'
    obtain ⟨n1, n2⟩ := simR_next hs'
    rw [h1] at n1 n2
    have hst : r1.st.stream = (f.run pre).2.next.2.st.r.abs := by rw [n2.st]; rfl
    rw [h2] at hst
    exact ⟨n1, (congrArg Stream.data hst).symm, (congrArg Stream.term hst).symm⟩

/-- The archive of `sampleTree` delivered byte by byte, with an empty read after each byte. -/
def byByte (b : Bytes) : FReader := ⟨b.flatMap fun x => [[x], []], .eof, true⟩

example : (byByte b!"abc").chunks = [b!"a", [], b!"b", [], b!"c", []] := by decide

example : (byByte (sampleTree.nar ++ [1, 2])).chunks.flatten = sampleTree.nar ++ [1, 2] := by decide +kernel

/-- An archive cut off at the end of the contents of a file, where the underlying reader reports an error together with the last byte: `Read`
passes the error on together with the contents, `Next` then fails with it. -/
example : (match (newFNarReader ⟨[(Tree.regular false b!"12345678").nar.take 96, b!"12345678"], .io, true⟩).1 with
      | .ok f => (f.run [.next, .read 9, .next]).1
      | _ => []) =
      [.next (.ok ⟨b!"/", b!"regular", [], 8, false⟩), .read b!"12345678" (some .io), .next (.err .io)] := by
  decide +kernel

example : (match (newFNarReader (byByte (sampleTree.nar ++ [1, 2]))).1 with
      | .ok f => (f.run [.next, .next, .read 3, .read 3, .read 3, .next]).1
      | _ => []) =
      [.next (.ok ⟨b!"/", b!"directory", [], 0, false⟩), .next (.ok ⟨b!"/a.txt", b!"regular", [], 12, false⟩),
        .read [] none, .read b!"h" none, .read [] none, .next (.ok ⟨b!"/b", b!"directory", [], 0, false⟩)] := by
  decide +kernel

end Verif.Props
