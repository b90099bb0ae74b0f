import Verif.Spec.CopyNar
import Verif.Props.NarValidExact
import Verif.Lemmas.NarDump

/-!
# A program that copies an archive from a `nar.Reader` to a `nar.Writer` (C165)
-/

namespace Verif.Props
open Verif Verif.Nar Verif.GoLib Verif.Spec Verif.Wire

theorem read_short (r : Reader) (k : Nat) (d : Bytes) (r' : Reader) (h : r.read k = (.ok d, r')) : d.length ≤ k := by
  unfold Reader.read at h
  split at h
  · cases h
  · simp only at h
    split at h
    · cases h
    · cases h
      simp only [List.length_take]
      omega

theorem copyBody_ops {r r' : Reader} {w w' : Writer} {c : Bytes} (h : CopyBody r w c r' w') :
    (∃ ps : List Bytes, (∀ p ∈ ps, p.length < 2 ^ 63) ∧ ps.flatten = c ∧ RunsTo w (ps.map .write) w') ∧
    ∃ ks : List Nat, r' = (r.run (ks.map .read)).2 ∧ hdrsOf (r.run (ks.map .read)).1 = [] := by
  induction h with
  | @eof r w r' h =>
    refine ⟨⟨[], by simp, rfl, runsTo_nil _⟩, [32768], ?_, ?_⟩
    · simp [Reader.run, Reader.op, h]
    · simp [Reader.run, Reader.op, hdrsOf]
  | @nothing r w r1 c r2 w2 h _ ih =>
    obtain ⟨h1, ks, h2, h3⟩ := ih
    refine ⟨h1, 32768 :: ks, ?_, ?_⟩
    · simp only [List.map_cons, Reader.run, Reader.op, h]
      exact h2
    · simp only [List.map_cons, Reader.run, Reader.op, h, hdrsOf, List.filterMap_cons]
      exact h3
  | @chunk r w d r1 w1 c r2 w2 h _ hw _ ih =>
    obtain ⟨⟨ps, q1, q2, q3⟩, ks, h2, h3⟩ := ih
    refine ⟨⟨d :: ps, ?_, by simp [q2], ?_⟩, 32768 :: ks, ?_, ?_⟩
    · intro p hp
      rcases List.mem_cons.1 hp with rfl | hp
      · have := read_short _ _ _ _ h
        omega
      · exact q1 p hp
    · exact runsTo_cons (w1 := w1) (by simp only [Writer.op, hw]) (by simp only [Writer.op, hw, WOut.good]) q3
    · simp only [List.map_cons, Reader.run, Reader.op, h]
      exact h2
    · simp only [List.map_cons, Reader.run, Reader.op, h, hdrsOf, List.filterMap_cons]
      exact h3

theorem leadWrites_append (ps : List Bytes) (ops : List WOp) (h : leadWrites ops = []) :
    leadWrites (ps.map .write ++ ops) = ps.flatten := by
  induction ps with
  | nil => simpa using h
  | cons p ps ih => simp only [List.map_cons, List.cons_append, leadWrites, List.flatten_cons, ih]

theorem written_append (ps : List Bytes) (ops : List WOp) : written (ps.map .write ++ ops) = written ops := by
  induction ps with
  | nil => rfl
  | cons p ps ih => exact ih

theorem copy_ops {r : Reader} {w w' : Writer} {l : List (Header × Bytes)} (h : CopyNar r w l w') :
    (∃ ops : List WOp, RunsTo w (ops ++ [.close]) w' ∧ written ops = l ∧ leadWrites ops = [] ∧
      (∀ x, .header x ∈ ops → x ∈ l.map (·.1)) ∧ ∀ p, .write p ∈ ops → p.length < 2 ^ 63) ∧
    ∃ rops : List ROp, hdrsOf (r.run rops).1 = l.map (·.1) ∧ (r.run rops).2.next.1 = .err .eof := by
  induction h with
  | @done r w r' w' h1 h2 =>
    refine ⟨⟨[], ?_, rfl, rfl, by simp, by simp⟩, [], rfl, ?_⟩
    · exact runsTo_cons (w1 := w') (by simp only [Writer.op, h2]) (by simp only [Writer.op, h2, WOut.good]) (runsTo_nil _)
    · simp only [Reader.run, h1]
  | @entry r w h r1 w1 c r2 w2 l w' h1 h2 hb _ ih =>
    obtain ⟨⟨ops, i1, i2, i3, i4, i5⟩, rops, j1, j2⟩ := ih
    obtain ⟨⟨ps, p1, p2, p3⟩, ks, k1, k2⟩ := copyBody_ops hb
    refine ⟨⟨.header h :: (ps.map .write ++ ops), ?_, ?_, rfl, ?_, ?_⟩, .next :: (ks.map .read ++ rops), ?_, ?_⟩
    · refine runsTo_cons (w1 := w1) (by simp only [Writer.op, h2]) (by simp only [Writer.op, h2, WOut.good]) ?_
      show RunsTo w1 ((ps.map .write ++ ops) ++ [.close]) w'
      rw [List.append_assoc]
      exact p3.append i1
    · simp only [written, leadWrites_append _ _ i3, p2, written_append, i2]
    · intro x hx
      simp only [List.mem_cons, List.mem_append, List.mem_map, WOp.header.injEq] at hx
      rcases hx with rfl | ⟨_, _, hx⟩ | hx
      · simp
      · cases hx
      · exact List.mem_cons_of_mem _ (i4 x hx)
    · intro p hp
      simp only [List.mem_cons, List.mem_append, List.mem_map] at hp
      rcases hp with hp | ⟨q, hq, hp⟩ | hp
      · cases hp
      · cases hp; exact p1 _ hq
      · exact i5 p hp
    · simp only [Reader.run, Reader.op, h1]
      rw [run_append]
      have e : ∀ a b : List ROut, hdrsOf (ROut.next (.ok h) :: (a ++ b)) = h :: (hdrsOf a ++ hdrsOf b) := by
        intro a b
        simp [hdrsOf]
      rw [e, k2, ← k1, j1]
      rfl
    · simp only [Reader.run, Reader.op, h1]
      rw [run_append, ← k1]
      exact j2

/-- C165: if a program copies an archive, whatever stream it comes from, and no call fails, then what was written is the NAR of a tree that has
exactly the entries the reader returned, if and only if the reader did not return one path twice in a row. -/
theorem C165_canonical (s s' : Stream) (r : Reader) (hr : newReader s = (.ok r, s')) (w : Writer) (s0 : Sink)
    (hw : newWriter ⟨[], none⟩ = (.ok w, s0)) (l : List (Header × Bytes)) (w' : Writer) (h : CopyNar r w l w') :
    (∃ t : Tree, t.All NameOk (fun _ => True) ∧ w'.st.sink.out = t.nar ∧ (t.entriesAt b!"/").map said = l) ↔
      NoRepeat (l.map (·.1.path)) := by
  obtain ⟨⟨ops, ⟨i1, i2⟩, i3, _, i4, i5⟩, rops, j1, _⟩ := copy_ops h
  have hc := C25_paths_clean s s' r hr rops
  have hk := C31_headers_consistent s s' r hr rops
  rw [j1] at hc hk
  have key := C22_exact w s0 hw ops (fun x hx => by have := (hk x (i4 x hx)).2.2.2.1; omega) i5 i1
  rw [i2, i3] at key
  rw [key]
  refine ⟨fun h => h.2, fun h => ⟨fun x hx => ⟨(hc x (i4 x hx)).2.1, (hk x (i4 x hx)).2.2.1, ?_⟩, h⟩⟩
  rcases (hk x (i4 x hx)).2.1 with h | h | h
  · exact .inl h
  · exact .inr (.inr h)
  · exact .inr (.inl h)

/-- The pieces in which contents are copied. -/
def pieces : Nat → Bytes → List Bytes
  | 0, _ => []
  | m + 1, c => c.take 32768 :: pieces m (c.drop 32768)

theorem pieces_flatten (m : Nat) : ∀ c : Bytes, c.length ≤ m * 32768 → (pieces m c).flatten = c := by
  induction m with
  | zero =>
    intro c h
    have : c = [] := List.length_eq_zero_iff.1 (by omega)
    subst this
    rfl
  | succ m ih =>
    intro c h
    simp only [pieces, List.flatten_cons]
    rw [ih _ (by rw [List.length_drop]; omega), List.take_append_drop]

theorem write_whole {w w1 : Writer} {p : Bytes} {n : Nat} (h : w.write p = (.ok (n, none), w1)) : n = p.length := by
  have key : ∀ (b : BytesWriter) (s : Sink) b' s', b.write p s = ((n, none), b', s') → n = p.length := by
    intro b s b' s' h
    unfold BytesWriter.write at h
    split at h
    · cases h
    · unfold Sink.write at h
      cases hb : s.budget with
      | none => rw [hb] at h; cases h; rfl
      | some k =>
        rw [hb] at h
        simp only at h
        split at h
        · cases h; rfl
        · cases h
  unfold Writer.write at h
  cases hc : w.st.cw with
  | none => rw [hc] at h; cases h
  | some c =>
    rw [hc] at h
    simp only at h
    split at h
    · rcases hw : c.bw.write p ⟨[], none⟩ with ⟨⟨m, e⟩, b', s'⟩
      rw [hw] at h
      simp only [Prod.mk.injEq, Call.ok.injEq] at h
      obtain ⟨⟨rfl, rfl⟩, _⟩ := h
      exact key _ _ _ _ hw
    · rcases hw : c.bw.write p w.st.sink with ⟨⟨m, e⟩, b', s'⟩
      rw [hw] at h
      simp only [Prod.mk.injEq, Call.ok.injEq] at h
      obtain ⟨⟨rfl, rfl⟩, _⟩ := h
      exact key _ _ _ _ hw

theorem body_copy (m : Nat) : ∀ (c : Bytes) (r : Reader) (w w' : Writer), c.length ≤ m * 32768 → (m = 0 ∨ (m - 1) * 32768 < c.length) →
    (r.reads (List.replicate (m + 1) 32768)).1 = readResults c (List.replicate (m + 1) 32768) →
    RunsTo w ((pieces m c).map .write) w' → CopyBody r w c (r.reads (List.replicate (m + 1) 32768)).2 w' := by
  induction m with
  | zero =>
    intro c r w w' h _ hr hw
    have : c = [] := List.length_eq_zero_iff.1 (by omega)
    subst this
    have : w' = w := hw.2.symm
    subst this
    simp only [List.replicate, Reader.reads, readResults, if_pos, List.cons.injEq, and_true] at hr
    exact .eof (Prod.ext hr rfl)
  | succ m ih =>
    intro c r w w' h h' hr hw
    have h0 : c ≠ [] := by rintro rfl; simp at h'
    have h1 : 0 < c.length := List.length_pos_iff.2 h0
    rw [List.replicate_succ] at hr ⊢
    simp only [Reader.reads, readResults, if_neg h0, List.cons.injEq] at hr ⊢
    obtain ⟨hr1, hr2⟩ := hr
    simp only [pieces, List.map_cons] at hw
    obtain ⟨g1, g2⟩ := runsTo_head hw
    obtain ⟨n, g3⟩ := good_write g1
    have g4 : w.write (c.take 32768) = (.ok (n, none), (w.write (c.take 32768)).2) := Prod.ext g3 rfl
    have := write_whole g4
    subst this
    have hb := ih (c.drop 32768) (r.read 32768).2 (w.write (c.take 32768)).2 w' (by rw [List.length_drop]; omega)
      (by rw [List.length_drop]; omega) hr2 g2
    have hd : c.take 32768 ≠ [] := by
      intro e
      have := congrArg List.length e
      rw [List.length_take] at this
      simp only [List.length_nil] at this
      omega
    have := CopyBody.chunk (Prod.ext hr1 rfl) hd g4 hb
    rwa [List.take_append_drop] at this

/-- How many pieces. -/
def howMany (c : Bytes) : Nat := (c.length + 32767) / 32768

theorem good_unit {r : Call Unit} (h : WOut.good (.unit r) = true) : r = .ok () := by
  cases r with
  | ok a => rfl
  | err e => cases h
  | panic => cases h
  | block => cases h

theorem copy_exists (es : List Entry) : ∀ (r r'' : Reader) (w w' : Writer),
    (r.session (es.map fun e => List.replicate (howMany e.contents + 1) 32768)).1 =
      List.zipWith (fun en ks => (.ok (hdrOf en), readResults en.contents ks)) es
        (es.map fun e => List.replicate (howMany e.contents + 1) 32768) →
    (r.session (es.map fun e => List.replicate (howMany e.contents + 1) 32768)).2.next = (.err .eof, r'') →
    RunsTo w (writeOps (es.map fun e => (e, pieces (howMany e.contents) e.contents)) ++ [.close]) w' →
    CopyNar r w (es.map said) w' := by
  induction es with
  | nil =>
    intro r r'' w w' _ h2 h3
    obtain ⟨g1, g2⟩ := runsTo_head (o := .close) (os := []) h3
    have g3 : w.close.1 = .ok () := good_unit g1
    have : w' = w.close.2 := g2.2.symm
    subst this
    exact .done h2 (Prod.ext g3 rfl)
  | cons e es ih =>
    intro r r'' w w' h1 h2 h3
    simp only [List.map_cons, Reader.session, List.zipWith_cons_cons, List.cons.injEq, Prod.mk.injEq] at h1 h2
    obtain ⟨⟨h1, h4⟩, h5⟩ := h1
    simp only [writeOps, List.map_cons, List.flatMap_cons, List.cons_append, List.append_assoc] at h3
    obtain ⟨g1, g2⟩ := runsTo_head h3
    obtain ⟨w2, g4, g5⟩ := runsTo_split g2
    have g3 : (w.writeHeader (hdrOf e)).1 = .ok () := good_unit g1
    refine .entry (Prod.ext h1 rfl) (Prod.ext g3 rfl)
      (body_copy (howMany e.contents) e.contents _ _ w2 ?_ ?_ h4 g4) (ih _ r'' w2 w' h5 h2 g5)
    · unfold howMany; omega
    · unfold howMany; omega

/-- C165: the NAR of a tree, of which neither the reader nor the writer refuses anything, is copied byte for byte. -/
theorem C165_copy_partial (t : Tree) (hrd : t.All NameRd NodeRd) (hwr : t.All NameWr NodeWr) (rest : Bytes) (e : Err) (w : Writer) (s0 : Sink)
    (hw : newWriter ⟨[], none⟩ = (.ok w, s0)) :
    ∃ r s' w', newReader ⟨t.nar ++ rest, e⟩ = (.ok r, s') ∧ CopyNar r w ((t.entriesAt b!"/").map said) w' ∧ w'.st.sink.out = t.nar := by
  obtain ⟨r, s', h1, h2, r'', h3, _⟩ := C23_read_back_partial t hrd rest e
    ((t.entriesAt b!"/").map fun e => List.replicate (howMany e.contents + 1) 32768) (by simp)
  obtain ⟨g1, g2⟩ := C21_writes_nar_partial t hwr ((t.entriesAt b!"/").map fun e => (e, pieces (howMany e.contents) e.contents))
    (by rw [List.map_map]; exact List.map_id'' (fun _ => rfl) _) (by
      intro x hx
      obtain ⟨e, _, rfl⟩ := List.mem_map.1 hx
      exact pieces_flatten _ _ (by unfold howMany; omega)) w s0 hw
  exact ⟨r, s', _, h1, copy_exists _ r r'' w _ h2 h3 ⟨g1, rfl⟩, g2⟩

/-- The program does the same each time. -/
theorem C165_once {r : Reader} {w w1 w2 : Writer} {l1 l2 : List (Header × Bytes)} (h1 : CopyNar r w l1 w1) (h2 : CopyNar r w l2 w2) :
    l1 = l2 ∧ w1 = w2 := by
  have body : ∀ {r r1 r2 : Reader} {w w1 w2 : Writer} {c1 c2 : Bytes}, CopyBody r w c1 r1 w1 → CopyBody r w c2 r2 w2 →
      c1 = c2 ∧ r1 = r2 ∧ w1 = w2 := by
    intro r r1 r2 w w1 w2 c1 c2 h1
    induction h1 generalizing c2 r2 w2 with
    | eof a =>
      intro h2
      cases h2 with
      | eof b => rw [a] at b; cases b; exact ⟨rfl, rfl, rfl⟩
      | nothing b _ => rw [a] at b; cases b
      | chunk b _ _ _ => rw [a] at b; cases b
    | nothing a _ ih =>
      intro h2
      cases h2 with
      | eof b => rw [a] at b; cases b
      | nothing b hb => rw [a] at b; cases b; exact ih hb
      | chunk b hd _ _ => rw [a] at b; cases b; exact absurd rfl hd
    | chunk a hd hw _ ih =>
      intro h2
      cases h2 with
      | eof b => rw [a] at b; cases b
      | nothing b hb => rw [a] at b; cases b; exact absurd rfl hd
      | chunk b hd' hw' hb =>
        rw [a] at b
        cases b
        rw [hw] at hw'
        cases hw'
        obtain ⟨rfl, rfl, rfl⟩ := ih hb
        exact ⟨rfl, rfl, rfl⟩
  induction h1 generalizing l2 w2 with
  | done a b =>
    cases h2 with
    | done a' b' => rw [b] at b'; cases b'; exact ⟨rfl, rfl⟩
    | entry a' _ _ _ => rw [a] at a'; cases a'
  | entry a b hb _ ih =>
    cases h2 with
    | done a' _ => rw [a] at a'; cases a'
    | entry a' b' hb' hn' =>
      rw [a] at a'
      cases a'
      rw [b] at b'
      cases b'
      obtain ⟨rfl, rfl, rfl⟩ := body hb hb'
      obtain ⟨rfl, rfl⟩ := ih hn'
      exact ⟨rfl, rfl⟩

theorem copy_empty {r : Reader} {w w' : Writer} {h : Header} {l : List (Header × Bytes)} (h1 : r.next.1 = .ok h)
    (h2 : (w.writeHeader h).1 = .ok ()) (h3 : (r.next.2.read 32768).1 = .err .eof) :
    CopyNar r w ((h, []) :: l) w' ↔ CopyNar (r.next.2.read 32768).2 (w.writeHeader h).2 l w' := by
  constructor
  · intro hc
    cases hc with
    | @entry _ _ _ r1 w1 _ r2 w2 _ _ a b hb hn =>
      have e2 : r1 = r.next.2 := (congrArg Prod.snd a).symm
      have e3 : w1 = (w.writeHeader h).2 := (congrArg Prod.snd b).symm
      subst e2 e3
      generalize hy : ([] : Bytes) = y at hb
      cases hb with
      | eof x =>
        have : r2 = (r.next.2.read 32768).2 := (congrArg Prod.snd x).symm
        subst this
        exact hn
      | nothing x _ => rw [x] at h3; cases h3
      | chunk x _ _ _ => rw [x] at h3; cases h3
  · intro hc
    exact .entry (Prod.ext h1 rfl) (Prod.ext h2 rfl) (.eof (Prod.ext h3 rfl)) hc

theorem copy_empty_inv {r : Reader} {w w' : Writer} {h : Header} {l : List (Header × Bytes)} (h1 : r.next.1 = .ok h)
    (h3 : (r.next.2.read 32768).1 = .err .eof) (hc : CopyNar r w l w') : (w.writeHeader h).1 = .ok () ∧ ∃ l', l = (h, []) :: l' := by
  cases hc with
  | done a _ => rw [a] at h1; cases h1
  | @entry _ _ h' r1 w1 _ r2 w2 _ _ a b hb hn =>
    have e2 : r1 = r.next.2 := (congrArg Prod.snd a).symm
    have e1 : h' = h := by rw [a] at h1; cases h1; rfl
    subst e1 e2
    cases hb with
    | eof x => exact ⟨congrArg Prod.fst b, _, rfl⟩
    | nothing x _ => rw [x] at h3; cases h3
    | chunk x _ _ _ => rw [x] at h3; cases h3

theorem copy_done {r : Reader} {w : Writer} (h1 : r.next.1 = .err .eof) (h2 : w.close.1 = .ok ()) : CopyNar r w [] w.close.2 :=
  .done (Prod.ext h1 rfl) (Prod.ext h2 rfl)

/-- A name like `..foo`. -/
def dotsTree : Tree := .directory (.cons b!"..foo" (.symlink b!"x") .nil)

/-- C165 as stated is false: an archive with an entry called `..foo` is read, but the copy fails. -/
theorem C165_refuted_dots : ∃ r s', newReader ⟨dotsTree.nar, .eof⟩ = (.ok r, s') ∧ dotsTree.All NameRd NodeRd ∧
    ∀ l w', ¬ CopyNar r freshWriter l w' := by
  refine ⟨_, _, newReader_nar' _ _, ?_, ?_⟩
  · simp only [dotsTree, Tree.All, Entries.All, NodeRd, Entries.names, NameRd]
    decide
  intro l w' h
  have a1 : (Reader.next ⟨⟨⟨dotsTree.node, .eof⟩, 0, 0⟩, .start, none, [], false⟩).1 = .ok ⟨b!"/", b!"directory", [], 0, false⟩ := by
    decide +kernel
  have a2 : ((Reader.next ⟨⟨⟨dotsTree.node, .eof⟩, 0, 0⟩, .start, none, [], false⟩).2.read 32768).1 = .err .eof := by decide +kernel
  have a3 : ((Reader.next ⟨⟨⟨dotsTree.node, .eof⟩, 0, 0⟩, .start, none, [], false⟩).2.read 32768).2.next.1 =
      .ok ⟨b!"/..foo", b!"symlink", b!"x", 0, false⟩ := by decide +kernel
  have a4 : ((((Reader.next ⟨⟨⟨dotsTree.node, .eof⟩, 0, 0⟩, .start, none, [], false⟩).2.read 32768).2.next.2).read 32768).1 = .err .eof := by
    decide +kernel
  have a5 : ((freshWriter.writeHeader ⟨b!"/", b!"directory", [], 0, false⟩).2.writeHeader ⟨b!"/..foo", b!"symlink", b!"x", 0, false⟩).1 ≠
      .ok () := by decide +kernel
  obtain ⟨b1, l', rfl⟩ := copy_empty_inv a1 a2 h
  rw [copy_empty a1 b1 a2] at h
  exact a5 (copy_empty_inv a3 a4 h).1

/-- Not sorted, two entries with the same name. -/
def twiceTree : Tree := .directory (.cons b!"a" (.directory .nil) (.cons b!"a" (.directory .nil) .nil))

/-- C165 as stated is false: an archive with a directory twice is copied without an error to one with a directory called `.`. -/
theorem C165_refuted_twice : ∃ r s' w', newReader ⟨twiceTree.nar, .eof⟩ = (.ok r, s') ∧
    CopyNar r freshWriter [(⟨b!"/", b!"directory", [], 0, false⟩, []), (⟨b!"/a", b!"directory", [], 0, false⟩, []),
      (⟨b!"/a", b!"directory", [], 0, false⟩, [])] w' ∧
    w'.st.sink.out = (Tree.directory (.cons b!"a" (.directory (.cons b!"." (.directory .nil) .nil)) .nil)).nar := by
  refine ⟨_, _, (((freshWriter.writeHeader ⟨b!"/", b!"directory", [], 0, false⟩).2.writeHeader ⟨b!"/a", b!"directory", [], 0, false⟩).2.writeHeader
    ⟨b!"/a", b!"directory", [], 0, false⟩).2.close.2, newReader_nar' _ _, ?_, ?_⟩
  · rw [copy_empty (by decide +kernel) (by decide +kernel) (by decide +kernel),
      copy_empty (by decide +kernel) (by decide +kernel) (by decide +kernel),
      copy_empty (by decide +kernel) (by decide +kernel) (by decide +kernel)]
    exact copy_done (by decide +kernel) (by decide +kernel)
  · decide +kernel

example := C165_copy_partial sampleTree (by simp only [sampleTree, Tree.All, Entries.All, NodeRd, Entries.names, NameRd]; decide)
  (by simp only [sampleTree, Tree.All, Entries.All, NodeWr, Entries.names, NameWr]; decide) b!"more" .eof freshWriter _ newWriter_fresh

end Verif.Props
