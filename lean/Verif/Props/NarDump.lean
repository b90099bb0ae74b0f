import Verif.Spec.NarDisk
import Verif.Lemmas.NarDump
import Verif.Props.NarWriter

/-!
# C35: `DumpPath` and `DumpPathFilter`

`dumpPathFilter filter path root s` is `DumpPathFilter(w, path, filter)` where the file system has
`root` at `path`; `filter = none` is `DumpPath`. `⟨[], none⟩` is a sink that never fails.
-/

namespace Verif.Props
open Verif.Nar Verif.GoLib Verif.Spec Verif.Wire

/-- C35 as stated is false: a file called `..foo` makes `DumpPath` fail. -/
theorem C35_refuted_name : ∃ root : FNode, root.Ok NameOk ∧ root.Dumpable (keeps none) b!"/d" b!"/" ∧
    (dumpPathFilter none b!"/d" root ⟨[], none⟩).1 = .err (.msg "additional header detected") := by
  refine ⟨.directory (.cons b!"..foo" (.regular false 1 [b!"x"] none) .nil), ?_, ?_, ?_⟩
  · simp only [FNode.Ok, FEntries.Ok, FEntries.names]; decide
  · simp [FNode.Dumpable, FEntries.Dumpable]
  · decide +kernel

/-- C35 as stated is false: a filter that rejects the root makes `DumpPathFilter` fail. -/
theorem C35_refuted_root : ∃ root : FNode, root.Ok NameOk ∧
    root.Dumpable (keeps (some fun _ _ => false)) b!"/d" b!"/" ∧
    dumpPathFilter (some fun _ _ => false) b!"/d" root ⟨[], none⟩ =
      (.err (.msg "unexpected Close()"), ⟨str b!"nix-archive-1", none⟩) := by
  refine ⟨.symlink b!"x", ?_, ?_, ?_⟩
  · simp [FNode.Ok]
  · simp [FNode.Dumpable]
  · decide +kernel

theorem dump_eq (filter : Option Filter) (path : Bytes) (root : FNode) : dumpPathFilter filter path root ⟨[], none⟩ =
    ((andThen (dumpNode filter path root b!"/" freshWriter) fun _ w => w.close).1,
     (andThen (dumpNode filter path root b!"/" freshWriter) fun _ w => w.close).2.close.2.st.sink) := by
  unfold dumpPathFilter
  rw [newWriter_fresh]

/-- a tree that the writer handles is dumped -/
theorem dump_good {filter : Option Filter} {path : Bytes} {root : FNode} (hok : root.Ok NameOk)
    (hd : root.Dumpable (keeps filter) path b!"/") {t : Tree} (ht : root.prune (keeps filter) path b!"/" = some t)
    (hw : t.All NameWr NodeWr) :
    (dumpPathFilter filter path root ⟨[], none⟩).1 = .ok () ∧
    (dumpPathFilter filter path root ⟨[], none⟩).2.out = t.nar := by
  obtain ⟨pl1, pl2⟩ := plan_entries (keeps filter) path root b!"/"
  rw [ht] at pl1
  obtain ⟨c1, c2⟩ := C21_writes_nar_partial t hw _ pl1 pl2 _ _ newWriter_fresh
  obtain ⟨w1, r1, r2⟩ := runsTo_split (w := freshWriter) (a := writeOps (root.plan (keeps filter) path b!"/"))
    (b := [.close]) ⟨c1, rfl⟩
  have hdump := dump_run filter path root [] (by simp) hok hd freshWriter w1 r1
  rw [dump_eq]
  have hdump' : dumpNode filter path root b!"/" freshWriter = (.ok (), w1) := hdump
  rw [hdump']
  simp only [andThen]
  obtain ⟨g1, g2⟩ := runsTo_head r2
  have hc : w1.close.1 = .ok () := good_unit g1
  refine ⟨hc, ?_⟩
  have hcl : w1.close.2 = (freshWriter.run (writeOps (root.plan (keeps filter) path b!"/") ++ [.close])).2 := g2.2
  have hclosed : w1.close.2.closed = true := by
    unfold Writer.close at hc ⊢
    split
    · rename_i h; rw [if_pos h] at hc; simp at hc
    · split <;> rfl
  have : w1.close.2.close.2 = w1.close.2 := by
    generalize w1.close.2 = v at hclosed
    unfold Writer.close
    rw [if_pos hclosed]
  rw [this, hcl, c2]

/-- a dump that returns nil made a series of successful calls for a tree -/
theorem dump_calls {filter : Option Filter} {path : Bytes} {root : FNode} (hok : root.Ok NameOk)
    (h : (dumpPathFilter filter path root ⟨[], none⟩).1 = .ok ()) :
    root.Dumpable (keeps filter) path b!"/" ∧ ∃ t, root.prune (keeps filter) path b!"/" = some t ∧
      ∀ o ∈ (freshWriter.run (writeOps (root.plan (keeps filter) path b!"/") ++ [.close])).1, o.good = true := by
  rw [dump_eq] at h
  rcases hx : dumpNode filter path root b!"/" freshWriter with ⟨r, w1⟩
  rw [hx] at h
  rcases r with _ | e | _ | _ <;> simp only [andThen, reduceCtorEq] at h
  have hd := dumpable_of_ok filter path root [] (by simp) hok freshWriter w1 hx
  have hr := dump_ran filter path root [] (by simp) hok freshWriter w1 hx
  have hr' : RunsTo freshWriter (writeOps (root.plan (keeps filter) path b!"/")) w1 := hr
  refine ⟨hd, ?_⟩
  obtain ⟨pl1, pl2⟩ := plan_entries (keeps filter) path root b!"/"
  cases ht : root.prune (keeps filter) path b!"/" with
  | some t =>
    refine ⟨t, rfl, ?_⟩
    exact (hr'.append (runsTo_cons (w1 := w1.close.2) (o := .close) rfl
      (by show WOut.good (.unit w1.close.1) = true; rw [h]; rfl) (runsTo_nil _))).1
  | none =>
    rw [ht] at pl1
    have hpl : root.plan (keeps filter) path b!"/" = [] := by simpa using pl1
    rw [hpl] at hr'
    have : freshWriter = w1 := hr'.2
    subst this
    exfalso
    revert h
    decide +kernel

/-- C35: with file names other than `..foo`, `DumpPathFilter` returns nil exactly if the root is kept by
the filter and every node that is reached can be dumped; and then it has written the NAR
serialisation of the tree without the nodes rejected by the filter. Missing for the full
statement: names like `..foo` (`C35_refuted_name`), a rejected root (`C35_refuted_root`). -/
theorem C35_dump_filter_partial (filter : Option Filter) (path : Bytes) (root : FNode) (hok : root.Ok NameWr) :
    ((dumpPathFilter filter path root ⟨[], none⟩).1 = .ok () ↔
      root.Dumpable (keeps filter) path b!"/" ∧ root.prune (keeps filter) path b!"/" ≠ none) ∧
    ((dumpPathFilter filter path root ⟨[], none⟩).1 = .ok () →
      ∃ t, root.prune (keeps filter) path b!"/" = some t ∧
        (dumpPathFilter filter path root ⟨[], none⟩).2.out = t.nar) := by
  have hok' := FNode.Ok.mono (Q := NameOk) (fun _ h => h.1) root hok
  refine ⟨⟨fun h => ?_, fun ⟨hd, hp⟩ => ?_⟩, fun h => ?_⟩
  · obtain ⟨hd, t, ht, _⟩ := dump_calls hok' h
    exact ⟨hd, by rw [ht]; simp⟩
  · obtain ⟨t, ht⟩ := Option.ne_none_iff_exists'.1 hp
    exact (dump_good hok' hd ht (prune_all _ _ root _ hok t ht)).1
  · obtain ⟨hd, t, ht, _⟩ := dump_calls hok' h
    exact ⟨t, ht, (dump_good hok' hd ht (prune_all _ _ root _ hok t ht)).2⟩

theorem onDisk_names : ∀ es : Entries, (onDisk' es).names = es.names
  | .nil => rfl
  | .cons n t es => by simp [onDisk', FEntries.names, Entries.names, onDisk_names es]

mutual
theorem onDisk_facts (t : Tree) (h : t.All NameWr NodeWr) (path sub : Bytes) :
    (onDisk t).Ok NameWr ∧ (onDisk t).Dumpable (keeps none) path sub ∧
      (onDisk t).prune (keeps none) path sub = some t := by
  match t with
  | .regular x c =>
    simp only [Tree.All, NodeWr] at h
    simp only [onDisk, FNode.Ok, FNode.Dumpable, FNode.prune, keeps, if_true, List.flatten_cons, List.flatten_nil,
      List.append_nil]
    exact ⟨h, by simp, trivial⟩
  | .symlink l =>
    simp only [Tree.All, NodeWr] at h
    simp [onDisk, FNode.Ok, FNode.Dumpable, FNode.prune, keeps, h]
  | .directory es =>
    simp only [Tree.All] at h
    obtain ⟨h1, h2, h3⟩ := onDisk_facts' es h.2.2 path sub
    simp only [onDisk, FNode.Ok, FNode.Dumpable, FNode.prune, keeps, if_true, onDisk_names]
    exact ⟨⟨h.2.1, h1⟩, fun _ => h2, by rw [show (onDisk' es).prune (keeps none) path sub = es from h3]⟩
theorem onDisk_facts' (es : Entries) (h : es.All NameWr NodeWr) (path sub : Bytes) :
    (onDisk' es).Ok NameWr ∧ (onDisk' es).Dumpable (keeps none) path sub ∧
      (onDisk' es).prune (keeps none) path sub = es := by
  match es with
  | .nil => simp [onDisk', FEntries.Ok, FEntries.Dumpable, FEntries.prune]
  | .cons n t es =>
    simp only [Entries.All] at h
    obtain ⟨h1, h2, h3⟩ := onDisk_facts t h.2.1 path (childPath sub n)
    obtain ⟨g1, g2, g3⟩ := onDisk_facts' es h.2.2 path sub
    simp only [onDisk', FEntries.Ok, FEntries.Dumpable, FEntries.prune, h3, g3]
    exact ⟨⟨h.1, h1, g1⟩, ⟨h2, g2⟩, trivial⟩
end

/-- C35 without a filter: dumping a tree from disk writes its NAR serialisation. Missing: names
like `..foo` (`C35_refuted_name`). -/
theorem C35_dump_partial (t : Tree) (ht : t.All NameWr NodeWr) (path : Bytes) :
    (dumpPathFilter none path (onDisk t) ⟨[], none⟩).1 = .ok () ∧
    (dumpPathFilter none path (onDisk t) ⟨[], none⟩).2.out = t.nar := by
  obtain ⟨h1, h2, h3⟩ := onDisk_facts t ht path b!"/"
  obtain ⟨c1, c2⟩ := C35_dump_filter_partial none path (onDisk t) h1
  have hok := c1.2 ⟨h2, by rw [h3]; simp⟩
  obtain ⟨t', e, h⟩ := c2 hok
  rw [h3] at e
  cases e
  exact ⟨hok, h⟩

/-- a filtered dump meeting the hypotheses: `/d/b` and `/d/e` are rejected, `/d/a` is read in three pieces -/
def sampleDisk : FNode :=
  .directory (.cons b!"a" (.regular true 3 [b!"x", [], b!"yz"] none)
    (.cons b!"b" (.directory (.cons b!"c" (.bad .io) .nil)) (.cons b!"d" (.symlink b!"a") (.cons b!"e" (.brokenDirectory .io) .nil))))

example : sampleDisk.Ok NameWr ∧
    sampleDisk.Dumpable (keeps (some fun p _ => p != b!"/d/b" && p != b!"/d/e")) b!"/d" b!"/" ∧
    sampleDisk.prune (keeps (some fun p _ => p != b!"/d/b" && p != b!"/d/e")) b!"/d" b!"/" =
      some (.directory (.cons b!"a" (.regular true b!"xyz") (.cons b!"d" (.symlink b!"a") .nil))) := by
  refine ⟨?_, ?_, ?_⟩
  · simp only [sampleDisk, FNode.Ok, FEntries.Ok, FEntries.names, NameWr]; decide
  · simp only [sampleDisk, FNode.Dumpable, FEntries.Dumpable]; decide +kernel
  · simp only [sampleDisk, FNode.prune, FEntries.prune]
    rfl

end Verif.Props
