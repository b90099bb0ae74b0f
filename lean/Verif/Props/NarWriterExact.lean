import Verif.Spec.NarWriterCalls
import Verif.Props.NarWriterIff
import Verif.Props.NarDump

/-!
# Exactly when: C21, C35

C21 and C35 are false as stated. Here is for exactly which trees.
-/

namespace Verif.Props
open Verif.Nar Verif.GoLib Verif.Spec Verif.Wire

/-- what the writer needs to know about an entry -/
def EntryWr (e : Entry) : Prop :=
  (∀ c ∈ cleanComps e.path, ¬ DotDot c) ∧ (e.kind = b!"symlink" → e.target ≠ []) ∧ e.contents.length < 2 ^ 63 ∧
    (e.kind = b!"regular" ∨ e.kind = b!"symlink" ∨ e.kind = b!"directory")

theorem symlink_ne : b!"regular" ≠ b!"symlink" ∧ b!"directory" ≠ b!"symlink" := by decide

mutual
theorem tree_entryWr (t : Tree) (ht : t.All NameWr NodeWr) (cs : List Bytes) (hcs : ∀ c ∈ cs, Good c) (hd : ∀ c ∈ cs, ¬ DotDot c) :
    ∀ e ∈ t.entriesAt (absPath cs), EntryWr e := by
  have hcc : ∀ c ∈ cleanComps (absPath cs), ¬ DotDot c := by rw [cleanComps_absPath hcs]; exact hd
  match t with
  | .regular x c =>
    intro e he
    simp only [Tree.entriesAt, List.mem_singleton] at he
    subst he
    exact ⟨hcc, fun h => absurd h symlink_ne.1, ht, .inl rfl⟩
  | .symlink l =>
    intro e he
    simp only [Tree.entriesAt, List.mem_singleton] at he
    subst he
    exact ⟨hcc, fun _ => ht, by simp, .inr (.inl rfl)⟩
  | .directory es =>
    intro e he
    simp only [Tree.All] at ht
    simp only [Tree.entriesAt, List.mem_cons] at he
    rcases he with rfl | he
    · exact ⟨hcc, fun h => absurd h symlink_ne.2, by simp, .inr (.inr rfl)⟩
    · exact entries_entryWr es ht.2.2 cs hcs hd e he
theorem entries_entryWr (es : Entries) (ht : es.All NameWr NodeWr) (cs : List Bytes) (hcs : ∀ c ∈ cs, Good c) (hd : ∀ c ∈ cs, ¬ DotDot c) :
    ∀ e ∈ es.entriesAt (absPath cs), EntryWr e := by
  match es with
  | .nil => intro e he; simp [Entries.entriesAt] at he
  | .cons n t es =>
    simp only [Entries.All] at ht
    have hg := good_snoc hcs (ht.1.good)
    intro e he
    simp only [Entries.entriesAt, ← absPath_snoc cs n hcs, List.mem_append] at he
    rcases he with he | he
    · refine tree_entryWr t ht.2.1 _ hg ?_ e he
      intro c hc
      rcases List.mem_append.1 hc with h | h
      · exact hd c h
      · rw [List.mem_singleton.1 h]; exact ht.1.2
    · exact entries_entryWr es ht.2.2 cs hcs hd e he
end

mutual
theorem tree_of_entryWr (t : Tree) (ht : t.All NameOk NodeSize) (cs : List Bytes) (hcs : ∀ c ∈ cs, Good c)
    (h : ∀ e ∈ t.entriesAt (absPath cs), EntryWr e) : t.All NameWr NodeWr := by
  match t with
  | .regular x c => exact ht
  | .symlink l => exact (h ⟨absPath cs, b!"symlink", false, l, []⟩ (by simp [Tree.entriesAt])).2.1 rfl
  | .directory es =>
    simp only [Tree.All] at ht ⊢
    simp only [Tree.entriesAt] at h
    exact ⟨trivial, ht.2.1, entries_of_entryWr es ht.2.2 cs hcs (fun e he => h e (List.mem_cons_of_mem _ he))⟩
theorem entries_of_entryWr (es : Entries) (ht : es.All NameOk NodeSize) (cs : List Bytes) (hcs : ∀ c ∈ cs, Good c)
    (h : ∀ e ∈ es.entriesAt (absPath cs), EntryWr e) : es.All NameWr NodeWr := by
  match es with
  | .nil => trivial
  | .cons n t es =>
    simp only [Entries.All] at ht ⊢
    have hg := good_snoc hcs (nameOk_good ht.1)
    simp only [Entries.entriesAt, ← absPath_snoc cs n hcs] at h
    obtain ⟨e, he, hp⟩ : ∃ e ∈ t.entriesAt (absPath (cs ++ [n])), e.path = absPath (cs ++ [n]) := by
      cases t <;> simp [Tree.entriesAt]
    have hn := (h e (List.mem_append_left _ he)).1 n (by rw [hp, cleanComps_absPath hg]; simp)
    exact ⟨⟨ht.1, hn⟩, tree_of_entryWr t ht.2.1 _ hg (fun e he => h e (List.mem_append_left _ he)),
      entries_of_entryWr es ht.2.2 cs hcs (fun e he => h e (List.mem_append_right _ he))⟩
end

mutual
theorem tree_sizes (t : Tree) (ht : t.All NameOk NodeSize) (p : Bytes) :
    ∀ e ∈ t.entriesAt p, e.contents.length < 2 ^ 63 ∧ (e.kind = b!"regular" ∨ e.kind = b!"symlink" ∨ e.kind = b!"directory") := by
  match t with
  | .regular x c =>
    intro e he
    simp only [Tree.entriesAt, List.mem_singleton] at he
    subst he
    exact ⟨ht, .inl rfl⟩
  | .symlink l =>
    intro e he
    simp only [Tree.entriesAt, List.mem_singleton] at he
    subst he
    exact ⟨by simp, .inr (.inl rfl)⟩
  | .directory es =>
    intro e he
    simp only [Tree.All] at ht
    simp only [Tree.entriesAt, List.mem_cons] at he
    rcases he with rfl | he
    · exact ⟨by simp, .inr (.inr rfl)⟩
    · exact entries_sizes es ht.2.2 p e he
theorem entries_sizes (es : Entries) (ht : es.All NameOk NodeSize) (p : Bytes) :
    ∀ e ∈ es.entriesAt p, e.contents.length < 2 ^ 63 ∧ (e.kind = b!"regular" ∨ e.kind = b!"symlink" ∨ e.kind = b!"directory") := by
  match es with
  | .nil => intro e he; simp [Entries.entriesAt] at he
  | .cons n t es =>
    simp only [Entries.All] at ht
    intro e he
    simp only [Entries.entriesAt, List.mem_append] at he
    rcases he with he | he
    · exact tree_sizes t ht.2.1 _ e he
    · exact entries_sizes es ht.2.2 _ e he
end

theorem noRepeat_of_pairwise {l : List Bytes} (h : l.Pairwise (· ≠ ·)) : NoRepeat l := by
  induction l with
  | nil => trivial
  | cons a l ih =>
    cases l with
    | nil => trivial
    | cons b l => exact ⟨(List.pairwise_cons.1 h).1 b List.mem_cons_self, ih (List.pairwise_cons.1 h).2⟩

theorem flatten_piece {ps : List Bytes} {p : Bytes} (h : p ∈ ps) : p.length ≤ ps.flatten.length := by
  induction ps with
  | nil => simp at h
  | cons q ps ih =>
    rw [List.flatten_cons, List.length_append]
    rcases List.mem_cons.1 h with rfl | h
    · omega
    · have := ih h; omega

theorem written_writeOps (es : List (Entry × List Bytes)) :
    written (writeOps es) = es.map fun e => (hdrOf e.1, e.2.flatten) := by
  have e : writeOps es = groupOps (es.map fun e => (hdrOf e.1, e.2)) := by
    simp [writeOps, groupOps, List.flatMap_map]
  rw [e, written_group, List.map_map]
  rfl

/-- C21, exactly: for every tree with file names in order and files of a size that fits into an `int64`, however
the contents are split, all calls succeed if and only if no name begins with two dots (and has more after them) and no
symlink target is empty. -/
theorem C21_exact (t : Tree) (ht : t.All NameOk NodeSize)
    (es : List (Entry × List Bytes)) (hes : es.map (·.1) = t.entriesAt b!"/")
    (hck : ∀ e ∈ es, e.2.flatten = e.1.contents)
    (w : Writer) (s : Sink) (hnew : newWriter ⟨[], none⟩ = (.ok w, s)) :
    (∀ o ∈ (w.run (writeOps es ++ [.close])).1, o.good = true) ↔ t.All NameWr NodeWr := by
  refine ⟨fun hg => ?_, fun h => (C21_writes_nar_partial t h es hes hck w s hnew).1⟩
  have hmem : ∀ x ∈ es, x.1 ∈ t.entriesAt b!"/" := fun x hx => hes ▸ List.mem_map_of_mem hx
  obtain ⟨hp1, hp2⟩ := tree_paths (P := NameOk) (fun n hn => nameOk_good hn) t ht [] (by simp)
  have hsz := tree_sizes t ht b!"/"
  have hwr : written (writeOps es) = (t.entriesAt b!"/").map said := by
    rw [written_writeOps, ← hes, List.map_map]
    apply List.map_congr_left
    intro x hx
    simp [said, hck x hx]
  have hops : ∀ o ∈ writeOps es, (∃ x ∈ es, o = .header (hdrOf x.1)) ∨ ∃ x ∈ es, ∃ p ∈ x.2, o = .write p := by
    intro o ho
    simp only [writeOps, List.mem_flatMap, List.mem_cons, List.mem_map] at ho
    obtain ⟨x, hx, h | ⟨p, hp, h⟩⟩ := ho
    · exact .inl ⟨x, hx, h⟩
    · exact .inr ⟨x, hx, p, hp, h.symm⟩
  have hiff := C101_accepts_iff w s hnew (writeOps es) ?_ ?_ ?_
  · obtain ⟨_, _, t', h1, h2⟩ := hiff.1 hg
    rw [hwr] at h2
    refine tree_of_entryWr t ht [] (by simp) ?_
    intro e he
    have he' : e ∈ t.entriesAt b!"/" := he
    have hm := List.mem_map_of_mem (f := said) he'
    rw [← h2] at hm
    obtain ⟨e', he2, hs⟩ := List.mem_map.1 hm
    have hw := tree_entryWr t' h1 [] (by simp) (by simp) e' he2
    have hee : e' = e := by
      simp only [said, hdrOf, Prod.mk.injEq, Header.mk.injEq] at hs
      obtain ⟨⟨a, b, c, _, d⟩, f⟩ := hs
      cases e'; cases e
      simp only at a b c d f
      subst a b c d f
      rfl
    rw [← hee]
    exact hw
  · intro h hh
    rcases hops _ hh with ⟨x, hx, e⟩ | ⟨x, hx, p, hp, e⟩
    · cases e
      obtain ⟨ds, e1, e2⟩ := hp1 _ (hmem x hx)
      have hz := hsz _ (hmem x hx)
      refine ⟨hz.2, ?_, ?_⟩
      · show clean x.1.path = x.1.path
        rw [e1]; exact clean_absPath e2
      · show (0 : Int) ≤ (x.1.contents.length : Int) ∧ (x.1.contents.length : Int) < 2 ^ 63
        have := hz.1
        omega
    · cases e
  · intro p hp
    rcases hops _ hp with ⟨x, hx, e⟩ | ⟨x, hx, q, hq, e⟩
    · cases e
    · cases e
      have h1 := flatten_piece hq
      rw [hck x hx] at h1
      exact Nat.lt_of_le_of_lt h1 (hsz _ (hmem x hx)).1
  · rw [hwr, List.map_map]
    apply noRepeat_of_pairwise
    rw [List.pairwise_map]
    have hp2' : (t.entriesAt b!"/").Pairwise (fun a b => cleanComps a.path < cleanComps b.path) := hp2
    refine hp2'.imp ?_
    intro a b hab he
    have he' : a.path = b.path := he
    rw [he'] at hab
    exact List.lt_irrefl _ hab

example : sampleTree.All NameOk NodeSize ∧ (Tree.directory (.cons b!"..foo" (.symlink b!"x") .nil)).All NameOk NodeSize := by
  simp only [sampleTree, Tree.All, Entries.All, NodeSize, Entries.names]
  decide

/-! ## C35 -/

mutual
theorem all_mono {P P' : Bytes → Prop} {Q Q' : Tree → Prop} (hp : ∀ n, P n → P' n) (hq : ∀ t, Q t → Q' t) (t : Tree)
    (h : t.All P Q) : t.All P' Q' := by
  match t with
  | .regular x c => exact hq _ h
  | .symlink l => exact hq _ h
  | .directory es =>
    simp only [Tree.All] at h ⊢
    exact ⟨hq _ h.1, h.2.1, all_mono' hp hq es h.2.2⟩
theorem all_mono' {P P' : Bytes → Prop} {Q Q' : Tree → Prop} (hp : ∀ n, P n → P' n) (hq : ∀ t, Q t → Q' t) (es : Entries)
    (h : es.All P Q) : es.All P' Q' := by
  match es with
  | .nil => trivial
  | .cons n t es =>
    simp only [Entries.All] at h ⊢
    exact ⟨hp _ h.1, all_mono hp hq t h.2.1, all_mono' hp hq es h.2.2⟩
end

theorem nodeWr_size (t : Tree) (h : NodeWr t) : NodeSize t := by
  cases t with
  | regular x c => exact h
  | symlink l => trivial
  | directory es => trivial

/-- C35, exactly: for every file system tree and every filter, `DumpPathFilter` returns nil if and only if every node that
is reached can be dumped, the root is not rejected, and what is left after the filter has no names like `..foo`; and then it
has written the NAR serialisation of what is left. -/
theorem C35_exact (filter : Option Filter) (path : Bytes) (root : FNode) (hok : root.Ok NameOk) :
    ((dumpPathFilter filter path root ⟨[], none⟩).1 = .ok () ↔
      root.Dumpable (keeps filter) path b!"/" ∧
        ∃ t, root.prune (keeps filter) path b!"/" = some t ∧ t.All NameWr NodeWr) ∧
    ((dumpPathFilter filter path root ⟨[], none⟩).1 = .ok () →
      ∃ t, root.prune (keeps filter) path b!"/" = some t ∧
        (dumpPathFilter filter path root ⟨[], none⟩).2.out = t.nar) := by
  have key : (dumpPathFilter filter path root ⟨[], none⟩).1 = .ok () →
      root.Dumpable (keeps filter) path b!"/" ∧
        ∃ t, root.prune (keeps filter) path b!"/" = some t ∧ t.All NameWr NodeWr := by
    intro h
    obtain ⟨hd, t, ht, hg⟩ := dump_calls hok h
    refine ⟨hd, t, ht, ?_⟩
    obtain ⟨pl1, pl2⟩ := plan_entries (keeps filter) path root b!"/"
    rw [ht] at pl1
    exact (C21_exact t (all_mono (fun _ h => h) nodeWr_size t (prune_all _ _ root _ hok t ht)) _ pl1 pl2 _ _ newWriter_fresh).1 hg
  refine ⟨⟨key, fun ⟨hd, t, ht, hw⟩ => (dump_good hok hd ht hw).1⟩, fun h => ?_⟩
  obtain ⟨hd, t, ht, hw⟩ := key h
  exact ⟨t, ht, (dump_good hok hd ht hw).2⟩

example : sampleDisk.Ok NameOk ∧ (FNode.directory (.cons b!"..foo" (.regular false 1 [b!"x"] none) .nil)).Ok NameOk := by
  simp only [sampleDisk, FNode.Ok, FEntries.Ok, FEntries.names]
  decide

end Verif.Props
