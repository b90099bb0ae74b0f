import Verif.Props.MapNar
import Verif.Props.NarWriterExact

/-!
# Filtering while dumping, and filtering while copying (C170)
-/

namespace Verif.Props
open Verif Verif.Nar Verif.GoLib Verif.Spec Verif.Wire

/-- The function on headers that leaves out what the filter of a dump of `path` rejects. -/
def keepOnly (f : Filter) (path : Bytes) (h : Header) : Option Header := if f (pathJoin path h.path) h.typ then some h else none

/-- The filter lets nothing through that is in a directory which it rejects. -/
def Hereditary (f : Filter) (path : Bytes) : Prop :=
  ∀ (cs : List Bytes) (n typ : Bytes), (∀ c ∈ cs ++ [n], NameOk c) → f (pathJoin path (b!"/" ++ join (cs ++ [n]) b!"/")) typ = true →
    f (pathJoin path (b!"/" ++ join cs b!"/")) b!"directory" = true

mutual
theorem onDisk_dumpable (t : Tree) (keep : Bytes → Bytes → Bool) (path sub : Bytes) : (onDisk t).Dumpable keep path sub := by
  cases t with
  | regular x c => intro _; exact ⟨rfl, by simp⟩
  | symlink tg => trivial
  | directory es => intro _; exact onDisk_dumpables es keep path sub
theorem onDisk_dumpables (es : Entries) (keep : Bytes → Bytes → Bool) (path sub : Bytes) : (onDisk' es).Dumpable keep path sub := by
  cases es with
  | nil => trivial
  | cons n t es => exact ⟨onDisk_dumpable t keep path _, onDisk_dumpables es keep path sub⟩
end

theorem names_good {cs : List Bytes} (h : ∀ c ∈ cs, NameOk c) : ∀ c ∈ cs, Good c := fun c hc => nameOk_good (h c hc)

theorem names_snoc {cs : List Bytes} {n : Bytes} (h : ∀ c ∈ cs, NameOk c) (hn : NameOk n) : ∀ c ∈ cs ++ [n], NameOk c := by
  intro c hc
  rcases List.mem_append.1 hc with h' | h'
  · exact h c h'
  · rw [List.mem_singleton.1 h']; exact hn

theorem prune_rejected {f : Filter} {path : Bytes} {p : Bytes} (h : ∀ typ, f (pathJoin path p) typ ≠ true) (t : Tree) :
    (onDisk t).prune f path p = none := by
  cases t <;> simp only [onDisk, FNode.prune, if_neg (h _)]

theorem prunes_rejected {f : Filter} {path : Bytes} (hf : Hereditary f path) {P : Bytes → Prop} {N : Tree → Prop} (hP : ∀ n, P n → NameOk n)
    (cs : List Bytes) (hcs : ∀ c ∈ cs, NameOk c) (h : f (pathJoin path (absPath cs)) b!"directory" ≠ true) (es : Entries) (hes : es.All P N) :
    (onDisk' es).prune f path (absPath cs) = .nil := by
  revert hes
  refine Entries.rec (motive_1 := fun _ => True) (motive_2 := fun es => es.All P N → (onDisk' es).prune f path (absPath cs) = .nil)
    (by intros; trivial) (by intros; trivial) (by intros; trivial) ?_ ?_ es
  · intro _; rfl
  · intro n t es _ ih hall
    have hg := names_snoc hcs (hP n hall.1)
    have hr := prune_rejected (f := f) (path := path) (p := childPath (absPath cs) n) (fun typ hk => h (hf cs n typ hg (by
      rw [← absPath_snoc cs n (names_good hcs)] at hk
      exact hk))) t
    simp only [onDisk', FEntries.prune, hr]
    exact ih hall.2.2

mutual
theorem filter_taken {f : Filter} {path : Bytes} (hf : Hereditary f path) {P : Bytes → Prop} {N : Tree → Prop} (hP : ∀ n, P n → NameOk n)
    (t : Tree) (ht : t.All P N) (cs : List Bytes) (hcs : ∀ c ∈ cs, NameOk c) :
    taken (keepOnly f path) (t.entriesAt (absPath cs)) =
      match (onDisk t).prune f path (absPath cs) with
      | none => []
      | some t' => (t'.entriesAt (absPath cs)).map said := by
  cases t with
  | regular x c =>
    simp only [Tree.entriesAt, taken, List.filterMap_cons, List.filterMap_nil, keepOnly, hdrOf, onDisk, FNode.prune]
    by_cases h : f (pathJoin path (absPath cs)) b!"regular" = true
    · simp [h, Tree.entriesAt, said, hdrOf]
    · simp [h]
  | symlink tg =>
    simp only [Tree.entriesAt, taken, List.filterMap_cons, List.filterMap_nil, keepOnly, hdrOf, onDisk, FNode.prune]
    by_cases h : f (pathJoin path (absPath cs)) b!"symlink" = true
    · simp [h, Tree.entriesAt, said, hdrOf]
    · simp [h]
  | directory es =>
    have key := filters_taken hf hP es ht.2.2 cs hcs
    unfold taken at key ⊢
    simp only [Tree.entriesAt, List.filterMap_cons, keepOnly, hdrOf, onDisk, FNode.prune]
    by_cases h : f (pathJoin path (absPath cs)) b!"directory" = true
    · simp only [h, if_true, Option.map_some, Tree.entriesAt, List.map_cons]
      exact congrArg _ key
    · simp only [h, Bool.false_eq_true, if_false, Option.map_none]
      have e := prunes_rejected hf hP cs hcs h es ht.2.2
      rw [e] at key
      exact key
theorem filters_taken {f : Filter} {path : Bytes} (hf : Hereditary f path) {P : Bytes → Prop} {N : Tree → Prop} (hP : ∀ n, P n → NameOk n)
    (es : Entries) (ht : es.All P N) (cs : List Bytes) (hcs : ∀ c ∈ cs, NameOk c) :
    taken (keepOnly f path) (es.entriesAt (absPath cs)) = (((onDisk' es).prune f path (absPath cs)).entriesAt (absPath cs)).map said := by
  cases es with
  | nil => rfl
  | cons n t es =>
    have h1 := filter_taken hf hP t ht.2.1 (cs ++ [n]) (names_snoc hcs (hP n ht.1))
    have h2 := filters_taken hf hP es ht.2.2 cs hcs
    rw [absPath_snoc cs n (names_good hcs)] at h1
    unfold taken at h1 h2 ⊢
    simp only [Entries.entriesAt, List.filterMap_append, h1, h2, onDisk', FEntries.prune]
    cases (onDisk t).prune f path (childPath (absPath cs) n) with
    | none => rfl
    | some t' => simp only [Entries.entriesAt, List.map_append]
end

/-- C170: filtering while dumping or while copying is the same. For a tree on disk and a filter that keeps the root and lets nothing through below a
directory it rejects: the dump with the filter, and the copy of the archive of all, without the entries that the filter rejects, both come to their
end without an error, and they write the same bytes. -/
theorem C170_filter (t : Tree) (hrd : t.All NameRd NodeRd) (hwr : t.All NameWr NodeWr) (f : Filter) (path : Bytes) (hf : Hereditary f path)
    (hroot : ∃ h ∈ (t.entriesAt b!"/").head?, f (pathJoin path b!"/") h.kind = true) (rest : Bytes) (e : Err) (w : Writer) (s0 : Sink)
    (hw : newWriter ⟨[], none⟩ = (.ok w, s0)) :
    (dumpPathFilter (some f) path (onDisk t) ⟨[], none⟩).1 = .ok () ∧
    ∃ r s' l w', newReader ⟨(dumpPathFilter none path (onDisk t) ⟨[], none⟩).2.out ++ rest, e⟩ = (.ok r, s') ∧
      MapNar (keepOnly f path) r w l w' ∧ w'.st.sink.out = (dumpPathFilter (some f) path (onDisk t) ⟨[], none⟩).2.out := by
  obtain ⟨h1, _, _⟩ := onDisk_facts t hwr path b!"/"
  obtain ⟨c1, c2⟩ := C35_dump_filter_partial (some f) path (onDisk t) h1
  have hp : (onDisk t).prune f path b!"/" ≠ none := by
    obtain ⟨h, hm, hk⟩ := hroot
    cases t <;> simp only [Tree.entriesAt, List.head?_cons, Option.mem_def, Option.some.injEq] at hm <;> subst hm <;>
      simp only [onDisk, FNode.prune] <;> simp only at hk <;> rw [if_pos hk] <;> simp
  have hok := c1.2 ⟨onDisk_dumpable t _ _ _, hp⟩
  obtain ⟨t', e1, e2⟩ := c2 hok
  have hk : (onDisk t).Ok NameOk := FNode.Ok.mono (fun n hn => hn.1) _ h1
  obtain ⟨t2, f1, f2⟩ := ((C35_exact (some f) path (onDisk t) hk).1.1 hok).2
  rw [e1] at f1
  cases f1
  have key := filter_taken hf (fun n (hn : NameRd n) => hn.1) t hrd [] (by simp)
  have e1' : (onDisk t).prune f path (absPath []) = some t' := e1
  rw [e1'] at key
  obtain ⟨r, s', w', k1, k2, k3⟩ := C168_map (keepOnly f path) t t' hrd f2 key rest e w s0 hw
  refine ⟨hok, r, s', _, w', ?_, k2, by rw [k3, e2]⟩
  rw [(C35_dump_partial t hwr path).2]
  exact k1

/-- A filter like those that leave out the directory of a version control system. -/
def noGit : Filter := fun p _ => !(splitByte p 47).contains b!".git"

/-- The hypotheses for a tree with such a directory. -/
def gitTree : Tree := .directory (.cons b!".git" (.directory (.cons b!"config" (.regular false b!"[core]") .nil))
  (.cons b!"main.go" (.regular false b!"package main") .nil))

theorem join_src (xs : List Bytes) (hx : ∀ c ∈ xs, NameOk c) : pathJoin b!"/src" (b!"/" ++ join xs b!"/") = absPath (b!"src" :: xs) := by
  have e : pathJoin b!"/src" (b!"/" ++ join xs b!"/") = clean (b!"/src" ++ 47 :: absPath xs) := rfl
  rw [e, clean_rooted _ rfl, cleanComps_rooted _ rfl, Verif.Store.splitByte_append_sep, splitByte_absPath (names_good hx)]
  by_cases h : xs = []
  · subst h; decide
  · rw [if_neg h, List.foldl_append, List.foldl_cons]
    have e1 : cleanStep true ((splitByte b!"/src" 47).foldl (cleanStep true) []) [] = [b!"src"] := by decide
    rw [e1, foldl_cleanStep_of_good (names_good hx)]
    simp

theorem noGit_hereditary : Hereditary noGit b!"/src" := by
  intro cs n typ hg h
  have hcs : ∀ c ∈ cs, NameOk c := fun c hc => hg c (List.mem_append_left _ hc)
  have hG : ∀ xs : List Bytes, (∀ c ∈ xs, NameOk c) → ∀ c ∈ b!"src" :: xs, Good c := by
    intro xs hx c hc
    rcases List.mem_cons.1 hc with rfl | hc
    · exact nameOk_good (by decide)
    · exact nameOk_good (hx c hc)
  rw [join_src _ hg] at h
  rw [join_src _ hcs]
  unfold noGit at h ⊢
  rw [splitByte_absPath (hG _ hg)] at h
  rw [splitByte_absPath (hG _ hcs)]
  simp only [reduceCtorEq, if_false, Bool.not_eq_true', List.contains_eq_mem, List.mem_cons, List.mem_append,
    decide_eq_false_iff_not, not_or] at h ⊢
  exact ⟨h.1, h.2.1, h.2.2.1⟩

example := C170_filter gitTree (by simp only [gitTree, Tree.All, Entries.All, NodeRd, Entries.names, NameRd]; decide)
  (by simp only [gitTree, Tree.All, Entries.All, NodeWr, Entries.names, NameWr]; decide) noGit b!"/src" noGit_hereditary
  ⟨_, rfl, by decide⟩ [] .eof freshWriter _ newWriter_fresh

/-- The filter leaves the directory and what is in it out, the file not. -/
example : (onDisk gitTree).prune noGit b!"/src" b!"/" = some (.directory (.cons b!"main.go" (.regular false b!"package main") .nil)) := by
  simp only [gitTree, onDisk, onDisk', FNode.prune, FEntries.prune]
  rfl

/-- C170: without the condition on the filter it is false: here it rejects a directory, but not what is in it. The dump leaves out both, the copy
stops with an error. -/
theorem C170_needs_hereditary : ∃ (t : Tree) (f : Filter), t.All NameRd NodeRd ∧ t.All NameWr NodeWr ∧
    (dumpPathFilter (some f) b!"/src" (onDisk t) ⟨[], none⟩).1 = .ok () ∧
    ∃ r s', newReader ⟨t.nar, .eof⟩ = (.ok r, s') ∧ ∀ l w', ¬ MapNar (keepOnly f b!"/src") r freshWriter l w' := by
  refine ⟨.directory (.cons b!"d" (.directory (.cons b!"f" (.symlink b!"x") .nil)) .nil), fun p _ => p != b!"/src/d", ?_, ?_, ?_, ?_⟩
  · simp only [Tree.All, Entries.All, NodeRd, Entries.names, NameRd]; decide
  · simp only [Tree.All, Entries.All, NodeWr, Entries.names, NameWr]; decide
  · decide +kernel
  refine ⟨_, _, newReader_nar' _ _, ?_⟩
  intro l w' h
  have hnext : ∀ {r : Reader} {h : Header} {w l w'}, r.next.1 = .ok h → MapNar (keepOnly (fun p _ => p != b!"/src/d") b!"/src") r w l w' →
      (keepOnly (fun p _ => p != b!"/src/d") b!"/src" h = none ∧
        MapNar (keepOnly (fun p _ => p != b!"/src/d") b!"/src") r.next.2 w l w') ∨
      ∃ h', keepOnly (fun p _ => p != b!"/src/d") b!"/src" h = some h' ∧ (w.writeHeader h').1 = .ok () ∧
        ∃ c r2 w2 l', CopyBody r.next.2 (w.writeHeader h').2 c r2 w2 ∧
          MapNar (keepOnly (fun p _ => p != b!"/src/d") b!"/src") r2 w2 l' w' := by
    intro r h w l w' hn hm
    cases hm with
    | done a _ => rw [a] at hn; cases hn
    | skip a b c => rw [a] at hn ⊢; cases hn; exact .inl ⟨b, c⟩
    | entry a b c d e => rw [a] at hn ⊢; cases hn; exact .inr ⟨_, b, by rw [c], _, _, _, _, by rw [c]; exact d, e⟩
  have hbody : ∀ {r : Reader} {w c r2 w2}, (r.read 32768).1 = .err .eof → CopyBody r w c r2 w2 → r2 = (r.read 32768).2 ∧ w2 = w := by
    intro r w c r2 w2 he hb
    cases hb with
    | eof a => rw [a]; exact ⟨rfl, rfl⟩
    | nothing a _ => rw [a] at he; cases he
    | chunk a _ _ _ => rw [a] at he; cases he
  rcases hnext (h := ⟨b!"/", b!"directory", [], 0, false⟩) (by decide +kernel) h with ⟨a, _⟩ | ⟨h', a, _, c, r2, w2, l', b1, b2⟩
  · revert a; decide +kernel
  have : h' = ⟨b!"/", b!"directory", [], 0, false⟩ := by
    have e : keepOnly (fun p _ => p != b!"/src/d") b!"/src" ⟨b!"/", b!"directory", [], 0, false⟩ = some ⟨b!"/", b!"directory", [], 0, false⟩ := by
      decide +kernel
    rw [e] at a
    exact (Option.some.inj a).symm
  subst this
  have q := hbody (by decide +kernel) b1
  rw [q.1, q.2] at b2
  rcases hnext (h := ⟨b!"/d", b!"directory", [], 0, false⟩) (by decide +kernel) b2 with ⟨_, b3⟩ | ⟨h', a, _⟩
  · rcases hnext (h := ⟨b!"/d/f", b!"symlink", b!"x", 0, false⟩) (by decide +kernel) b3 with ⟨a, _⟩ | ⟨h', a, a2, _⟩
    · revert a; decide +kernel
    · have : h' = ⟨b!"/d/f", b!"symlink", b!"x", 0, false⟩ := by
        have e : keepOnly (fun p _ => p != b!"/src/d") b!"/src" ⟨b!"/d/f", b!"symlink", b!"x", 0, false⟩ =
          some ⟨b!"/d/f", b!"symlink", b!"x", 0, false⟩ := by decide +kernel
        rw [e] at a
        exact (Option.some.inj a).symm
      subst this
      have a5 : ((freshWriter.writeHeader ⟨b!"/", b!"directory", [], 0, false⟩).2.writeHeader ⟨b!"/d/f", b!"symlink", b!"x", 0, false⟩).1 ≠
        .ok () := by decide +kernel
      exact a5 a2
  · revert a
    have e : keepOnly (fun p _ => p != b!"/src/d") b!"/src" ⟨b!"/d", b!"directory", [], 0, false⟩ = none := by decide +kernel
    rw [e]
    intro a
    cases a

end Verif.Props
