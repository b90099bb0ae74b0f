import Verif.Spec.Unpack
import Verif.Props.FilterNar

/-!
# Unpacking an archive, and dumping what was unpacked (C172)
-/

namespace Verif.Props
open Verif Verif.Nar Verif.GoLib Verif.Spec Verif.Wire

theorem pathComps_absPath {cs : List Bytes} (h : ∀ c ∈ cs, Good c) : pathComps (absPath cs) = cs := by
  unfold pathComps
  by_cases hc : cs = []
  · subst hc; rfl
  · rw [if_neg, splitByte_absPath h, if_neg hc]
    · rfl
    · intro e
      exact hc (absPath_inj (b := []) h (by simp) e)

/-- One entry with its contents. -/
def makeOne (disk : Option FNode) (e : Entry) : Option FNode := createAt disk (pathComps e.path) (made (hdrOf e) e.contents)

/-- Entries one after the other. -/
def makeAll : Option FNode → List Entry → Option FNode
  | disk, [] => disk
  | disk, e :: es => (makeOne disk e).bind fun d => makeAll (some d) es

theorem makeAll_append (a b : List Entry) : ∀ disk, makeAll disk (a ++ b) =
    if a = [] then makeAll disk b else (makeAll disk a).bind fun d => makeAll (some d) b := by
  induction a with
  | nil => intro disk; rfl
  | cons e a ih =>
    intro disk
    simp only [List.cons_append, makeAll, reduceCtorEq, if_false, Option.bind_assoc]
    congr 1
    funext d
    rw [ih]
    split
    · rename_i h; subst h; rfl
    · rfl

/-- The entries with one more at the end. -/
def snoc : FEntries → Bytes → FNode → FEntries
  | .nil, n, x => .cons n x .nil
  | .cons m y es, n, x => .cons m y (snoc es n x)

/-- One list of entries after the other. -/
def fappend : FEntries → FEntries → FEntries
  | .nil, fs => fs
  | .cons m y es, fs => .cons m y (fappend es fs)

theorem fappend_snoc : ∀ (es : FEntries) (n : Bytes) (x : FNode) (fs : FEntries), fappend (snoc es n x) fs = fappend es (.cons n x fs)
  | .nil, _, _, _ => rfl
  | .cons m y es, n, x, fs => by simp only [snoc, fappend, fappend_snoc es n x fs]

theorem fappend_nil : ∀ es : FEntries, fappend es .nil = es
  | .nil => rfl
  | .cons m y es => by simp only [fappend, fappend_nil es]

theorem snoc_names : ∀ (es : FEntries) (n : Bytes) (x : FNode), (snoc es n x).names = es.names ++ [n]
  | .nil, _, _ => rfl
  | .cons m y es, n, x => by simp only [snoc, FEntries.names, snoc_names es n x, List.cons_append]

theorem create_new : ∀ (es : FEntries) (n : Bytes) (x : FNode), (∀ m ∈ es.names, m < n) → es.create x n [] = some (snoc es n x)
  | .nil, n, x, _ => rfl
  | .cons m y es, n, x, h => by
    have hm : m < n := h m (by simp [FEntries.names])
    have h1 : n ≠ m := fun e => List.lt_irrefl _ (e ▸ hm)
    have h2 : ¬ n < m := fun e => List.lt_irrefl _ (List.lt_trans hm e)
    simp only [FEntries.create, if_neg h1, if_neg h2, create_new es n x (fun k hk => h k (by simp [FEntries.names, hk])), Option.map_some, snoc]

theorem create_last : ∀ (es : FEntries) (n : Bytes) (x y : FNode) (ds : List Bytes), (∀ m ∈ es.names, m < n) →
    (snoc es n y).create x n ds = (y.create x ds).map fun y' => snoc es n y'
  | .nil, n, x, y, ds, _ => by simp only [snoc, FEntries.create, if_true]
  | .cons m z es, n, x, y, ds, h => by
    have hm : m < n := h m (by simp [FEntries.names])
    have h1 : n ≠ m := fun e => List.lt_irrefl _ (e ▸ hm)
    have h2 : ¬ n < m := fun e => List.lt_irrefl _ (List.lt_trans hm e)
    simp only [snoc, FEntries.create, if_neg h1, if_neg h2, create_last es n x y ds (fun k hk => h k (by simp [FEntries.names, hk])),
      Option.map_map]
    rfl

mutual
theorem make_tree {P : Bytes → Prop} {N : Tree → Prop} (hP : ∀ n, P n → Good n) (t : Tree) (ht : t.All P N) (cs : List Bytes)
    (hcs : ∀ c ∈ cs, Good c) (K : FNode → FNode) (disk : Option FNode) (h0 : ∀ x, createAt disk cs x = some (K x))
    (hK : ∀ x y ds, (K y).create x (cs ++ ds) = (y.create x ds).map K) :
    makeAll disk (t.entriesAt (absPath cs)) = some (K (onDisk t)) := by
  have one : ∀ (e : Entry), e.path = absPath cs → makeOne disk e = some (K (made (hdrOf e) e.contents)) := by
    intro e he
    unfold makeOne
    rw [he, pathComps_absPath hcs, h0]
  cases t with
  | regular x c => simp only [Tree.entriesAt, makeAll, one ⟨absPath cs, _, _, _, _⟩ rfl]; rfl
  | symlink tg => simp only [Tree.entriesAt, makeAll, one ⟨absPath cs, _, _, _, _⟩ rfl]; rfl
  | directory es =>
    simp only [Tree.entriesAt, makeAll, one ⟨absPath cs, _, _, _, _⟩ rfl, Option.bind_some]
    exact make_entries hP es ht.2.2 ht.2.1 cs hcs K hK .nil (by intro m hm; cases hm)
theorem make_entries {P : Bytes → Prop} {N : Tree → Prop} (hP : ∀ n, P n → Good n) (es : Entries) (ht : es.All P N)
    (hs : es.names.Pairwise (· < ·)) (cs : List Bytes) (hcs : ∀ c ∈ cs, Good c) (K : FNode → FNode)
    (hK : ∀ x y ds, (K y).create x (cs ++ ds) = (y.create x ds).map K) (pre : FEntries) (hpre : ∀ m ∈ pre.names, ∀ n ∈ es.names, m < n) :
    makeAll (some (K (.directory pre))) (es.entriesAt (absPath cs)) = some (K (.directory (fappend pre (onDisk' es)))) := by
  cases es with
  | nil => simp only [Entries.entriesAt, makeAll, onDisk', fappend_nil]
  | cons n t es =>
    have hn := hP n ht.1
    simp only [Entries.names, List.pairwise_cons] at hs
    have hlt : ∀ m ∈ pre.names, m < n := fun m hm => hpre m hm n (by simp [Entries.names])
    have h1 := make_tree hP t ht.2.1 (cs ++ [n]) (good_snoc hcs hn) (fun y => K (.directory (snoc pre n y))) (some (K (.directory pre)))
      (by
        intro x
        simp only [createAt, hK, FNode.create, create_new pre n x hlt, Option.map_some])
      (by
        intro x y ds
        simp only [List.append_assoc, List.singleton_append, hK, FNode.create, create_last pre n x y ds hlt, Option.map_map]
        rfl)
    have h2 := make_entries hP es ht.2.2 hs.2 cs hcs K hK (snoc pre n (onDisk t)) (by
      intro m hm k hk
      rw [snoc_names] at hm
      rcases List.mem_append.1 hm with hm | hm
      · exact hpre m hm k (by simp [Entries.names, hk])
      · rw [List.mem_singleton.1 hm]; exact hs.1 k hk)
    simp only [Entries.entriesAt, ← absPath_snoc cs n hcs, makeAll_append]
    rw [if_neg (by cases t <;> simp [Tree.entriesAt]), h1]
    simp only [Option.bind_some, h2, fappend_snoc, onDisk']
end

theorem make_root (t : Tree) (ht : t.All NameRd NodeRd) : makeAll none (t.entriesAt b!"/") = some (onDisk t) := by
  have h0 : ∀ x, createAt none [] x = some (id x) := by
    intro x
    simp only [createAt, if_true, id]
  have hK : ∀ (x y : FNode) (ds : List Bytes), (id y).create x ([] ++ ds) = (y.create x ds).map id := by
    intro x y ds
    rw [List.nil_append, Option.map_id_fun]
    rfl
  exact make_tree (fun n (hn : NameRd n) => nameOk_good hn.1) t ht [] (by simp) id none h0 hK

/-- C172: unpacking the archive of a tree, with buffers of whatever sizes, onto nothing: no call fails, and what is on the disk then is the tree;
if the writer refuses nothing of it, `DumpPath` makes the same archive of it. -/
theorem C172_unpack (t : Tree) (ht : t.All NameRd NodeRd) (rest : Bytes) (e : Err) (r : Reader) (s : Stream)
    (hr : newReader ⟨t.nar ++ rest, e⟩ = (.ok r, s)) (plan : List (List Nat)) (hp : plan.length = (t.entriesAt b!"/").length)
    (hall : ∀ x ∈ (r.session plan).1, .err .eof ∈ x.2) :
    unpack none (r.session plan).1 = some (onDisk t) ∧
    (t.All NameWr NodeWr → ∀ path, (dumpPathFilter none path (onDisk t) ⟨[], none⟩).1 = .ok () ∧
      (dumpPathFilter none path (onDisk t) ⟨[], none⟩).2.out = t.nar) := by
  refine ⟨?_, fun h path => C35_dump_partial t h path⟩
  obtain ⟨r0, s0, h1, h2, _⟩ := C23_read_back_partial t ht rest e plan hp
  rw [hr] at h1
  cases h1
  rw [h2] at hall ⊢
  have key : ∀ (es : List Entry) (plan : List (List Nat)) (disk : Option FNode), plan.length = es.length →
      (∀ x ∈ List.zipWith (fun en ks => ((.ok (hdrOf en) : Call Header), readResults en.contents ks)) es plan, .err .eof ∈ x.2) →
      unpack disk (List.zipWith (fun en ks => ((.ok (hdrOf en) : Call Header), readResults en.contents ks)) es plan) = makeAll disk es := by
    intro es
    induction es with
    | nil => intro plan disk _ _; rfl
    | cons en es ih =>
      intro plan disk hl hx
      cases plan with
      | nil => cases hl
      | cons ks plan =>
        simp only [List.zipWith_cons_cons, unpack, makeAll, makeOne, bytesRead_whole _ _ (hx _ List.mem_cons_self)]
        rw [show (hdrOf en).path = en.path from rfl]
        refine congrArg (Option.bind _) (funext fun d => ?_)
        exact ih plan (some d) (by simpa using hl) fun x h => hx x (List.mem_cons_of_mem _ h)
  rw [key _ _ _ hp hall]
  exact make_root t ht

example := C172_unpack fileTree (by simp only [fileTree, Tree.All, Entries.All, NodeRd, Entries.names, NameRd]; decide) [] .eof _ _
  (newReader_nar fileTree [] _) [[1], [2, 2, 2]] (by decide +kernel) (by decide +kernel)

end Verif.Props
