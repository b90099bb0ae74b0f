import Verif.Spec.NarText
import Verif.Props.NarWriterExact

/-!
# C117: the serialisation determines the tree
-/

namespace Verif.Props
open Verif.Nar Verif.GoLib Verif.Spec Verif.Wire

/-- a string can be cut off from what follows it -/
theorem str_cancel {a b r r' : Bytes} (ha : Fits a) (hb : Fits b) (h : str a ++ r = str b ++ r') : a = b ∧ r = r' := by
  have h1 := readString_str a r .eof (a.length + b.length) (by omega) ha
  have h2 := readString_str b r' .eof (a.length + b.length) (by omega) hb
  rw [h, h2] at h1
  simp only [Prod.mk.injEq, Res.ok.injEq, Stream.mk.injEq, and_true] at h1
  exact ⟨h1.1.symm, h1.2.symm⟩

theorem str_ne {a b r r' : Bytes} (ha : Fits a) (hb : Fits b) (hab : a ≠ b) : str a ++ r ≠ str b ++ r' :=
  fun h => hab (str_cancel ha hb h).1

mutual
theorem node_cancel (t t' : Tree) (ht : t.Fits) (ht' : t'.Fits) (r r' : Bytes) (h : t.node ++ r = t'.node ++ r') :
    t = t' ∧ r = r' := by
  have key : ∀ k k' : Bytes, ∀ x x' : Bytes, Fits k → Fits k' →
      str b!"(" ++ (str b!"type" ++ (str k ++ x)) = str b!"(" ++ (str b!"type" ++ (str k' ++ x')) → k = k' ∧ x = x' := by
    intro k k' x x' hk hk' h
    exact str_cancel hk hk' (List.append_cancel_left (List.append_cancel_left h))
  match t, t' with
  | .regular e c, .regular e' c' =>
    simp only [Tree.node, List.append_assoc] at h
    have h := (key _ _ _ _ (by decide) (by decide) h).2
    have fin : ∀ y y' : Bytes, str b!"contents" ++ (str c ++ (str b!")" ++ y)) = str b!"contents" ++ (str c' ++ (str b!")" ++ y')) →
        c = c' ∧ y = y' := by
      intro y y' h
      obtain ⟨h1, h2⟩ := str_cancel ht ht' (List.append_cancel_left h)
      exact ⟨h1, List.append_cancel_left h2⟩
    cases e <;> cases e'
    · simp only [Bool.false_eq_true, if_false, List.nil_append] at h
      obtain ⟨h1, h2⟩ := fin _ _ h
      rw [h1, h2]; exact ⟨rfl, rfl⟩
    · simp only [Bool.false_eq_true, if_false, if_true, List.nil_append, List.append_assoc] at h
      exact absurd h (str_ne (by decide) (by decide) (by decide))
    · simp only [Bool.false_eq_true, if_false, if_true, List.nil_append, List.append_assoc] at h
      exact absurd h (str_ne (by decide) (by decide) (by decide))
    · simp only [if_true, List.append_assoc] at h
      obtain ⟨h1, h2⟩ := fin _ _ (List.append_cancel_left (List.append_cancel_left h))
      rw [h1, h2]; exact ⟨rfl, rfl⟩
  | .symlink l, .symlink l' =>
    simp only [Tree.node, List.append_assoc] at h
    have h := (key _ _ _ _ (by decide) (by decide) h).2
    obtain ⟨h1, h2⟩ := str_cancel ht ht' (List.append_cancel_left h)
    rw [h1]; exact ⟨rfl, List.append_cancel_left h2⟩
  | .directory es, .directory es' =>
    simp only [Tree.node, List.append_assoc] at h
    have h := (key _ _ _ _ (by decide) (by decide) h).2
    obtain ⟨h1, h2⟩ := nodes_cancel es es' ht ht' r r' h
    rw [h1]; exact ⟨rfl, h2⟩
  | .regular .., .symlink _ | .regular .., .directory _ | .symlink _, .regular .. | .symlink _, .directory _
  | .directory _, .regular .. | .directory _, .symlink _ =>
    simp only [Tree.node, List.append_assoc] at h
    exact absurd (key _ _ _ _ (by decide) (by decide) h).1 (by decide)
theorem nodes_cancel (es es' : Entries) (ht : es.Fits) (ht' : es'.Fits) (r r' : Bytes)
    (h : es.nodes ++ (str b!")" ++ r) = es'.nodes ++ (str b!")" ++ r')) : es = es' ∧ r = r' := by
  match es, es' with
  | .nil, .nil =>
    simp only [Entries.nodes, List.nil_append] at h
    exact ⟨rfl, List.append_cancel_left h⟩
  | .nil, .cons .. | .cons .., .nil =>
    simp only [Entries.nodes, List.nil_append, List.append_assoc] at h
    exact absurd h (str_ne (by decide) (by decide) (by decide))
  | .cons n t es, .cons n' t' es' =>
    simp only [Entries.nodes, List.append_assoc] at h
    simp only [Entries.Fits] at ht ht'
    have h := List.append_cancel_left (List.append_cancel_left (List.append_cancel_left h))
    obtain ⟨h1, h2⟩ := str_cancel ht.1 ht'.1 h
    obtain ⟨h3, h4⟩ := node_cancel t t' ht.2.1 ht'.2.1 _ _ (List.append_cancel_left h2)
    obtain ⟨h5, h6⟩ := nodes_cancel es es' ht.2.2 ht'.2.2 r r' (List.append_cancel_left h4)
    rw [h1, h3, h5]; exact ⟨rfl, h6⟩
end

/-- C117: the serialisation determines the tree, even with data after it: no serialisation is the beginning of that of
another tree. (For all trees, also those with names that no file can have.) -/
theorem C117_nar_injective (t t' : Tree) (ht : t.Fits) (ht' : t'.Fits) (rest rest' : Bytes)
    (h : t.nar ++ rest = t'.nar ++ rest') : t = t' ∧ rest = rest' := by
  unfold Tree.nar at h
  simp only [List.append_assoc] at h
  exact node_cancel t t' ht ht' rest rest' (List.append_cancel_left h)

example : sampleTree.Fits := by
  simp only [sampleTree, Tree.Fits, Entries.Fits]
  decide

/-- C117 for `DumpPathFilter`: if two dumps return nil and write the same bytes, then what the filters left of the two file system trees
is the same. -/
theorem C117_dump (filter filter' : Option Filter) (path path' : Bytes) (root root' : FNode) (hok : root.Ok NameOk)
    (hok' : root'.Ok NameOk) (hf : ∀ t, root.prune (keeps filter) path b!"/" = some t → t.Fits)
    (hf' : ∀ t, root'.prune (keeps filter') path' b!"/" = some t → t.Fits)
    (h : (dumpPathFilter filter path root ⟨[], none⟩).1 = .ok ())
    (h' : (dumpPathFilter filter' path' root' ⟨[], none⟩).1 = .ok ())
    (he : (dumpPathFilter filter path root ⟨[], none⟩).2.out = (dumpPathFilter filter' path' root' ⟨[], none⟩).2.out) :
    root.prune (keeps filter) path b!"/" = root'.prune (keeps filter') path' b!"/" := by
  obtain ⟨t, ht, e⟩ := (C35_exact filter path root hok).2 h
  obtain ⟨t', ht', e'⟩ := (C35_exact filter' path' root' hok').2 h'
  rw [e, e'] at he
  rw [ht, ht', (C117_nar_injective t t' (hf t ht) (hf' t' ht') [] [] (by simpa using he)).1]

example : (dumpPathFilter none b!"/x" (onDisk sampleTree) ⟨[], none⟩).1 = .ok () ∧
    (dumpPathFilter none b!"/y" (onDisk sampleTree) ⟨[], none⟩).1 = .ok () ∧
    ∀ t, (onDisk sampleTree).prune (keeps none) b!"/x" b!"/" = some t → t.Fits := by
  have hs : sampleTree.All NameWr NodeWr := by
    simp only [sampleTree, Tree.All, Entries.All, NodeWr, NameWr, Entries.names]
    decide
  refine ⟨(C35_dump_partial _ hs _).1, (C35_dump_partial _ hs _).1, ?_⟩
  intro t ht
  rw [(onDisk_facts sampleTree hs b!"/x" b!"/").2.2] at ht
  cases ht
  simp only [sampleTree, Tree.Fits, Entries.Fits]
  decide

theorem absPath_length {cs : List Bytes} {c : Bytes} (h : c ∈ cs) : c.length ≤ (absPath cs).length := by
  unfold absPath
  have : ∀ cs : List Bytes, c ∈ cs → c.length ≤ (join cs b!"/").length := by
    intro cs
    induction cs with
    | nil => intro h; simp at h
    | cons x cs ih =>
      intro h
      by_cases hc : cs = []
      · subst hc
        rw [List.mem_singleton.1 h]
        exact Nat.le_refl _
      · rw [join_cons hc]
        simp only [List.length_append]
        rcases List.mem_cons.1 h with rfl | h
        · omega
        · have := ih h; omega
  have := this cs h
  simp only [List.length_cons]
  omega

mutual
theorem tree_fits (t : Tree) (ht : t.All NameOk NodeSize) (cs : List Bytes) (hcs : ∀ c ∈ cs, Good c)
    (h : ∀ e ∈ t.entriesAt (absPath cs), Fits e.path ∧ Fits e.target) : t.Fits := by
  match t with
  | .regular x c => exact ht
  | .symlink l => exact (h ⟨absPath cs, b!"symlink", false, l, []⟩ (by simp [Tree.entriesAt])).2
  | .directory es =>
    simp only [Tree.All] at ht
    simp only [Tree.entriesAt] at h
    exact entries_fits es ht.2.2 cs hcs (fun e he => h e (List.mem_cons_of_mem _ he))
theorem entries_fits (es : Entries) (ht : es.All NameOk NodeSize) (cs : List Bytes) (hcs : ∀ c ∈ cs, Good c)
    (h : ∀ e ∈ es.entriesAt (absPath cs), Fits e.path ∧ Fits e.target) : es.Fits := by
  match es with
  | .nil => trivial
  | .cons n t es =>
    simp only [Entries.All] at ht
    have hg := good_snoc hcs (nameOk_good ht.1)
    simp only [Entries.entriesAt, ← absPath_snoc cs n hcs] at h
    obtain ⟨e, he, hp⟩ : ∃ e ∈ t.entriesAt (absPath (cs ++ [n])), e.path = absPath (cs ++ [n]) := by
      cases t <;> simp [Tree.entriesAt]
    have hn := (h e (List.mem_append_left _ he)).1
    rw [hp] at hn
    exact ⟨Nat.lt_of_le_of_lt (absPath_length (c := n) (by simp)) hn, tree_fits t ht.2.1 _ hg (fun e he => h e (List.mem_append_left _ he)),
      entries_fits es ht.2.2 cs hcs (fun e he => h e (List.mem_append_right _ he))⟩
end

theorem session_fits {t : Tree} (ht : t.All NameWr NodeWr) {ops : List WOp} (he : (t.entriesAt b!"/").map said = written ops)
    (hl : ∀ h ∈ (written ops).map (·.1), Fits h.path ∧ Fits h.linkTarget) : t.Fits := by
  refine tree_fits t (all_mono (fun _ h => h.1) nodeWr_size t ht) [] (by simp) ?_
  intro e hm
  have hm' : e ∈ t.entriesAt b!"/" := hm
  exact hl (hdrOf e) (List.mem_map.2 ⟨said e, he ▸ List.mem_map_of_mem hm', rfl⟩)

/-- C117 for `Writer`: two sessions in which all calls succeed and that write the same bytes were given the same headers, with the
same data after each. -/
theorem C117_sessions (w : Writer) (s : Sink) (hnew : newWriter ⟨[], none⟩ = (.ok w, s)) (ops ops' : List WOp)
    (hh : ∀ h, .header h ∈ ops → HeaderWr h) (hh' : ∀ h, .header h ∈ ops' → HeaderWr h)
    (hw : ∀ p, .write p ∈ ops → p.length < 2 ^ 63) (hw' : ∀ p, .write p ∈ ops' → p.length < 2 ^ 63)
    (hd : NoRepeat ((written ops).map (·.1.path))) (hd' : NoRepeat ((written ops').map (·.1.path)))
    (hl : ∀ h ∈ (written ops).map (·.1), Fits h.path ∧ Fits h.linkTarget)
    (hl' : ∀ h ∈ (written ops').map (·.1), Fits h.path ∧ Fits h.linkTarget)
    (hg : ∀ o ∈ (w.run (ops ++ [.close])).1, o.good = true) (hg' : ∀ o ∈ (w.run (ops' ++ [.close])).1, o.good = true)
    (he : (w.run (ops ++ [.close])).2.st.sink.out = (w.run (ops' ++ [.close])).2.st.sink.out) : written ops = written ops' := by
  obtain ⟨t, t1, t2, t3⟩ := C22_valid_nar_partial w s hnew ops hh hw hd hg
  obtain ⟨t', t1', t2', t3'⟩ := C22_valid_nar_partial w s hnew ops' hh' hw' hd' hg'
  rw [t2, t2'] at he
  have := (C117_nar_injective t t' (session_fits t1 t3 hl) (session_fits t1' t3' hl') [] [] (by simpa using he)).1
  rw [← t3, ← t3', this]

example : ∀ h ∈ (written sampleOps).map (·.1), Fits h.path ∧ Fits h.linkTarget := by decide +kernel

end Verif.Props
