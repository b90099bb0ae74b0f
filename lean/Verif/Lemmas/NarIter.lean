import Verif.Lemmas.NarShrink
import Verif.Props.NarReader
import Verif.Model.Cmd

/-! # Iterating over an archive -/

namespace Verif.Nar
open Verif.GoLib Verif.Wire Verif.Spec Verif.Props

/-- The reader is about to return the headers of `es`, then `io.EOF`. -/
def At (es : List Entry) (r : Reader) : Prop :=
  r.err = none ∧ r.closed = false ∧ (∃ st, r.resume = some st ∧
    Runs (fun st : Step RState Header Bool Unit => ∃ s, st = .done (.ok ()) s) es st) ∧
  (∀ e ∈ es.head?, pathIsLexicographicallyOrdered r.prev e.path = true) ∧
  es.Pairwise (fun a b => pathIsLexicographicallyOrdered a.path b.path = true)

theorem at_next {e : Entry} {es : List Entry} {r : Reader} (h : At (e :: es) r) :
    ∃ r1 tail, r.next = (.ok (hdrOf e), r1) ∧ At es r1 ∧ r1.st.stream.data = e.contents ++ tail ∧
      r1.st.rem = e.contents.length := by
  obtain ⟨herr, hcl, ⟨st, hres, hrun⟩, hord, hpw⟩ := h
  obtain ⟨tail, t, l, k, hne, rfl, hk⟩ := hrun
  have ho := hord e (by simp)
  have hnext : r.next = (.ok (hdrOf e), { r with
      st := ⟨⟨e.contents ++ tail, t⟩, e.contents.length, l⟩, phase := .waiting k, prev := e.path }) := by
    unfold Reader.next
    rw [herr]
    simp only []
    rw [if_neg (by simp [hcl]), hres]
    have ho' : pathIsLexicographicallyOrdered r.prev (hdrOf e).path = true := ho
    simp only [Reader.receive]
    rw [if_pos ho', ← herr]
    rfl
  rw [List.pairwise_cons] at hpw
  refine ⟨_, tail, hnext, ⟨herr, hcl, ⟨_, rfl, hk _ (Consume.refl _)⟩, ?_, hpw.2⟩, rfl, rfl⟩
  intro e' he'
  exact hpw.1 e' (List.mem_of_mem_head? he')

theorem at_end {r : Reader} (h : At [] r) : ∃ r1, r.next = (.err .eof, r1) := by
  obtain ⟨herr, hcl, ⟨st, hres, s, rfl⟩, _, _⟩ := h
  have : r.next = r.receive (.done (.ok ()) s) := by
    unfold Reader.next
    rw [herr]
    simp only []
    rw [if_neg (by simp [hcl]), hres]
  exact ⟨_, this⟩

theorem at_new (t : Tree) (ht : t.All NameRd NodeRd) (rest : Bytes) (e : Err) :
    At (t.entriesAt b!"/") ⟨⟨⟨t.node ++ rest, e⟩, 0, 0⟩, .start, none, [], false⟩ := by
  have hP : ∀ n, NameRd n → Good n := fun n hn => nameOk_good hn.1
  obtain ⟨hp1, hp2⟩ := tree_paths hP t ht [] (by simp)
  have hbind : ∀ st : Step RState Header Bool Unit, st.bind (fun a s => .done (.ok a) s) = st := by
    intro st
    induction st with
    | done r s => rcases r with _ | _ | _ <;> rfl
    | yield y s k ih => simp only [Step.bind_yield]; congr 1; funext i s'; exact ih i s'
  refine ⟨rfl, rfl, ⟨_, rfl, ?_⟩, ?_, ?_⟩
  · have := runs_node (β := Unit) t ht ((t.node ++ rest).length + 1) [] (by simp) rest e 0 0
      (Nat.lt_succ_self _) [] (fun st => ∃ s, st = .done (.ok ()) s)
      (fun a s => .done (.ok a) s) (fun r l => ⟨_, rfl⟩)
    rw [hbind, List.append_nil] at this
    exact this
  · intro e' _; simp [pathIsLexicographicallyOrdered, strLe]
  · have hp2' : (t.entriesAt b!"/").Pairwise (fun a b => cleanComps a.path < cleanComps b.path) := hp2
    refine hp2'.imp_of_mem ?_
    intro a b ha hb hab
    obtain ⟨ds, e1, g1⟩ := hp1 a ha
    obtain ⟨ds', e2, g2⟩ := hp1 b hb
    rw [e1, e2] at hab ⊢
    rw [cleanComps_absPath g1, cleanComps_absPath g2] at hab
    exact ordered_abs g1 g2 (List.le_of_lt hab)

/-- The paths of a tree, ordered with the slash below all other bytes, and pairwise different. -/
theorem tree_slashLe (t : Tree) (ht : t.All NameRd NodeRd) :
    (t.entriesAt b!"/").Pairwise fun a b => slashLe a.path b.path = true ∧ a.path ≠ b.path := by
  have hP : ∀ n, NameRd n → Good n := fun n hn => nameOk_good hn.1
  obtain ⟨hp1, hp2⟩ := tree_paths hP t ht [] (by simp)
  have hp2' : (t.entriesAt b!"/").Pairwise (fun a b => cleanComps a.path < cleanComps b.path) := hp2
  refine hp2'.imp_of_mem ?_
  intro a b ha hb hab
  obtain ⟨ds, e1, g1⟩ := hp1 a ha
  obtain ⟨ds', e2, g2⟩ := hp1 b hb
  refine ⟨?_, fun h => by rw [h] at hab; exact List.lt_irrefl _ hab⟩
  rw [slashLe_iff]
  rw [e1, e2] at hab ⊢
  rw [cleanComps_absPath g1, cleanComps_absPath g2] at hab
  exact split_abs_le g1 g2 (List.le_of_lt hab)

mutual
theorem entries_le_node (t : Tree) (p : Bytes) : (t.entriesAt p).length ≤ t.node.length := by
  cases t with
  | regular ex c => simp [Tree.entriesAt, Tree.node, str]; omega
  | symlink t => simp [Tree.entriesAt, Tree.node, str]; omega
  | directory es =>
    have := entries_le_nodes es p
    simp [Tree.entriesAt, Tree.node, str]; omega
theorem entries_le_nodes (es : Entries) (p : Bytes) : (es.entriesAt p).length ≤ es.nodes.length := by
  cases es with
  | nil => simp [Entries.entriesAt]
  | cons n t es =>
    have h1 := entries_le_node t (childPath p n)
    have h2 := entries_le_nodes es p
    simp [Entries.entriesAt, Entries.nodes, str]; omega
end

/-- `slashLe` and prefixes. -/
theorem slashLe_prefix {p a b : Bytes} (hp : ∀ c ∈ p, 47 ≤ c) (hn : ¬ p <+: a) (hlt : p < a)
    (hab : slashLe a b = true) : ¬ p <+: b := by
  induction p generalizing a b with
  | nil => exact absurd (List.nil_prefix) hn
  | cons x p ih =>
    cases a with
    | nil => exact absurd hlt (by simp)
    | cons y a =>
      cases b with
      | nil => simp
      | cons z b =>
        rw [List.cons_lt_cons_iff] at hlt
        rw [List.cons_prefix_cons] at hn ⊢
        rintro ⟨rfl, hb⟩
        have hx : 47 ≤ x := hp x (by simp)
        unfold slashLe at hab
        rcases hlt with hxy | ⟨rfl, hpa⟩
        · have e1 : y ≠ x := by rintro rfl; exact UInt8.lt_irrefl _ hxy
          have e2 : y ≠ 47 := by
            rintro rfl
            exact absurd (UInt8.lt_of_lt_of_le hxy hx) (UInt8.lt_irrefl _)
          rw [if_neg e1, if_neg e2] at hab
          split at hab
          · simp at hab
          · exact UInt8.lt_irrefl _ (UInt8.lt_trans hxy (by simpa using hab))
        · rw [if_pos rfl] at hab
          exact ih (fun c hc => hp c (by simp [hc])) (fun h => hn ⟨rfl, h⟩) hpa hab hb

/-! ### counting -/

theorem closed_no_hdrs {r : Reader} (hc : r.closed = true) (ops : List ROp) : hdrsOf (r.run ops).1 = [] := by
  induction ops generalizing r with
  | nil => rfl
  | cons o ops ih =>
    have key : (∀ h, (r.op o).1 ≠ .next (.ok h)) ∧ (r.op o).2.closed = true := by
      cases o with
      | next =>
        simp only [Reader.op]
        unfold Reader.next
        split
        · exact ⟨by simp, hc⟩
        · rw [if_pos hc]; exact ⟨by simp, hc⟩
      | read k =>
        obtain ⟨s', _, e⟩ := read_consume r k
        simp only [Reader.op]; rw [e]; exact ⟨by simp, hc⟩
      | close =>
        simp only [Reader.op]
        unfold Reader.close
        split
        · exact ⟨by simp, hc⟩
        · first
            | exact ⟨by simp, hc⟩
            | (rw [if_pos hc]; exact ⟨by simp, hc⟩)
    have := ih key.2
    simp only [Reader.run, hdrsOf, List.filterMap_cons] at this ⊢
    rw [this]
    split
    · rfl
    · rename_i heq
      split at heq
      · rename_i h1; exact absurd h1 (key.1 _)
      · simp at heq

theorem hdrs_bound {r : Reader} (hi : ShrInv r) (ops : List ROp) : (hdrsOf (r.run ops).1).length * 24 ≤ r.st.left := by
  induction ops generalizing r with
  | nil => simp [Reader.run, hdrsOf]
  | cons o ops ih =>
    cases o with
    | next =>
      have h := shrInv_next hi
      have h2 := ih h.1
      simp only [Reader.run, Reader.op, hdrsOf, List.filterMap_cons] at h2 ⊢
      cases hn : r.next.1 with
      | ok hd =>
        have := h.2.2 hd hn
        simp only [List.length_cons]
        omega
      | err e => simp only; omega
      | panic => simp only; omega
      | block => simp only; omega
    | read k =>
      have h := shrInv_read hi k
      have h2 := ih h.1
      simp only [Reader.run, Reader.op, hdrsOf, List.filterMap_cons] at h2 ⊢
      omega
    | close =>
      by_cases hc : r.close.2.closed = true
      · have := closed_no_hdrs hc ops
        simp only [Reader.run, Reader.op, hdrsOf, List.filterMap_cons] at this ⊢
        rw [this]; simp
      · have e : r.close.2 = r := by
          unfold Reader.close at hc ⊢
          split
          · rfl
          · split
            · rfl
            · rename_i h1 h2
              rw [if_neg h1, if_neg h2] at hc
              split at hc <;> simp at hc
        have := ih hi
        simp only [Reader.run, Reader.op, hdrsOf, List.filterMap_cons] at this ⊢
        rw [e]; exact this

end Verif.Nar
