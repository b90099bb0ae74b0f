import Verif.Props.NarParenPaths

/-!
# C22: exactly when a successful session gives a valid archive
-/

namespace Verif.Props
open Verif Verif.Nar Verif.GoLib Verif.Spec Verif.Wire

theorem written_mem (l : List WOp) (h : Header) (hm : .header h ∈ l) : ∃ c, (h, c) ∈ written l := by
  induction l with
  | nil => simp at hm
  | cons o l ih =>
    rcases List.mem_cons.1 hm with e | hm
    · subst e
      exact ⟨_, List.mem_cons_self⟩
    · obtain ⟨c, hc⟩ := ih hm
      cases o with
      | header h' => exact ⟨c, List.mem_cons_of_mem _ hc⟩
      | write p => exact ⟨c, hc⟩
      | close => exact ⟨c, hc⟩

mutual
theorem tree_known (t : Tree) (p : Bytes) : ∀ e ∈ t.entriesAt p,
    e.kind = b!"regular" ∨ e.kind = b!"symlink" ∨ e.kind = b!"directory" := by
  cases t with
  | regular => intro e he; simp only [Tree.entriesAt, List.mem_singleton] at he; subst he; exact .inl rfl
  | symlink => intro e he; simp only [Tree.entriesAt, List.mem_singleton] at he; subst he; exact .inr (.inl rfl)
  | directory es =>
    intro e he
    simp only [Tree.entriesAt, List.mem_cons] at he
    rcases he with rfl | he
    · exact .inr (.inr rfl)
    · exact entries_known es p e he
theorem entries_known (es : Entries) (p : Bytes) : ∀ e ∈ es.entriesAt p,
    e.kind = b!"regular" ∨ e.kind = b!"symlink" ∨ e.kind = b!"directory" := by
  cases es with
  | nil => intro e he; simp [Entries.entriesAt] at he
  | cons n t es =>
    intro e he
    simp only [Entries.entriesAt, List.mem_append] at he
    rcases he with he | he
    · exact tree_known t _ e he
    · exact entries_known es p e he
end

mutual
theorem tree_weaken {P P' : Bytes → Prop} {Q Q' : Tree → Prop} (hP : ∀ n, P n → P' n) (hQ : ∀ t, Q t → Q' t)
    (t : Tree) (h : t.All P Q) : t.All P' Q' := by
  cases t with
  | regular => exact hQ _ h
  | symlink => exact hQ _ h
  | directory es => exact ⟨hQ _ h.1, h.2.1, entries_weaken hP hQ es h.2.2⟩
theorem entries_weaken {P P' : Bytes → Prop} {Q Q' : Tree → Prop} (hP : ∀ n, P n → P' n)
    (hQ : ∀ t, Q t → Q' t) (es : Entries) (h : es.All P Q) : es.All P' Q' := by
  cases es with
  | nil => trivial
  | cons n t es => exact ⟨hP _ h.1, tree_weaken hP hQ t h.2.1, entries_weaken hP hQ es h.2.2⟩
end

theorem noRepeat_of_distinct {l : List Bytes} (h : l.Pairwise (· ≠ ·)) : NoRepeat l := by
  induction l with
  | nil => trivial
  | cons a l ih =>
    rw [List.pairwise_cons] at h
    cases l with
    | nil => trivial
    | cons b l => exact ⟨h.1 b (by simp), ih h.2⟩

/-- C22: exactly when it is true. If every call of a history ending with `Close` succeeds, then the output
is the serialisation of a tree with usable names and strictly sorted entries, whose entries are the headers
written with the data written after each, if and only if every header has a clean path, one of the three
types and a size that is not negative, and no path was given twice in a row. -/
theorem C22_exact (w : Writer) (s : Sink) (hnew : newWriter ⟨[], none⟩ = (.ok w, s))
    (ops : List WOp) (hsz : ∀ h, .header h ∈ ops → h.size < 2 ^ 63)
    (hw : ∀ p, .write p ∈ ops → p.length < 2 ^ 63)
    (hg : ∀ o ∈ (w.run (ops ++ [.close])).1, o.good = true) :
    (∃ t : Tree, t.All NameOk (fun _ => True) ∧ (w.run (ops ++ [.close])).2.st.sink.out = t.nar ∧
      (t.entriesAt b!"/").map said = written ops) ↔
    (∀ h, .header h ∈ ops → clean h.path = h.path ∧ 0 ≤ h.size ∧
      (h.typ = b!"regular" ∨ h.typ = b!"symlink" ∨ h.typ = b!"directory")) ∧
    NoRepeat ((written ops).map (·.1.path)) := by
  constructor
  · rintro ⟨t, t1, _, t3⟩
    have hP : ∀ n, NameOk n → Good n := fun n hn => nameOk_good hn
    obtain ⟨hp1, hp2⟩ := tree_paths hP t t1 [] (by simp)
    constructor
    · intro h hm
      obtain ⟨c, hc⟩ := written_mem ops h hm
      rw [← t3] at hc
      obtain ⟨e, he, hs⟩ := List.mem_map.1 hc
      have : hdrOf e = h := congrArg Prod.fst hs
      subst this
      obtain ⟨ds, q1, q2⟩ := hp1 e he
      refine ⟨?_, Int.natCast_nonneg _, tree_known t b!"/" e he⟩
      show clean e.path = e.path
      rw [q1]
      exact clean_absPath q2
    · rw [← t3, List.map_map]
      refine noRepeat_of_distinct ?_
      rw [List.pairwise_map]
      refine List.Pairwise.imp ?_ hp2
      intro a b hab e
      have e' : a.path = b.path := e
      rw [e'] at hab
      exact List.lt_irrefl _ hab
  · rintro ⟨h1, h2⟩
    obtain ⟨t, t1, t2, t3⟩ := C22_valid_nar_partial w s hnew ops
      (fun h hm => ⟨(h1 h hm).2.2, (h1 h hm).1, (h1 h hm).2.1, hsz h hm⟩) hw h2 hg
    exact ⟨t, tree_weaken (fun n hn => hn.1) (fun _ _ => trivial) t t1, t2, t3⟩

/-- The three histories of `C22_refuted*` fail one condition each; `parenOps` meets all. -/
example : (∀ h, .header h ∈ parenOps → clean h.path = h.path ∧ 0 ≤ h.size ∧
      (h.typ = b!"regular" ∨ h.typ = b!"symlink" ∨ h.typ = b!"directory")) ∧
    NoRepeat ((written parenOps).map (·.1.path)) ∧ clean b!"/c/../a" ≠ b!"/c/../a" ∧
    ¬ NoRepeat [b!"/", b!"/"] := by
  refine ⟨?_, by decide +kernel, by decide +kernel, by decide⟩
  intro h hm
  simp only [parenOps, List.mem_cons, WOp.header.injEq, reduceCtorEq, false_or, List.not_mem_nil, or_false] at hm
  rcases hm with rfl | rfl | rfl | rfl <;> decide +kernel

end Verif.Props
