import Verif.Spec.NarLs
import Verif.Lemmas.NarUtil

/-!
# C39: `.ls` listings

`parseLS (.ok (v, root))` is `ParseLS` on JSON that decodes to version `v` and `root`; the entries
of a node are listed in the order in which the map is visited, so the theorems hold for every order.
-/

namespace Verif.Props
open Verif.NarLs Verif.Nar

/-- C39 as stated is false: a symlink without target (or any other leaf) is not checked. -/
theorem C39_refuted_leaf : ∃ root : Node, ¬ root.All NameLs Consistent ∧ parseLS (.ok (1, root)) = .ok (1, root) := by
  refine ⟨.mk b!"directory" (.cons b!"a" (.mk b!"symlink" .nil 5 [] true 0) .nil) 0 [] false 0, ?_, ?_⟩
  · simp [Node.All, NarLs.Entries.All, Consistent, FieldsOk]
  · rfl

/-- C39 as stated is false: `{"version":1,"root":{"type":"directory","entries":{"a":null}}}` makes
`ParseLS` panic. -/
theorem C39_refuted_panic : ∃ root : Node, parseLS (.ok (1, root)) = .panic :=
  ⟨.mk b!"directory" (.null b!"a" .nil) 0 [] false 0, rfl⟩

theorem checkNode_iff (typ : Bytes) (size : Int) (lt : Bytes) (x : Bool) :
    (checkNode typ size lt x = .ok () ↔ FieldsOk typ size lt x) ∧ checkNode typ size lt x ≠ .panic := by
  unfold checkNode FieldsOk
  show ((if (typ = b!"regular" ∨ typ = b!"directory") ∧ lt ≠ [] then _ else
    if (typ = b!"directory" ∨ typ = b!"symlink") ∧ size ≠ 0 then _ else
    if (typ = b!"directory" ∨ typ = b!"symlink") ∧ x = true then _ else
    if typ = b!"symlink" ∧ lt = [] then _ else _) = _ ↔ _) ∧ (if (typ = b!"regular" ∨ typ = b!"directory") ∧ lt ≠ [] then _ else
    if (typ = b!"directory" ∨ typ = b!"symlink") ∧ size ≠ 0 then _ else
    if (typ = b!"directory" ∨ typ = b!"symlink") ∧ x = true then _ else
    if typ = b!"symlink" ∧ lt = [] then _ else _) ≠ _
  split
  · rename_i h; simp only [reduceCtorEq, ne_eq, not_false_eq_true, and_true, false_iff]; exact fun h' => h.2 (h'.1 h.1)
  split
  · rename_i h; simp only [reduceCtorEq, ne_eq, not_false_eq_true, and_true, false_iff]; exact fun h' => h.2 (h'.2.1 h.1).1
  split
  · rename_i h
    simp only [reduceCtorEq, ne_eq, not_false_eq_true, and_true, false_iff]
    intro h'
    have := (h'.2.1 h.1).2
    rw [h.2] at this; simp at this
  split
  · rename_i h; simp only [reduceCtorEq, ne_eq, not_false_eq_true, and_true, false_iff]; exact fun h' => h'.2.2 h.1 h.2
  · rename_i h1 h2 h3 h4
    simp only [reduceCtorEq, ne_eq, not_false_eq_true, and_true, true_iff]
    refine ⟨fun h => Classical.byContradiction fun hd => h1 ⟨h, hd⟩,
      fun h => ⟨Classical.byContradiction fun hd => h2 ⟨h, hd⟩, ?_⟩, fun h hd => h4 ⟨h, hd⟩⟩
    cases hx : x with
    | false => rfl
    | true => exact absurd ⟨h, hx⟩ h3

mutual
theorem validateNode_iff : ∀ t : Node, (validateNode t = .ok () ↔ t.All NameLs ConsistentIfParent) ∧
    (t.NoNull → validateNode t ≠ .panic)
  | .mk typ es size lt x _ => by
    obtain ⟨h1, h2⟩ := validateEntries_iff typ size lt x es
    unfold validateNode Node.All Node.NoNull
    exact ⟨h1, h2⟩
theorem validateEntries_iff (typ : Bytes) (size : Int) (lt : Bytes) (x : Bool) : ∀ es : NarLs.Entries,
    (validateEntries typ size lt x es = .ok () ↔
      (es = .nil ∨ FieldsOk typ size lt x) ∧ es.All NameLs ConsistentIfParent) ∧
    (es.NoNull → validateEntries typ size lt x es ≠ .panic)
  | .nil => by simp [validateEntries, NarLs.Entries.All]
  | .null n es => by
    unfold validateEntries NarLs.Entries.All NarLs.Entries.NoNull
    simp only [and_false, iff_false, false_implies, and_true]
    split
    · simp
    · intro h
      rw [Res.bind_eq_ok] at h
      obtain ⟨_, _, h⟩ := h
      simp at h
  | .cons n t es => by
    obtain ⟨t1, t2⟩ := validateNode_iff t
    obtain ⟨e1, e2⟩ := validateEntries_iff typ size lt x es
    obtain ⟨c1, c2⟩ := checkNode_iff typ size lt x
    have hn := isValidNodeName_iff n
    unfold validateEntries NarLs.Entries.All NarLs.Entries.NoNull
    cases hv : isValidNodeName n with
    | false =>
      have : ¬ NameLs n := fun h => by rw [hn.2 h] at hv; simp at hv
      simp [this]
    | true =>
      have hname : NameLs n := hn.1 hv
      simp only [Bool.not_true, Bool.false_eq_true, if_false, hname, true_and]
      cases hc : checkNode typ size lt x with
      | panic => exact absurd hc c2
      | err e =>
        have : ¬ FieldsOk typ size lt x := fun h => by rw [c1.2 h] at hc; simp at hc
        simp [this]
      | ok u =>
        have hf := c1.1 hc
        simp only [Res.bind_ok, hf, or_true, true_and]
        cases ht : validateNode t with
        | panic =>
          rw [ht] at t1 t2
          simp only [reduceCtorEq, false_iff] at t1
          simp only [Res.bind_panic, reduceCtorEq, t1, false_and, ne_eq, not_true, true_and]
          intro h; exact t2 h.1 rfl
        | err e =>
          rw [ht] at t1
          simp only [reduceCtorEq, false_iff] at t1
          simp [t1]
        | ok u' =>
          rw [ht] at t1
          simp only [hf, or_true, true_and] at e1
          have t1 := t1.1 rfl
          simp only [Res.bind_ok, t1, true_and]
          exact ⟨e1, fun h => e2 h.2⟩
end

/-- C39, what holds, exactly: `ParseLS` accepts a decoded listing if and only if the version is 1,
every entry name at any depth is free of slash and NUL, no entry is null, and every node that has
entries is type-consistent; the result is the listing itself. Without null entries it does not
panic. Missing: the consistency of nodes without entries (`C39_refuted_leaf`), no panic for null
entries (`C39_refuted_panic`). -/
theorem C39_ls_partial (v : Int) (root : Node) :
    (∀ res, parseLS (.ok (v, root)) = .ok res ↔
      res = (v, root) ∧ v = 1 ∧ root.All NameLs ConsistentIfParent) ∧
    (root.NoNull → parseLS (.ok (v, root)) ≠ .panic) := by
  obtain ⟨h1, h2⟩ := validateNode_iff root
  unfold parseLS
  simp only [Res.bind_ok]
  by_cases hv : v = 1
  · rw [if_neg (by simpa using hv)]
    constructor
    · intro res
      rw [Res.bind_eq_ok]
      constructor
      · rintro ⟨u, a, b⟩
        simp only [Res.ok.injEq] at b
        exact ⟨b.symm, hv, h1.1 a⟩
      · rintro ⟨rfl, _, b⟩
        exact ⟨(), h1.2 b, rfl⟩
    · intro hn h
      cases hc : validateNode root with
      | panic => exact h2 hn hc
      | err e => rw [hc] at h; simp at h
      | ok u => rw [hc] at h; simp at h
  · rw [if_pos (by simpa using hv)]
    exact ⟨by simp [hv], by simp⟩

example : (Node.mk b!"directory" (.cons b!"a" (.mk b!"regular" .nil 5 [] true 96)
    (.cons b!"b" (.mk b!"directory" (.cons b!"c" (.mk b!"symlink" .nil 0 b!"../a" false 0) .nil) 0 [] false 0) .nil))
    0 [] false 0).All NameLs ConsistentIfParent := by
  simp [Node.All, NarLs.Entries.All, ConsistentIfParent, FieldsOk, NameLs]

end Verif.Props
