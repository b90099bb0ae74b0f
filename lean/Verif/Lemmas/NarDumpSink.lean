import Verif.Lemmas.NarWriterSink
import Verif.Model.NarDump

/-! `DumpPathFilter` on a sink that fails after some bytes, compared with one that never fails. -/

namespace Verif.Nar
open Verif.GoLib Verif.Spec Verif.Wire

/-- How a series of calls on a writer behaves on a limited sink, compared with an unlimited one. -/
structure TameW {α : Type} (f : Writer → Call α × Writer) : Prop where
  mono : ∀ w, w.st.sink.budget = none →
    (f w).2.st.sink.budget = none ∧ w.st.sink.out <+: (f w).2.st.sink.out
  sim : ∀ w k, w.st.sink.budget = none →
    (∃ k', k' + (f w).2.st.sink.out.length = k + w.st.sink.out.length ∧ f (w.on k) = ((f w).1, (f w).2.on k')) ∨
    ((∃ e, (f (w.on k)).1 = .err e) ∧ (f (w.on k)).2.st.sink.budget = some 0 ∧
      (f (w.on k)).2.st.sink.out <+: (f w).2.st.sink.out ∧
      (f (w.on k)).2.st.sink.out.length = k + w.st.sink.out.length ∧
      k + w.st.sink.out.length < (f w).2.st.sink.out.length)

theorem tameW_ret {α : Type} (r : Call α) : TameW (fun w => (r, w)) where
  mono _ h := ⟨h, List.prefix_rfl⟩
  sim _ k _ := .inl ⟨k, rfl, rfl⟩

theorem tameW_writeHeader (h : Header) : TameW (fun w => w.writeHeader h) where
  mono w hs := op_mono w (.header h) hs
  sim w k hs := by
    rcases op_sim w k (.header h) hs with ⟨k', h1, h2⟩ | ⟨h1, h2⟩
    · left
      simp only [Writer.op, Prod.mk.injEq, WOut.unit.injEq] at h2
      exact ⟨k', h1, Prod.ext h2.1 h2.2⟩
    · exact .inr ⟨h1, h2⟩

theorem tameW_close : TameW (fun w => w.close) where
  mono w hs := op_mono w .close hs
  sim w k hs := by
    rcases op_sim w k .close hs with ⟨k', h1, h2⟩ | ⟨h1, h2⟩
    · left
      simp only [Writer.op, Prod.mk.injEq, WOut.unit.injEq] at h2
      exact ⟨k', h1, Prod.ext h2.1 h2.2⟩
    · exact .inr ⟨h1, h2⟩

theorem tameW_andThen {α β : Type} {f : Writer → Call α × Writer} {g : α → Writer → Call β × Writer}
    (hf : TameW f) (hg : ∀ a, TameW (g a)) : TameW (fun w => andThen (f w) g) where
  mono w hs := by
    obtain ⟨h1, h2⟩ := hf.mono w hs
    rcases h : f w with ⟨a | _ | _ | _, w'⟩ <;> rw [h] at h1 h2 <;> simp only [andThen]
    · obtain ⟨h3, h4⟩ := (hg a).mono w' h1
      exact ⟨h3, h2.trans h4⟩
    all_goals exact ⟨h1, h2⟩
  sim w k hs := by
    obtain ⟨h1, h2⟩ := hf.mono w hs
    rcases hf.sim w k hs with ⟨k', hk, e⟩ | ⟨⟨e, he⟩, hb, ho, hl, hlt⟩
    · simp only [e]
      rcases h : f w with ⟨a | _ | _ | _, w'⟩ <;> rw [h] at h1 h2 hk <;> simp only [andThen]
      · have := (hg a).sim w' k' h1
        simp only [] at hk
        rw [hk] at this
        rcases this with ⟨k2, j1, j2⟩ | j
        · exact .inl ⟨k2, by omega, j2⟩
        · exact .inr j
      all_goals exact .inl ⟨k', hk, rfl⟩
    · right
      rcases h' : f (w.on k) with ⟨_ | _ | _ | _, sb⟩ <;> rw [h'] at he hb ho hl <;> simp at he
      subst he
      simp only [andThen]
      refine ⟨⟨_, rfl⟩, hb, ?_⟩
      rcases h : f w with ⟨a | _ | _ | _, w'⟩ <;> rw [h] at h1 ho hlt <;> simp only []
      · have hm2 := ((hg a).mono w' h1).2
        exact ⟨ho.trans hm2, hl, Nat.lt_of_lt_of_le hlt hm2.length_le⟩
      all_goals exact ⟨ho, hl, hlt⟩

theorem tameW_ite {α : Type} {c : Prop} [Decidable c] {f g : Writer → Call α × Writer} (h : TameW f) (h' : TameW g) :
    TameW (fun w => if c then f w else g w) := by split <;> assumption

/-- `nw.Write(p)` as `io.Copy` looks at it -/
theorem tameW_write (p : Bytes) : TameW (fun w => andThen (w.write p) fun r w' =>
    match r with
    | (_, some e) => ((.err e : Call Nat), w')
    | (k, none) => if k ≠ p.length then (.err (.msg "short write"), w') else (.ok k, w')) where
  mono w hs := by
    have h := op_mono w (.write p) hs
    simp only [Writer.op] at h
    rcases hw : w.write p with ⟨⟨n, _ | e⟩ | _ | _ | _, w'⟩ <;> rw [hw] at h <;> simp only [andThen]
    · split <;> exact h
    all_goals exact h
  sim w k hs := by
    rcases op_sim w k (.write p) hs with ⟨k', h1, h2⟩ | ⟨⟨n, e, h1⟩, h2⟩
    · left
      simp only [Writer.op, Prod.mk.injEq, WOut.write.injEq] at h1 h2
      have h3 : (w.on k).write p = ((w.write p).1, (w.write p).2.on k') := Prod.ext h2.1 h2.2
      rw [h3]
      refine ⟨k', ?_⟩
      rcases hw : w.write p with ⟨⟨n, _ | e⟩ | _ | _ | _, w'⟩ <;> rw [hw] at h1 <;> simp only [andThen]
      · split <;> exact ⟨h1, rfl⟩
      all_goals exact ⟨h1, trivial⟩
    · right
      simp only [Writer.op] at h1 h2
      rcases hx : (w.on k).write p with ⟨r, wx⟩
      rw [hx] at h1 h2
      simp only [] at h1
      subst h1
      simp only [andThen]
      refine ⟨⟨_, rfl⟩, ?_⟩
      rcases hw : w.write p with ⟨⟨n', _ | e'⟩ | _ | _ | _, w'⟩ <;> rw [hw] at h2 <;> simp only []
      · split <;> exact h2
      all_goals exact h2

theorem tameW_copyTo : ∀ (ps : List Bytes) (n : Nat), TameW (fun w => copyTo w ps n)
  | [], n => tameW_ret _
  | p :: ps, n => by
    unfold copyTo
    refine tameW_ite (tameW_copyTo ps n) ?_
    have := tameW_andThen (tameW_write p) (g := fun k w' => copyTo w' ps (n + k)) fun k => tameW_copyTo ps (n + k)
    refine cast ?_ this
    congr 1
    funext w
    rcases hw : w.write p with ⟨⟨n', _ | e'⟩ | _ | _ | _, w'⟩ <;> simp only [andThen]
    by_cases hn : n' ≠ p.length
    · simp only [if_pos hn]
    · simp only [if_neg hn]

mutual
theorem tameW_dumpNode (filter : Option Filter) (path : Bytes) : ∀ (t : FNode) (sub : Bytes),
    TameW (fun w => dumpNode filter path t sub w)
  | .bad e, sub => by unfold dumpNode; exact tameW_ret _
  | .symlink t, sub => by unfold dumpNode; exact tameW_ite (tameW_ret _) (tameW_writeHeader _)
  | .directory es, sub => by
    unfold dumpNode
    exact tameW_ite (tameW_ret _) (tameW_andThen (tameW_writeHeader _) fun _ => tameW_dumpEntries filter path es sub)
  | .brokenLink e, sub => by unfold dumpNode; exact tameW_ite (tameW_ret _) (tameW_ret _)
  | .brokenDirectory e, sub => by
    unfold dumpNode
    exact tameW_ite (tameW_ret _) (tameW_andThen (tameW_writeHeader _) fun _ => tameW_ret _)
  | .regular exec size chunks fail, sub => by
    unfold dumpNode
    refine tameW_ite (tameW_ret _) (tameW_andThen (tameW_writeHeader _) fun _ =>
      tameW_andThen (tameW_copyTo chunks 0) fun n => ?_)
    cases fail with
    | some e => exact tameW_ret _
    | none => exact tameW_ite (tameW_ret _) (tameW_ret _)
theorem tameW_dumpEntries (filter : Option Filter) (path : Bytes) : ∀ (es : FEntries) (sub : Bytes),
    TameW (fun w => dumpEntries filter path es sub w)
  | .nil, sub => by unfold dumpEntries; exact tameW_ret _
  | .cons n t es, sub => by
    unfold dumpEntries
    exact tameW_andThen (tameW_dumpNode filter path t (pathJoin sub n)) fun _ => tameW_dumpEntries filter path es sub
end

end Verif.Nar
