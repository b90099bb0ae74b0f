import Verif.Spec.NarDump
import Verif.Lemmas.NarWriterRun

namespace Verif.Nar
open Verif.Spec Verif.GoLib Verif.Wire

/-! ## The pieces of a file -/

theorem write_len {w w' : Writer} {p : Bytes} {k : Nat} (h : w.write p = (.ok (k, none), w')) :
    k = p.length := by
  have hs : ∀ (s s' : Sink) (n : Nat), s.write p = ((n, none), s') → n = p.length := by
    intro s s' n hw
    unfold Sink.write at hw
    split at hw
    · simp at hw; exact hw.1.symm
    · split at hw
      · simp at hw; exact hw.1.symm
      · simp at hw
  have hb : ∀ (bw bw' : BytesWriter) (s s' : Sink) (n : Nat),
      bw.write p s = ((n, none), bw', s') → n = p.length := by
    intro bw bw' s s' n hw
    unfold BytesWriter.write at hw
    split at hw
    · simp at hw
    · rcases hx : s.write p with ⟨⟨m, e⟩, s''⟩
      rw [hx] at hw
      simp at hw
      obtain ⟨⟨rfl, rfl⟩, _, _⟩ := hw
      exact hs _ _ _ hx
  unfold Writer.write at h
  split at h
  · simp at h
  · rename_i c hc
    split at h
    · rcases hx : c.bw.write p ⟨[], none⟩ with ⟨⟨m, e⟩, bw', s''⟩
      rw [hx] at h
      simp at h
      obtain ⟨⟨rfl, rfl⟩, _⟩ := h
      exact hb _ _ _ _ _ hx
    · rcases hx : c.bw.write p w.st.sink with ⟨⟨m, e⟩, bw', s''⟩
      rw [hx] at h
      simp at h
      obtain ⟨⟨rfl, rfl⟩, _⟩ := h
      exact hb _ _ _ _ _ hx

/-- the pieces that are written -/
def pieces (cs : List Bytes) : List Bytes := cs.filter (· ≠ [])

theorem pieces_flatten (cs : List Bytes) : (pieces cs).flatten = cs.flatten := by
  induction cs with
  | nil => rfl
  | cons p cs ih =>
    by_cases h : p = []
    · have : pieces (p :: cs) = pieces cs := List.filter_cons_of_neg (by simpa using h)
      rw [this, ih]; simp [h]
    · have : pieces (p :: cs) = p :: pieces cs := List.filter_cons_of_pos (by simpa using h)
      rw [this, List.flatten_cons, ih]; simp

theorem runsTo_head {w w' : Writer} {o : WOp} {os : List WOp} (h : RunsTo w (o :: os) w') :
    (w.op o).1.good = true ∧ RunsTo (w.op o).2 os w' := by
  obtain ⟨h1, h2⟩ := h
  exact ⟨h1 _ (by simp [Writer.run]), fun x hx => h1 x (by simp [Writer.run, hx]), by simpa [Writer.run] using h2⟩

theorem runsTo_split {w w' : Writer} {a b : List WOp} (h : RunsTo w (a ++ b) w') :
    ∃ w1, RunsTo w a w1 ∧ RunsTo w1 b w' := by
  obtain ⟨e1, e2⟩ := run_append' w a b
  refine ⟨(w.run a).2, ⟨fun o ho => h.1 o (by rw [e1]; simp [ho]), rfl⟩,
    fun o ho => h.1 o (by rw [e1]; simp [ho]), by rw [← e2]; exact h.2⟩

theorem good_write {r : Call (Nat × Option Err)} (h : WOut.good (.write r) = true) : ∃ k, r = .ok (k, none) := by
  unfold WOut.good at h
  split at h
  · simp_all
  · rename_i k heq; exact ⟨k, by simpa using heq⟩
  · simp at h

theorem good_unit {r : Call Unit} (h : WOut.good (.unit r) = true) : r = .ok () := by
  unfold WOut.good at h
  split at h
  · rename_i heq; simpa using heq
  · simp_all
  · simp at h

theorem copy_run (cs : List Bytes) : ∀ (w w' : Writer) (n : Nat),
    RunsTo w ((pieces cs).map .write) w' → copyTo w cs n = (.ok (n + cs.flatten.length), w') := by
  induction cs with
  | nil =>
    intro w w' n h
    simp only [pieces, List.filter_nil, List.map_nil] at h
    have : w = w' := h.2
    subst this
    rfl
  | cons p cs ih =>
    intro w w' n h
    unfold copyTo
    by_cases hp : p = []
    · rw [if_pos hp]
      unfold pieces at h
      rw [List.filter_cons_of_neg (by simpa using hp)] at h
      rw [ih w w' n h]
      simp [hp]
    · rw [if_neg hp]
      unfold pieces at h
      rw [List.filter_cons_of_pos (by simpa using hp), List.map_cons] at h
      obtain ⟨h1, h2⟩ := runsTo_head h
      rcases hx : w.write p with ⟨r, w1⟩
      simp only [Writer.op, hx] at h1 h2
      obtain ⟨k, rfl⟩ := good_write h1
      have hk := write_len hx
      simp only [andThen]
      rw [if_neg (by simpa using hk), ih w1 w' _ h2]
      simp only [List.flatten_cons, List.length_append]
      rw [hk, Nat.add_assoc]

theorem copy_len (cs : List Bytes) : ∀ (w w' : Writer) (n m : Nat),
    copyTo w cs n = (.ok m, w') → m = n + cs.flatten.length := by
  induction cs with
  | nil => intro w w' n m h; simp [copyTo] at h; simp [h.1]
  | cons p cs ih =>
    intro w w' n m h
    unfold copyTo at h
    split at h
    · rename_i hp
      rw [ih _ _ _ _ h]; simp [hp]
    · rcases hx : w.write p with ⟨r, w1⟩
      rw [hx] at h
      rcases r with ⟨k, _ | e⟩ | e | _ | _ <;> simp only [andThen, Prod.mk.injEq, reduceCtorEq, false_and] at h
      split at h
      · simp at h
      · rw [ih _ _ _ _ h]
        have := write_len hx
        simp; omega

/-! ## The calls a dump makes -/

mutual
/-- The entries a dump writes, with their pieces. -/
def FNode.plan (keep : Bytes → Bytes → Bool) (path : Bytes) : FNode → Bytes → List (Entry × List Bytes)
  | .regular x _ cs _, sub =>
    if keep (pathJoin path sub) b!"regular" then [(⟨sub, b!"regular", x, [], cs.flatten⟩, pieces cs)] else []
  | .symlink t, sub =>
    if keep (pathJoin path sub) b!"symlink" then [(⟨sub, b!"symlink", false, t, []⟩, [])] else []
  | .directory es, sub =>
    if keep (pathJoin path sub) b!"directory" then
      (⟨sub, b!"directory", false, [], []⟩, []) :: es.plan keep path sub else []
  | .brokenLink _, _ => []
  | .brokenDirectory _, _ => []
  | .bad _, _ => []
/-- see `FNode.plan` -/
def FEntries.plan (keep : Bytes → Bytes → Bool) (path : Bytes) : FEntries → Bytes → List (Entry × List Bytes)
  | .nil, _ => []
  | .cons n t es, sub => t.plan keep path (childPath sub n) ++ es.plan keep path sub
end

theorem rejects_keeps (filter : Option Filter) (p t : Bytes) : rejects filter p t = !keeps filter p t := by
  unfold rejects keeps
  cases filter <;> rfl

mutual
theorem dump_run (filter : Option Filter) (path : Bytes) (f : FNode) (cs : List Bytes)
    (hcs : ∀ c ∈ cs, Good c) (hok : f.Ok NameOk) (hd : f.Dumpable (keeps filter) path (absPath cs))
    (w w' : Writer) (h : RunsTo w (writeOps (f.plan (keeps filter) path (absPath cs))) w') :
    dumpNode filter path f (absPath cs) w = (.ok (), w') := by
  match f with
  | .bad e => exact absurd hd (by simp [FNode.Dumpable])
  | .brokenLink e =>
    simp only [FNode.Dumpable] at hd
    have hd' : keeps filter (pathJoin path (absPath cs)) typeSymlink = false := hd
    have : w = w' := h.2
    subst this
    unfold dumpNode
    rw [rejects_keeps, hd']
    rfl
  | .brokenDirectory e =>
    simp only [FNode.Dumpable] at hd
    have hd' : keeps filter (pathJoin path (absPath cs)) typeDirectory = false := hd
    have : w = w' := h.2
    subst this
    unfold dumpNode
    rw [rejects_keeps, hd']
    rfl
  | .symlink t =>
    unfold dumpNode
    rw [rejects_keeps]
    unfold FNode.plan at h
    show (if (!keeps filter (pathJoin path (absPath cs)) b!"symlink") = true then _ else _) = _
    cases hk : keeps filter (pathJoin path (absPath cs)) b!"symlink" with
    | false =>
      rw [hk] at h
      have : w = w' := h.2
      subst this; rfl
    | true =>
      rw [hk] at h
      simp only [if_true, writeOps, List.flatMap_cons, List.map_nil, List.flatMap_nil, List.append_nil] at h
      obtain ⟨h1, h2⟩ := runsTo_head h
      have h3 : (w.writeHeader ⟨absPath cs, typeSymlink, t, 0, false⟩).1 = .ok () := good_unit h1
      have h4 : (w.writeHeader ⟨absPath cs, typeSymlink, t, 0, false⟩).2 = w' := h2.2
      simp only [Bool.not_true, Bool.false_eq_true, if_false]
      exact Prod.ext h3 h4
  | .regular x size ps fl =>
    unfold dumpNode
    rw [rejects_keeps]
    unfold FNode.plan at h
    unfold FNode.Dumpable at hd
    show (if (!keeps filter (pathJoin path (absPath cs)) b!"regular") = true then _ else _) = _
    cases hk : keeps filter (pathJoin path (absPath cs)) b!"regular" with
    | false =>
      rw [hk] at h
      have : w = w' := h.2
      subst this; rfl
    | true =>
      rw [hk] at h hd
      obtain ⟨hf, hd⟩ := hd rfl
      simp only [if_true, writeOps, List.flatMap_cons, List.flatMap_nil, List.append_nil] at h
      obtain ⟨h1, h2⟩ := runsTo_head h
      subst hd hf
      have h3 : (w.writeHeader ⟨absPath cs, typeRegular, [], (ps.flatten.length : Int), x⟩).1 = .ok () := good_unit h1
      simp only [Bool.not_true, Bool.false_eq_true, if_false]
      have h4 : RunsTo (w.writeHeader ⟨absPath cs, typeRegular, [], (ps.flatten.length : Int), x⟩).2
        ((pieces ps).map .write) w' := h2
      rcases hx : w.writeHeader ⟨absPath cs, typeRegular, [], (ps.flatten.length : Int), x⟩ with ⟨r, w1⟩
      rw [hx] at h3 h4
      simp only at h3 h4
      subst h3
      simp only [andThen, copy_run ps w1 w' 0 h4]
      simp
  | .directory es =>
    unfold dumpNode
    rw [rejects_keeps]
    unfold FNode.plan at h
    unfold FNode.Dumpable at hd
    show (if (!keeps filter (pathJoin path (absPath cs)) b!"directory") = true then _ else _) = _
    cases hk : keeps filter (pathJoin path (absPath cs)) b!"directory" with
    | false =>
      rw [hk] at h
      have : w = w' := h.2
      subst this; rfl
    | true =>
      rw [hk] at h hd
      have hd := hd rfl
      simp only [if_true, writeOps, List.flatMap_cons, List.map_nil, List.cons_append, List.nil_append] at h
      obtain ⟨h1, h2⟩ := runsTo_head h
      have h3 : (w.writeHeader ⟨absPath cs, typeDirectory, [], 0, false⟩).1 = .ok () := good_unit h1
      simp only [Bool.not_true, Bool.false_eq_true, if_false]
      have h4 : RunsTo (w.writeHeader ⟨absPath cs, typeDirectory, [], 0, false⟩).2
        (writeOps (es.plan (keeps filter) path (absPath cs))) w' := h2
      rcases hx : w.writeHeader ⟨absPath cs, typeDirectory, [], 0, false⟩ with ⟨r, w1⟩
      rw [hx] at h3 h4
      simp only at h3 h4
      subst h3
      simp only [andThen]
      simp only [FNode.Ok] at hok
      exact dumpEntries_run filter path es cs hcs hok.2 hd w1 w' h4
theorem dumpEntries_run (filter : Option Filter) (path : Bytes) (es : FEntries) (cs : List Bytes)
    (hcs : ∀ c ∈ cs, Good c) (hok : es.Ok NameOk) (hd : es.Dumpable (keeps filter) path (absPath cs))
    (w w' : Writer) (h : RunsTo w (writeOps (es.plan (keeps filter) path (absPath cs))) w') :
    dumpEntries filter path es (absPath cs) w = (.ok (), w') := by
  match es with
  | .nil =>
    unfold FEntries.plan at h
    have : w = w' := h.2
    subst this
    unfold dumpEntries
    rfl
  | .cons n t es =>
    unfold FEntries.plan at h
    unfold FEntries.Dumpable at hd
    unfold FEntries.Ok at hok
    have hn := hok.1
    have hg : ∀ c ∈ cs ++ [n], Good c := by
      intro c hc
      rcases List.mem_append.1 hc with hc | hc
      · exact hcs c hc
      · rw [List.mem_singleton.1 hc]; exact nameOk_good hn
    rw [writeOps_append] at h
    obtain ⟨w1, h1, h2⟩ := runsTo_split h
    rw [← absPath_snoc cs n hcs] at h1 hd
    unfold dumpEntries
    rw [pathJoin_good hcs (nameOk_good hn), dump_run filter path t (cs ++ [n]) hg hok.2.1 hd.1 w w1 h1]
    simp only [andThen]
    exact dumpEntries_run filter path es cs hcs hok.2.2 hd.2 w1 w' h2
end

mutual
theorem dumpable_of_ok (filter : Option Filter) (path : Bytes) (f : FNode) (cs : List Bytes)
    (hcs : ∀ c ∈ cs, Good c) (hok : f.Ok NameOk) (w w' : Writer)
    (h : dumpNode filter path f (absPath cs) w = (.ok (), w')) :
    f.Dumpable (keeps filter) path (absPath cs) := by
  match f with
  | .bad e => simp [dumpNode] at h
  | .brokenLink e =>
    unfold FNode.Dumpable
    unfold dumpNode at h
    rw [rejects_keeps] at h
    cases hk : keeps filter (pathJoin path (absPath cs)) typeSymlink with
    | false => exact hk
    | true => rw [hk] at h; simp at h
  | .brokenDirectory e =>
    unfold FNode.Dumpable
    unfold dumpNode at h
    rw [rejects_keeps] at h
    cases hk : keeps filter (pathJoin path (absPath cs)) typeDirectory with
    | false => exact hk
    | true =>
      rw [hk] at h
      simp only [Bool.not_true, Bool.false_eq_true, if_false] at h
      rcases hx : w.writeHeader ⟨absPath cs, typeDirectory, [], 0, false⟩ with ⟨r, w1⟩
      rw [hx] at h
      rcases r with _ | e | _ | _ <;> simp [andThen] at h
  | .symlink t => simp [FNode.Dumpable]
  | .regular x size ps fl =>
    unfold FNode.Dumpable
    intro hk
    unfold dumpNode at h
    rw [rejects_keeps] at h
    have hk' : keeps filter (pathJoin path (absPath cs)) typeRegular = true := hk
    rw [hk'] at h
    simp only [Bool.not_true, Bool.false_eq_true, if_false] at h
    rcases hx : w.writeHeader ⟨absPath cs, typeRegular, [], size, x⟩ with ⟨r, w1⟩
    rw [hx] at h
    rcases r with _ | e | _ | _ <;> simp only [andThen, Prod.mk.injEq, reduceCtorEq, false_and] at h
    rcases hy : copyTo w1 ps 0 with ⟨r, w2⟩
    rw [hy] at h
    rcases r with m | e | _ | _ <;> simp only [Prod.mk.injEq, reduceCtorEq, false_and] at h
    cases fl with
    | some e => simp at h
    | none => ?_
    simp only at h
    split at h
    · simp at h
    · rename_i hne
      refine ⟨rfl, ?_⟩
      have := copy_len ps _ _ _ _ hy
      simp only [Nat.zero_add] at this
      rw [this] at hne
      exact (Classical.not_not.1 hne).symm
  | .directory es =>
    unfold FNode.Dumpable
    intro hk
    unfold dumpNode at h
    rw [rejects_keeps] at h
    have hk' : keeps filter (pathJoin path (absPath cs)) typeDirectory = true := hk
    rw [hk'] at h
    simp only [Bool.not_true, Bool.false_eq_true, if_false] at h
    rcases hx : w.writeHeader ⟨absPath cs, typeDirectory, [], 0, false⟩ with ⟨r, w1⟩
    rw [hx] at h
    rcases r with _ | e | _ | _ <;> simp only [andThen, Prod.mk.injEq, reduceCtorEq, false_and] at h
    simp only [FNode.Ok] at hok
    exact dumpable_of_entries filter path es cs hcs hok.2 w1 w' h
theorem dumpable_of_entries (filter : Option Filter) (path : Bytes) (es : FEntries) (cs : List Bytes)
    (hcs : ∀ c ∈ cs, Good c) (hok : es.Ok NameOk) (w w' : Writer)
    (h : dumpEntries filter path es (absPath cs) w = (.ok (), w')) :
    es.Dumpable (keeps filter) path (absPath cs) := by
  match es with
  | .nil => simp [FEntries.Dumpable]
  | .cons n t es =>
    unfold FEntries.Ok at hok
    have hn := hok.1
    have hg : ∀ c ∈ cs ++ [n], Good c := by
      intro c hc
      rcases List.mem_append.1 hc with hc | hc
      · exact hcs c hc
      · rw [List.mem_singleton.1 hc]; exact nameOk_good hn
    unfold dumpEntries at h
    rw [pathJoin_good hcs (nameOk_good hn)] at h
    rcases hx : dumpNode filter path t (absPath (cs ++ [n])) w with ⟨r, w1⟩
    rw [hx] at h
    rcases r with _ | e | _ | _ <;> simp only [andThen, Prod.mk.injEq, reduceCtorEq, false_and] at h
    unfold FEntries.Dumpable
    rw [← absPath_snoc cs n hcs]
    exact ⟨dumpable_of_ok filter path t (cs ++ [n]) hg hok.2.1 w w1 hx,
      dumpable_of_entries filter path es cs hcs hok.2.2 w1 w' h⟩
end

theorem copy_ran (cs : List Bytes) : ∀ (w w' : Writer) (n m : Nat), copyTo w cs n = (.ok m, w') →
    RunsTo w ((pieces cs).map .write) w' := by
  induction cs with
  | nil =>
    intro w w' n m h
    simp only [copyTo, Prod.mk.injEq] at h
    rw [← h.2]
    exact runsTo_nil _
  | cons p cs ih =>
    intro w w' n m h
    unfold copyTo at h
    by_cases hp : p = []
    · rw [if_pos hp] at h
      unfold pieces
      rw [List.filter_cons_of_neg (by simpa using hp)]
      exact ih _ _ _ _ h
    · rw [if_neg hp] at h
      unfold pieces
      rw [List.filter_cons_of_pos (by simpa using hp), List.map_cons]
      rcases hx : w.write p with ⟨r, w1⟩
      rw [hx] at h
      rcases r with ⟨k, _ | e⟩ | e | _ | _ <;> simp only [andThen, Prod.mk.injEq, reduceCtorEq, false_and] at h
      split at h
      · simp at h
      · refine runsTo_cons (w1 := w1) (by simp only [Writer.op, hx]) (by simp [Writer.op, hx, WOut.good]) (ih _ _ _ _ h)

mutual
theorem dump_ran (filter : Option Filter) (path : Bytes) (f : FNode) (cs : List Bytes)
    (hcs : ∀ c ∈ cs, Good c) (hok : f.Ok NameOk) (w w' : Writer)
    (h : dumpNode filter path f (absPath cs) w = (.ok (), w')) :
    RunsTo w (writeOps (f.plan (keeps filter) path (absPath cs))) w' := by
  have hd := dumpable_of_ok filter path f cs hcs hok w w' h
  match f with
  | .bad e => simp [dumpNode] at h
  | .brokenLink e =>
    simp only [FNode.Dumpable] at hd
    have hd' : keeps filter (pathJoin path (absPath cs)) typeSymlink = false := hd
    unfold dumpNode at h
    rw [rejects_keeps, hd'] at h
    simp only [Bool.not_false, if_true, Prod.mk.injEq, true_and] at h
    rw [← h]
    exact runsTo_nil _
  | .brokenDirectory e =>
    simp only [FNode.Dumpable] at hd
    have hd' : keeps filter (pathJoin path (absPath cs)) typeDirectory = false := hd
    unfold dumpNode at h
    rw [rejects_keeps, hd'] at h
    simp only [Bool.not_false, if_true, Prod.mk.injEq, true_and] at h
    rw [← h]
    exact runsTo_nil _
  | .symlink t =>
    unfold dumpNode at h
    rw [rejects_keeps] at h
    unfold FNode.plan
    replace h : (if (!keeps filter (pathJoin path (absPath cs)) b!"symlink") = true then _ else _) = _ := h
    cases hk : keeps filter (pathJoin path (absPath cs)) b!"symlink" with
    | false =>
      rw [hk] at h
      simp only [Bool.not_false, if_true, Prod.mk.injEq, true_and] at h
      rw [← h]
      exact runsTo_nil _
    | true =>
      rw [hk] at h
      simp only [Bool.not_true, Bool.false_eq_true, if_false] at h
      refine runsTo_cons (w1 := w') ?_ ?_ (runsTo_nil _)
      · show (w.writeHeader ⟨absPath cs, typeSymlink, t, 0, false⟩).2 = w'
        rw [h]
      · show WOut.good (.unit (w.writeHeader ⟨absPath cs, typeSymlink, t, 0, false⟩).1) = true
        rw [h]
        rfl
  | .regular x size ps fl =>
    unfold dumpNode at h
    rw [rejects_keeps] at h
    unfold FNode.plan
    unfold FNode.Dumpable at hd
    replace h : (if (!keeps filter (pathJoin path (absPath cs)) b!"regular") = true then _ else _) = _ := h
    cases hk : keeps filter (pathJoin path (absPath cs)) b!"regular" with
    | false =>
      rw [hk] at h
      simp only [Bool.not_false, if_true, Prod.mk.injEq, true_and] at h
      rw [← h]
      exact runsTo_nil _
    | true =>
      rw [hk] at h hd
      obtain ⟨hf, hd⟩ := hd rfl
      subst hd hf
      simp only [Bool.not_true, Bool.false_eq_true, if_false] at h
      rcases hx : w.writeHeader ⟨absPath cs, typeRegular, [], (ps.flatten.length : Int), x⟩ with ⟨r, w1⟩
      rw [hx] at h
      rcases r with _ | e | _ | _ <;> simp only [andThen, Prod.mk.injEq, reduceCtorEq, false_and] at h
      rcases hy : copyTo w1 ps 0 with ⟨r, w2⟩
      rw [hy] at h
      rcases r with m | e | _ | _ <;> simp only [Prod.mk.injEq, reduceCtorEq, false_and] at h
      have hc := copy_ran ps _ _ _ _ hy
      split at h
      · simp at h
      · simp only [Prod.mk.injEq, true_and] at h
        subst h
        simp only [if_true, writeOps, List.flatMap_cons, List.flatMap_nil, List.append_nil]
        refine runsTo_cons (w1 := w1) ?_ ?_ hc
        · show (w.writeHeader ⟨absPath cs, typeRegular, [], (ps.flatten.length : Int), x⟩).2 = w1
          rw [hx]
        · show WOut.good (.unit (w.writeHeader ⟨absPath cs, typeRegular, [], (ps.flatten.length : Int), x⟩).1) = true
          rw [hx]
          rfl
  | .directory es =>
    unfold dumpNode at h
    rw [rejects_keeps] at h
    unfold FNode.plan
    replace h : (if (!keeps filter (pathJoin path (absPath cs)) b!"directory") = true then _ else _) = _ := h
    cases hk : keeps filter (pathJoin path (absPath cs)) b!"directory" with
    | false =>
      rw [hk] at h
      simp only [Bool.not_false, if_true, Prod.mk.injEq, true_and] at h
      rw [← h]
      exact runsTo_nil _
    | true =>
      rw [hk] at h
      simp only [Bool.not_true, Bool.false_eq_true, if_false] at h
      rcases hx : w.writeHeader ⟨absPath cs, typeDirectory, [], 0, false⟩ with ⟨r, w1⟩
      rw [hx] at h
      rcases r with _ | e | _ | _ <;> simp only [andThen, Prod.mk.injEq, reduceCtorEq, false_and] at h
      simp only [FNode.Ok] at hok
      simp only [if_true, writeOps, List.flatMap_cons, List.map_nil, List.cons_append, List.nil_append]
      refine runsTo_cons (w1 := w1) ?_ ?_ (dumpEntries_ran filter path es cs hcs hok.2 w1 w' h)
      · show (w.writeHeader ⟨absPath cs, typeDirectory, [], 0, false⟩).2 = w1
        rw [hx]
      · show WOut.good (.unit (w.writeHeader ⟨absPath cs, typeDirectory, [], 0, false⟩).1) = true
        rw [hx]
        rfl
theorem dumpEntries_ran (filter : Option Filter) (path : Bytes) (es : FEntries) (cs : List Bytes)
    (hcs : ∀ c ∈ cs, Good c) (hok : es.Ok NameOk) (w w' : Writer)
    (h : dumpEntries filter path es (absPath cs) w = (.ok (), w')) :
    RunsTo w (writeOps (es.plan (keeps filter) path (absPath cs))) w' := by
  match es with
  | .nil =>
    simp only [dumpEntries, Prod.mk.injEq, true_and] at h
    rw [← h]
    exact runsTo_nil _
  | .cons n t es =>
    unfold FEntries.Ok at hok
    have hn := hok.1
    have hg : ∀ c ∈ cs ++ [n], Good c := by
      intro c hc
      rcases List.mem_append.1 hc with hc | hc
      · exact hcs c hc
      · rw [List.mem_singleton.1 hc]; exact nameOk_good hn
    unfold dumpEntries at h
    rw [pathJoin_good hcs (nameOk_good hn)] at h
    rcases hx : dumpNode filter path t (absPath (cs ++ [n])) w with ⟨r, w1⟩
    rw [hx] at h
    rcases r with _ | e | _ | _ <;> simp only [andThen, Prod.mk.injEq, reduceCtorEq, false_and] at h
    unfold FEntries.plan
    rw [writeOps_append, ← absPath_snoc cs n hcs]
    exact (dump_ran filter path t (cs ++ [n]) hg hok.2.1 w w1 hx).append
      (dumpEntries_ran filter path es cs hcs hok.2.2 w1 w' h)
end

/-! ## The tree that is dumped -/

mutual
theorem plan_entries (keep : Bytes → Bytes → Bool) (path : Bytes) (f : FNode) (sub : Bytes) :
    (f.plan keep path sub).map (·.1) =
      (match f.prune keep path sub with
        | some t => t.entriesAt sub
        | none => []) ∧
    ∀ e ∈ f.plan keep path sub, e.2.flatten = e.1.contents := by
  match f with
  | .bad e => simp [FNode.plan, FNode.prune]
  | .brokenLink e => simp [FNode.plan, FNode.prune]
  | .brokenDirectory e => simp [FNode.plan, FNode.prune]
  | .symlink t =>
    unfold FNode.plan FNode.prune
    split <;> simp [Tree.entriesAt]
  | .regular x s cs _ =>
    unfold FNode.plan FNode.prune
    split <;> simp [Tree.entriesAt, pieces_flatten]
  | .directory es =>
    unfold FNode.plan FNode.prune
    obtain ⟨h1, h2⟩ := plan_entries' keep path es sub
    split
    · simp only [Tree.entriesAt, List.map_cons, h1, true_and, List.mem_cons, forall_eq_or_imp]
      exact ⟨rfl, h2⟩
    · simp
theorem plan_entries' (keep : Bytes → Bytes → Bool) (path : Bytes) (es : FEntries) (sub : Bytes) :
    (es.plan keep path sub).map (·.1) = (es.prune keep path sub).entriesAt sub ∧
    ∀ e ∈ es.plan keep path sub, e.2.flatten = e.1.contents := by
  match es with
  | .nil => simp [FEntries.plan, FEntries.prune, Entries.entriesAt]
  | .cons n t es =>
    unfold FEntries.plan FEntries.prune
    obtain ⟨h1, h2⟩ := plan_entries keep path t (childPath sub n)
    obtain ⟨h3, h4⟩ := plan_entries' keep path es sub
    constructor
    · rw [List.map_append, h1, h3]
      cases t.prune keep path (childPath sub n) <;> simp [Entries.entriesAt]
    · intro e he
      rcases List.mem_append.1 he with he | he
      · exact h2 e he
      · exact h4 e he
end

theorem prune_names (keep : Bytes → Bytes → Bool) (path : Bytes) : ∀ (es : FEntries) (sub : Bytes),
    (es.prune keep path sub).names.Sublist es.names
  | .nil, sub => by simp [FEntries.prune, Entries.names, FEntries.names]
  | .cons n t es, sub => by
    unfold FEntries.prune FEntries.names
    have := prune_names keep path es sub
    split
    · unfold Entries.names; exact this.cons_cons n
    · exact this.cons n

mutual
theorem prune_all {P : Bytes → Prop} (keep : Bytes → Bytes → Bool) (path : Bytes) (f : FNode) (sub : Bytes)
    (hok : f.Ok P) (t : Tree) (h : f.prune keep path sub = some t) : t.All P NodeWr := by
  match f with
  | .bad e => simp [FNode.prune] at h
  | .brokenLink e => simp [FNode.prune] at h
  | .brokenDirectory e => simp [FNode.prune] at h
  | .symlink t =>
    unfold FNode.prune at h
    split at h <;> simp at h
    subst h
    simpa [Tree.All, NodeWr, FNode.Ok] using hok
  | .regular x s cs _ =>
    unfold FNode.prune at h
    split at h <;> simp at h
    subst h
    simp only [FNode.Ok] at hok
    simpa [Tree.All, NodeWr] using hok
  | .directory es =>
    unfold FNode.prune at h
    split at h <;> simp at h
    subst h
    simp only [FNode.Ok] at hok
    unfold Tree.All
    exact ⟨trivial, hok.1.sublist (prune_names keep path es sub), prune_all' keep path es sub hok.2⟩
theorem prune_all' {P : Bytes → Prop} (keep : Bytes → Bytes → Bool) (path : Bytes) (es : FEntries) (sub : Bytes)
    (hok : es.Ok P) : (es.prune keep path sub).All P NodeWr := by
  match es with
  | .nil => simp [FEntries.prune, Entries.All]
  | .cons n t es =>
    unfold FEntries.Ok at hok
    unfold FEntries.prune
    split
    · rename_i t' ht
      unfold Entries.All
      exact ⟨hok.1, prune_all keep path t _ hok.2.1 t' ht, prune_all' keep path es sub hok.2.2⟩
    · exact prune_all' keep path es sub hok.2.2
end

mutual
theorem FNode.Ok.mono {P Q : Bytes → Prop} (hpq : ∀ n, P n → Q n) (f : FNode) (h : f.Ok P) : f.Ok Q := by
  match f with
  | .bad _ => simp [FNode.Ok]
  | .brokenLink _ => simp [FNode.Ok]
  | .brokenDirectory _ => simp [FNode.Ok]
  | .symlink _ => simpa [FNode.Ok] using h
  | .regular _ _ _ _ => unfold FNode.Ok at h ⊢; exact h
  | .directory es =>
    unfold FNode.Ok at h ⊢
    exact ⟨h.1, FEntries.Ok.mono hpq es h.2⟩
theorem FEntries.Ok.mono {P Q : Bytes → Prop} (hpq : ∀ n, P n → Q n) (es : FEntries) (h : es.Ok P) : es.Ok Q := by
  match es with
  | .nil => simp [FEntries.Ok]
  | .cons n t es =>
    unfold FEntries.Ok at h ⊢
    exact ⟨hpq n h.1, FNode.Ok.mono hpq t h.2.1, FEntries.Ok.mono hpq es h.2.2⟩
end

end Verif.Nar
