import Verif.Model.SqliteRows
import Verif.Props.SqliteNix

/-!
# C151: queries return all rows or an error
-/

namespace Verif.Props
open Verif Verif.Sqlite Verif.Sqlite.Rows

namespace RowsProof
variable {R : Type}

theorem loop_eq (items : List R) (r : Rows R) (c : Conns) : loop items r c =
    match r.next c with
    | (false, r, c) => (.ok items, r, c)
    | (true, r, c) =>
      match r.scan with
      | .error e => (.err e, r, c)
      | .ok i => loop (items ++ [i]) r c := by
  rw [loop]
  split <;> rename_i h <;> simp only [h] <;> rfl

/-- the loop on rows that are open, with their connection taken -/
theorem loop_spec (l : List (Except Err R)) : ∀ (items : List R) (stop ce le : Option Err) (cur : Option (Except Err R)) (c : Conns),
    (∃ vs : List R, l = vs.map .ok ∧ loop items ⟨l, stop, ce, cur, le, false⟩ c =
      (.ok (items ++ vs), ⟨[], stop, ce, none, stop, true⟩, { c with used := c.used - 1 })) ∨
    (∃ (vs : List R) (e : Err) (l' : List (Except Err R)), l = vs.map .ok ++ .error e :: l' ∧ loop items ⟨l, stop, ce, cur, le, false⟩ c =
      (.err e, ⟨l', stop, ce, some (.error e), le, false⟩, c)) := by
  induction l with
  | nil =>
    intro items stop ce le cur c
    refine .inl ⟨[], rfl, ?_⟩
    rw [loop_eq]
    simp [Rows.next, Rows.close]
  | cons x l ih =>
    intro items stop ce le cur c
    rw [loop_eq]
    cases x with
    | error e => exact .inr ⟨[], e, l, rfl, by simp [Rows.next, Rows.scan]⟩
    | ok v =>
      rcases ih (items ++ [v]) stop ce le (some (.ok v)) c with ⟨vs, e1, e2⟩ | ⟨vs, e, l', e1, e2⟩
      · exact .inl ⟨v :: vs, by simp [e1], by simpa [Rows.next, Rows.scan] using e2⟩
      · exact .inr ⟨v :: vs, e, l', by simp [e1], by simpa [Rows.next, Rows.scan] using e2⟩

theorem map_ok_inj {a b : List R} (h : a.map (Except.ok (ε := Err)) = b.map .ok) : a = b := by
  induction a generalizing b with
  | nil => cases b with
    | nil => rfl
    | cons y b => cases h
  | cons x a ih => cases b with
    | nil => cases h
    | cons y b =>
      simp only [List.map_cons, List.cons.injEq, Except.ok.injEq] at h
      rw [h.1, ih h.2]

theorem no_error {vs l : List R} {e : Err} {l' : List (Except Err R)} (h : l.map (Except.ok (ε := Err)) = vs.map .ok ++ .error e :: l') :
    False := by
  have : (Except.error e : Except Err R) ∈ l.map .ok := by rw [h]; simp
  obtain ⟨v, _, h⟩ := List.mem_map.1 this
  cases h

end RowsProof
open RowsProof

/-- C151: a query for many rows returns a list exactly if there is a connection, the database accepted the query, every row could be scanned and the rows
ended without an error; the list is then that of all rows, in order. In all other cases it returns an error. -/
theorem C151_many {R : Type} (a : Except Err (Answer R)) (c : Conns) :
    (∀ l, (many a c).1 = .ok l ↔ c.used < c.max ∧ ∃ x, a = .ok x ∧ x.rows = l.map .ok ∧ x.stop = none) ∧
    (many a c).1 ≠ .panic := by
  unfold many queryContext
  by_cases hc : c.used < c.max
  · rw [if_pos hc]
    cases a with
    | error e => simp
    | ok x =>
      obtain ⟨rows, stop, ce⟩ := x
      simp only
      rcases loop_spec rows [] stop ce none none { c with used := c.used + 1 } with ⟨vs, e1, e2⟩ | ⟨vs, e, l', e1, e2⟩
      · rw [e2]
        simp only [Rows.close, if_true, Rows.err]
        subst e1
        cases stop with
        | none =>
          refine ⟨fun l => ?_, by simp⟩
          simp only [List.nil_append, Res.ok.injEq, Except.ok.injEq]
          constructor
          · rintro rfl; exact ⟨hc, _, rfl, rfl, rfl⟩
          · rintro ⟨_, x, rfl, h, _⟩; exact map_ok_inj h
        | some e =>
          refine ⟨fun l => ?_, by simp⟩
          simp only [Except.ok.injEq]
          constructor
          · intro h; cases h
          · rintro ⟨_, x, rfl, _, h⟩; cases h
      · rw [e2]
        refine ⟨fun l => ?_, by simp⟩
        simp only [Except.ok.injEq]
        constructor
        · intro h; cases h
        · rintro ⟨_, x, rfl, h, _⟩; exact (no_error (h.symm.trans e1)).elim
  · rw [if_neg hc]
    simp [hc]

/-- C151: a query for one row returns the first row, whatever comes after it, exactly if it could be scanned and the rows could be closed; `sql.ErrNoRows`
exactly if there is none and nothing failed (apart from a database that itself returns this error). -/
theorem C151_one {R : Type} (a : Except Err (Answer R)) (c : Conns) :
    (∀ v, (one a c).1 = .ok v ↔ c.used < c.max ∧ ∃ x l, a = .ok x ∧ x.rows = .ok v :: l ∧ x.closeErr = none) ∧
    (one a c).1 ≠ .panic ∧
    ((∃ x, a = .ok x ∧ x.rows = [] ∧ x.stop = none) → c.used < c.max → (one a c).1 = .err errNoRows) ∧
    (∀ e, (one a c).1 = .err e → e = errNoRows → (∃ x, a = .ok x ∧ x.rows = [] ∧ x.stop = none) ∨
      a = .error errNoRows ∨ ∃ x, a = .ok x ∧
        (x.stop = some errNoRows ∨ x.closeErr = some errNoRows ∨ x.rows.head? = some (.error errNoRows))) := by
  unfold one scanRow queryContext
  by_cases hc : c.used < c.max
  · rw [if_pos hc]
    cases a with
    | error e =>
      refine ⟨by simp, by simp, by simp, ?_⟩
      intro e' h1 h2
      simp only [Res.err.injEq] at h1
      subst h1 h2
      exact .inr (.inl rfl)
    | ok x =>
      obtain ⟨rows, stop, ce⟩ := x
      cases rows with
      | nil =>
        cases stop with
        | none => simp [Rows.next, Rows.close, Rows.err]
        | some e =>
          simp only [Rows.next, Rows.close, Rows.err]
          refine ⟨by simp, by simp, by simp, ?_⟩
          intro e' h1 h2
          simp only [Bool.false_eq_true, if_false, Res.err.injEq] at h1
          subst h1 h2
          exact .inr (.inr ⟨_, rfl, .inl rfl⟩)
      | cons y rows =>
        cases y with
        | error e =>
          simp only [Rows.next, Rows.scan]
          refine ⟨by simp, by simp, by simp, ?_⟩
          intro e' h1 h2
          simp only [Bool.false_eq_true, if_false, Res.err.injEq] at h1
          subst h1 h2
          exact .inr (.inr ⟨_, rfl, .inr (.inr rfl)⟩)
        | ok v =>
          cases ce with
          | none => simp [Rows.next, Rows.scan, Rows.close, hc]
          | some e =>
            simp only [Rows.next, Rows.scan, Rows.close]
            refine ⟨by simp, by simp, by simp, ?_⟩
            intro e' h1 h2
            simp only [Bool.false_eq_true, if_false, Res.err.injEq] at h1
            subst h1 h2
            exact .inr (.inr ⟨_, rfl, .inr (.inl rfl)⟩)
  · rw [if_neg hc]
    simp [hc, noConn, errNoRows]

/-- C151: every query gives back its connection, whatever the database does. So one connection is enough for any number of queries one after the other. -/
theorem C151_released {R : Type} (a : Except Err (Answer R)) (c : Conns) :
    (many a c).2 = c ∧ (one a c).2 = c ∧ ∀ b path, (pathFromHashPart b path c).2.2 = c := by
  have hone : ∀ {Q : Type} (b : Except Err (Answer Q)), (scanRow b c).2.2 = c := by
    intro Q b
    unfold scanRow queryContext
    by_cases hc : c.used < c.max
    · rw [if_pos hc]
      cases b with
      | error e => rfl
      | ok x =>
        obtain ⟨rows, stop, ce⟩ := x
        cases rows with
        | nil => cases stop <;> simp [Rows.next, Rows.close, Rows.err]
        | cons y rows => cases y <;> simp [Rows.next, Rows.scan, Rows.close]
    · rw [if_neg hc]
  refine ⟨?_, ?_, fun b path => ?_⟩
  · unfold many queryContext
    by_cases hc : c.used < c.max
    · rw [if_pos hc]
      cases a with
      | error e => rfl
      | ok x =>
        obtain ⟨rows, stop, ce⟩ := x
        simp only
        rcases loop_spec rows [] stop ce none none { c with used := c.used + 1 } with ⟨vs, e1, e2⟩ | ⟨vs, e, l', e1, e2⟩
        · rw [e2]
          cases stop <;> simp [Rows.close, Rows.err]
        · rw [e2]
          simp [Rows.close]
    · rw [if_neg hc]
  · have h := hone a
    unfold one
    split <;> rename_i h' <;> rw [h'] at h <;> exact h
  · have h := hone b
    unfold pathFromHashPart
    exact h

/-- C151: `QueryPathFromHashPart` returns its argument beside an error (unless it is the error of closing the rows), also beside `sql.ErrNoRows`; beside nil it returns the path of the first row. -/
theorem C151_hash_part (a : Except Err (Answer Bytes)) (path p : Bytes) (c c' : Conns) (e : Option Err)
    (h : pathFromHashPart a path c = (p, e, c')) :
    (e = none → (one a c).1 = .ok p) ∧
    (∀ x, e = some x → (one a c).1 = .err x ∧ (p = path ∨ ∃ y l, a = .ok y ∧ y.rows = .ok p :: l ∧ y.closeErr = some x)) := by
  unfold pathFromHashPart scanRow queryContext at h
  unfold one scanRow queryContext
  by_cases hc : c.used < c.max
  · rw [if_pos hc] at h ⊢
    cases a with
    | error e => simp at h; obtain ⟨rfl, rfl, _⟩ := h; simp
    | ok x =>
      obtain ⟨rows, stop, ce⟩ := x
      cases rows with
      | nil => cases stop <;> simp [Rows.next, Rows.close, Rows.err] at h ⊢ <;> obtain ⟨rfl, rfl, _⟩ := h <;> simp
      | cons y rows =>
        cases y with
        | error e => simp [Rows.next, Rows.scan] at h ⊢; obtain ⟨rfl, rfl, _⟩ := h; simp
        | ok v => cases ce <;> simp [Rows.next, Rows.scan, Rows.close] at h ⊢ <;> obtain ⟨rfl, rfl, _⟩ := h <;> simp
  · rw [if_neg hc] at h ⊢
    simp at h; obtain ⟨rfl, rfl, _⟩ := h; simp

/-- C151 for the references of a path: what `QueryReferences` returns on a database whose rows are those of the model of the statement (C78) is exactly
these, and if anything fails before the last row it is an error, not a part of them. -/
theorem C151_references (db : Nix.DB) (id : Int) (c : Conns) (hc : c.used < c.max) :
    (∀ ce, (many (.ok ⟨(Nix.queryReferences db id).map .ok, none, ce⟩) c).1 = .ok (Nix.queryReferences db id)) ∧
    (∀ n e ce, ∃ e', (many (.ok ⟨((Nix.queryReferences db id).map .ok).take n, some e, ce⟩) c).1 = .err e') ∧
    (∀ a b e st ce, ∃ e', (many (.ok (⟨a ++ .error e :: b, st, ce⟩ : Answer Bytes)) c).1 = .err e') := by
  have key : ∀ (x : Answer Bytes), (∀ l : List Bytes, ¬ (x.rows = l.map .ok ∧ x.stop = none)) → ∃ e', (many (.ok x) c).1 = .err e' := by
    intro x hx
    obtain ⟨h1, h2⟩ := C151_many (.ok x) c
    cases h : (many (.ok x) c).1 with
    | ok l =>
      obtain ⟨_, y, e, h3, h4⟩ := (h1 l).1 h
      cases e
      exact absurd ⟨h3, h4⟩ (hx l)
    | err e => exact ⟨e, rfl⟩
    | panic => exact absurd h h2
  refine ⟨fun ce => ((C151_many _ c).1 _).2 ⟨hc, _, rfl, rfl, rfl⟩, fun n e ce => key _ ?_, fun a b e st ce => key _ ?_⟩
  · rintro l ⟨_, h⟩; cases h
  · rintro l ⟨h, _⟩
    have : (Except.error e : Except Err Bytes) ∈ l.map .ok := by rw [← h]; simp
    obtain ⟨v, _, h⟩ := List.mem_map.1 this
    cases h

example : let db := Nix.run true Nix.empty sampleNix
    (many (.ok ⟨(Nix.queryReferences db 1).map .ok, none, none⟩) ⟨0, 1⟩) = (.ok [b!"/b", b!"/a"], ⟨0, 1⟩) ∧
    (many (.ok (⟨[.ok b!"/b"], some .io, none⟩ : Answer Bytes)) ⟨0, 1⟩) = (.err .io, ⟨0, 1⟩) ∧
    (many (.ok (⟨[.ok b!"/b", .error .io, .ok b!"/a"], none, none⟩ : Answer Bytes)) ⟨0, 1⟩) = (.err .io, ⟨0, 1⟩) ∧
    pathFromHashPart (.ok ⟨[], none, none⟩) b!"/nix/store/x" ⟨0, 1⟩ = (b!"/nix/store/x", some errNoRows, ⟨0, 1⟩) := by
  refine ⟨?_, ?_, ?_, ?_⟩
  · refine Prod.ext (((C151_many _ _).1 _).2 ⟨by decide, _, rfl, ?_, rfl⟩) (C151_released _ _).1
    rfl
  · simp [many, queryContext, loop_eq, Rows.next, Rows.scan, Rows.close, Rows.err]
  · simp [many, queryContext, loop_eq, Rows.next, Rows.scan, Rows.close]
  · rfl

end Verif.Props
