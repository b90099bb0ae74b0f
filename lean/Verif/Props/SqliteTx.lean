import Verif.Spec.SqliteTx
import Verif.Props.SqliteNix

/-!
# C150: queries inside and outside of transactions
-/

namespace Verif.Props
open Verif Verif.Sqlite Verif.Sqlite.Tx

namespace TxProof
variable {D A : Type}

theorem queries_db (via : List Nat) : (queries via).db = match via.getLast? with
    | none => .db
    | some i => .tx i := by
  have key : ∀ (via : List Nat) (q : Queries), (via.foldl Queries.withTx q).db = match via.getLast? with
      | none => q.db
      | some i => .tx i := by
    intro via
    induction via with
    | nil => intro q; rfl
    | cons i via ih =>
      intro q
      rw [List.foldl_cons, ih]
      cases via with
      | nil => rfl
      | cons j via => rw [List.getLast?_cons_cons]; cases h : (j :: via).getLast? with
        | none => simp at h
        | some k => rfl
  exact key via _

theorem queries_isDb {via : List Nat} (h : (queries via).db = .db) : via = [] := by
  rw [queries_db] at h
  cases e : via.getLast? with
  | none => simpa using e
  | some i => rw [e] at h; cases h

theorem queries_isTx {via : List Nat} {i : Nat} (h : (queries via).db = .tx i) : via.getLast? = some i := by
  rw [queries_db] at h
  cases e : via.getLast? with
  | none => rw [e] at h; cases h
  | some j => rw [e] at h; cases h; rfl

theorem after_append (d : D) (a b : Calls D A) : after d (a ++ b) = after (after d a) b := by
  induction a generalizing d with
  | nil => rfl
  | cons c a ih => exact ih _

theorem alone_append (d : D) (a b : Calls D A) : Alone d (a ++ b) ↔ Alone d a ∧ Alone (after d a) b := by
  induction a generalizing d with
  | nil => simp [Alone, after]
  | cons c a ih => simp only [List.cons_append, Alone, after, ih, and_assoc]

theorem callsIn_append (i : Nat) (h h' : List (Ev D A)) : callsIn i (h ++ h') = callsIn i h ++ callsIn i h' := by
  induction h with
  | nil => rfl
  | cons e h ih =>
    cases e with
    | exec via st r =>
      cases r with
      | none => exact ih
      | some r =>
        simp only [List.cons_append, callsIn, ih]
        split <;> rfl
    | _ => exact ih

theorem lasting_append (past h h' : List (Ev D A)) :
    lasting past (h ++ h') = lasting past h ++ lasting (past ++ h) h' := by
  induction h generalizing past with
  | nil => simp [lasting]
  | cons e h ih => simp [lasting, ih, List.append_assoc]

/-- The state after a history. -/
def stateAt (d : D) (h : List (Ev D A)) : D := after d (lasting [] h)

/-- What is known of a transaction. -/
def Known (d : D) (h : List (Ev D A)) (s : Sys D) (i : Nat) : Prop :=
  match s.txs i with
  | .unused => callsIn i h = []
  | .fresh => callsIn i h = [] ∧ Ev.begin i ∈ h
  | .active v c w => ∃ h0 h1, h = h0 ++ h1 ∧ Ev.begin i ∈ h0 ∧ callsIn i h0 = [] ∧
      Alone (stateAt d h0) (callsIn i h) ∧ v = after (stateAt d h0) (callsIn i h) ∧ c ≤ s.changes ∧
      (c = s.changes → s.committed = stateAt d h0) ∧ w = (callsIn i h).any (·.1.write) ∧
      (w = true ↔ s.writer = some i) ∧ (w = true → c = s.changes)
  | .over => ∃ h0 h1, h = h0 ++ h1 ∧ Ev.begin i ∈ h0 ∧ callsIn i h0 = [] ∧ Alone (stateAt d h0) (callsIn i h)

structure Inv (d : D) (h : List (Ev D A)) (s : Sys D) : Prop where
  alone : Alone d (lasting [] h)
  committed : s.committed = stateAt d h
  known : ∀ i, Known d h s i
  writer : ∀ i, s.writer = some i → ∃ v c, s.txs i = .active v c true

theorem stateAt_snoc (d : D) (h : List (Ev D A)) (e : Ev D A) :
    stateAt d (h ++ [e]) = after (stateAt d h) (added h e) := by
  unfold stateAt
  rw [lasting_append, after_append]
  simp [lasting]

theorem alone_snoc {d : D} {h : List (Ev D A)} {e : Ev D A} (h1 : Alone d (lasting [] h))
    (h2 : Alone (stateAt d h) (added h e)) : Alone d (lasting [] (h ++ [e])) := by
  rw [lasting_append, alone_append]
  simpa [lasting] using ⟨h1, h2⟩

/-- an event that is no call in the transaction leaves what is known of it, if the state of the system is what it was for it -/
theorem known_keep {d : D} {h : List (Ev D A)} {s s' : Sys D} {e : Ev D A} {i : Nat} (hk : Known d h s i)
    (ht : s'.txs i = s.txs i) (hc : callsIn i [e] = []) (hle : s.changes ≤ s'.changes)
    (hcom : s'.changes = s.changes → s'.committed = s.committed)
    (hw : s'.writer = some i ↔ s.writer = some i) (hwc : s.writer = some i → s'.changes = s.changes) :
    Known d (h ++ [e]) s' i := by
  unfold Known at hk ⊢
  rw [ht]
  have e0 : callsIn i (h ++ [e]) = callsIn i h := by rw [callsIn_append, hc, List.append_nil]
  rw [e0]
  cases hs : s.txs i with
  | unused => rw [hs] at hk; exact hk
  | fresh => rw [hs] at hk; exact ⟨hk.1, List.mem_append_left _ hk.2⟩
  | over =>
    rw [hs] at hk
    obtain ⟨h0, h1, rfl, k⟩ := hk
    exact ⟨h0, h1 ++ [e], by simp, k⟩
  | active v c w =>
    rw [hs] at hk
    obtain ⟨h0, h1, rfl, k1, k2, k3, k4, k5, k6, k7, k8, k9⟩ := hk
    refine ⟨h0, h1 ++ [e], by simp, k1, k2, k3, k4, Nat.le_trans k5 hle, ?_, k7, k8.trans hw.symm, ?_⟩
    · intro hcc
      have : s'.changes = s.changes := by omega
      rw [hcom this]
      exact k6 (by omega)
    · intro hww
      rw [hwc (k8.1 hww)]
      exact k9 hww

/-- a transaction that ends keeps what it saw -/
theorem known_over {d : D} {h : List (Ev D A)} {s s' : Sys D} {e : Ev D A} {i : Nat} (hk : Known d h s i)
    (hu : s.txs i ≠ .unused) (ht : s'.txs i = .over) (hc : callsIn i [e] = []) : Known d (h ++ [e]) s' i := by
  unfold Known at hk ⊢
  rw [ht]
  have e0 : callsIn i (h ++ [e]) = callsIn i h := by rw [callsIn_append, hc, List.append_nil]
  rw [e0]
  cases hs : s.txs i with
  | unused => exact absurd hs hu
  | fresh =>
    rw [hs] at hk
    refine ⟨h, [e], rfl, hk.2, hk.1, ?_⟩
    rw [hk.1]; trivial
  | over =>
    rw [hs] at hk
    obtain ⟨h0, h1, rfl, k⟩ := hk
    exact ⟨h0, h1 ++ [e], by simp, k⟩
  | active v c w =>
    rw [hs] at hk
    obtain ⟨h0, h1, rfl, k1, k2, k3, _⟩ := hk
    exact ⟨h0, h1 ++ [e], by simp, k1, k2, k3⟩

/-- what is known of a transaction at its next call -/
theorem known_view {d : D} {h : List (Ev D A)} {s : Sys D} {i : Nat} {v : D} {c : Nat} {w : Bool} (hi : Inv d h s)
    (hv : s.view i = some (v, c, w)) :
    ∃ h0 h1, h = h0 ++ h1 ∧ Ev.begin i ∈ h0 ∧ callsIn i h0 = [] ∧
      Alone (stateAt d h0) (callsIn i h) ∧ v = after (stateAt d h0) (callsIn i h) ∧ c ≤ s.changes ∧
      (c = s.changes → s.committed = stateAt d h0) ∧ w = (callsIn i h).any (·.1.write) ∧
      (w = true ↔ s.writer = some i) ∧ (w = true → c = s.changes) := by
  have hk := hi.known i
  unfold Known at hk
  unfold Sys.view at hv
  cases hs : s.txs i with
  | unused => rw [hs] at hv; cases hv
  | over => rw [hs] at hv; cases hv
  | fresh =>
    rw [hs] at hv hk
    cases hv
    obtain ⟨k1, k2⟩ := hk
    refine ⟨h, [], by simp, k2, k1, by rw [k1]; trivial, by rw [k1]; exact hi.committed, Nat.le_refl _, fun _ => hi.committed,
      by rw [k1]; rfl, ?_, by simp⟩
    simp only [Bool.false_eq_true, false_iff]
    intro hw
    obtain ⟨v, c, e⟩ := hi.writer i hw
    rw [hs] at e; cases e
  | active v' c' w' =>
    rw [hs] at hv hk
    cases hv
    exact hk

theorem callsIn_exec_self {i : Nat} {via : List Nat} (h : via.getLast? = some i) (st : Stmt D A) (r : A) :
    callsIn i [Ev.exec via st (some r)] = [(st, r)] := by
  simp [callsIn, h]

theorem callsIn_exec_other {i : Nat} {via : List Nat} (h : via.getLast? ≠ some i) (st : Stmt D A) (r : A) :
    callsIn i [Ev.exec via st (some r)] = [] := by
  simp [callsIn, h]

theorem added_tx {via : List Nat} {i : Nat} (h : via.getLast? = some i) (hi : List (Ev D A)) (st : Stmt D A) (r : Option A) :
    added hi (.exec via st r) = [] := by
  cases via with
  | nil => simp at h
  | cons j via => rfl

theorem set_self (s : Sys D) (i : Nat) (t : TxState D) : (s.set i t).txs i = t := by simp [Sys.set]

theorem set_other (s : Sys D) {i j : Nat} (t : TxState D) (h : j ≠ i) : (s.set i t).txs j = s.txs j := by simp [Sys.set, h]

theorem inv_step {d : D} {h : List (Ev D A)} {s s' : Sys D} {e : Ev D A} (hi : Inv d h s) (hs : Step s e s') :
    Inv d (h ++ [e]) s' := by
  cases hs with
  | @begin i hu =>
    refine ⟨alone_snoc hi.alone trivial, ?_, ?_, ?_⟩
    · rw [stateAt_snoc]; exact hi.committed
    · intro j
      by_cases hj : j = i
      · subst hj
        have hk := hi.known j
        unfold Known at hk ⊢
        rw [set_self]
        rw [hu] at hk
        refine ⟨?_, by simp⟩
        rw [callsIn_append, hk]; rfl
      · exact known_keep (hi.known j) (set_other _ _ hj) rfl (Nat.le_refl _) (fun _ => rfl) Iff.rfl (fun _ => rfl)
    · intro j hj
      obtain ⟨v, c, e⟩ := hi.writer j hj
      refine ⟨v, c, ?_⟩
      rw [set_other _ _ (by rintro rfl; rw [hu] at e; cases e)]
      exact e
  | @fails via st =>
    refine ⟨alone_snoc hi.alone ?_, ?_, ?_, hi.writer⟩
    · cases via <;> trivial
    · rw [stateAt_snoc]
      cases via <;> exact hi.committed
    · intro j
      exact known_keep (hi.known j) rfl rfl (Nat.le_refl _) (fun _ => rfl) Iff.rfl (fun _ => rfl)
  | @read via st hq hw =>
    obtain rfl := queries_isDb hq
    refine ⟨alone_snoc hi.alone ?_, ?_, ?_, hi.writer⟩
    · rw [← hi.committed]; exact ⟨rfl, trivial⟩
    · rw [stateAt_snoc, ← hi.committed]
      exact (st.select hw _).symm
    · intro j
      exact known_keep (hi.known j) rfl (callsIn_exec_other (by simp) _ _) (Nat.le_refl _) (fun _ => rfl) Iff.rfl (fun _ => rfl)
  | @write via st hq hw hn =>
    obtain rfl := queries_isDb hq
    refine ⟨alone_snoc hi.alone ?_, ?_, ?_, ?_⟩
    · rw [← hi.committed]; exact ⟨rfl, trivial⟩
    · rw [stateAt_snoc, ← hi.committed]; rfl
    · intro j
      refine known_keep (hi.known j) rfl (callsIn_exec_other (by simp) _ _) (Nat.le_succ _) ?_ Iff.rfl ?_
      · intro hc; exact absurd hc (by simp)
      · intro hw; rw [hn] at hw; cases hw
    · intro j hj; exact hi.writer j hj
  | @txRead via st i v c w hq hw hv =>
    have hl := queries_isTx hq
    refine ⟨alone_snoc hi.alone ?_, ?_, ?_, ?_⟩
    · rw [added_tx hl]; trivial
    · rw [stateAt_snoc, added_tx hl]; exact hi.committed
    · intro j
      by_cases hj : j = i
      · subst hj
        obtain ⟨h0, h1, rfl, k1, k2, k3, k4, k5, k6, k7, k8, k9⟩ := known_view hi hv
        unfold Known
        rw [set_self]
        refine ⟨h0, h1 ++ [Ev.exec via st (some (st.run v).1)], by simp, k1, k2, ?_, ?_, k5, k6, ?_, k8, k9⟩
        · rw [callsIn_append, callsIn_exec_self hl, alone_append]
          refine ⟨k3, ?_, trivial⟩
          rw [← k4]
        · rw [callsIn_append, callsIn_exec_self hl, after_append, ← k4]
          exact (st.select hw _).symm
        · rw [callsIn_append, callsIn_exec_self hl, List.any_append, ← k7]
          simp [hw]
      · exact known_keep (hi.known j) (set_other _ _ hj) (callsIn_exec_other (by rw [hl]; simpa using Ne.symm hj) _ _) (Nat.le_refl _)
          (fun _ => rfl) Iff.rfl (fun _ => rfl)
    · intro j hj
      obtain ⟨v', c', e⟩ := hi.writer j hj
      by_cases hji : j = i
      · subst hji
        rw [set_self]
        have : w = true := by
          unfold Sys.view at hv
          rw [e] at hv
          cases hv; rfl
        exact ⟨v, c, by rw [this]⟩
      · exact ⟨v', c', by rw [set_other _ _ hji]; exact e⟩
  | @txWrite via st i v c w hq hw hv hor =>
    have hl := queries_isTx hq
    obtain ⟨h0, h1, rfl, k1, k2, k3, k4, k5, k6, k7, k8, k9⟩ := known_view hi hv
    have hcc : c = s.changes := by
      rcases hor with h | h
      · exact k9 (k8.2 h)
      · exact h.2
    refine ⟨alone_snoc hi.alone ?_, ?_, ?_, ?_⟩
    · rw [added_tx hl]; trivial
    · rw [stateAt_snoc, added_tx hl]; exact hi.committed
    · intro j
      by_cases hj : j = i
      · subst hj
        unfold Known
        simp only [set_self]
        refine ⟨h0, h1 ++ [Ev.exec via st (some (st.run v).1)], by simp, k1, k2, ?_, ?_, k5, k6, ?_, by simp, fun _ => hcc⟩
        · rw [callsIn_append, callsIn_exec_self hl, alone_append]
          refine ⟨k3, ?_, trivial⟩
          rw [← k4]
        · rw [callsIn_append, callsIn_exec_self hl, after_append, ← k4]
          rfl
        · rw [callsIn_append, callsIn_exec_self hl, List.any_append]
          simp [hw]
      · have hnj : s.writer ≠ some j := by
          intro h
          rcases hor with h' | h'
          · rw [h] at h'; exact hj (by simpa using h')
          · rw [h] at h'; cases h'.1
        refine known_keep (hi.known j) (set_other _ _ hj) (callsIn_exec_other (by rw [hl]; simpa using Ne.symm hj) _ _) (Nat.le_refl _)
          (fun _ => rfl) ?_ (fun h => absurd h hnj)
        simp only [Option.some.injEq]
        exact ⟨fun h => absurd h.symm hj, fun h => absurd h hnj⟩
    · intro j hj
      simp only [Option.some.injEq] at hj
      subst hj
      exact ⟨_, _, set_self _ _ _⟩
  | @commitNothing i hx =>
    have hnw : (callsIn i h).any (·.1.write) = false := by
      have hk := hi.known i
      unfold Known at hk
      rcases hx with hx | ⟨v, c, hx⟩
      · rw [hx] at hk; rw [hk.1]; rfl
      · rw [hx] at hk
        obtain ⟨_, _, _, _, _, _, _, _, _, k7, _⟩ := hk
        exact k7.symm
    have ha : added h (.commit i true : Ev D A) = [] := by simp only [added, hnw]; rfl
    refine ⟨alone_snoc hi.alone ?_, ?_, ?_, ?_⟩
    · rw [ha]; trivial
    · rw [stateAt_snoc, ha]; exact hi.committed
    · intro j
      by_cases hj : j = i
      · subst hj
        refine known_over (hi.known j) ?_ (set_self _ _ _) rfl
        rcases hx with hx | ⟨v, c, hx⟩ <;> rw [hx] <;> simp
      · exact known_keep (hi.known j) (set_other _ _ hj) rfl (Nat.le_refl _) (fun _ => rfl) Iff.rfl (fun _ => rfl)
    · intro j hj
      obtain ⟨v, c, e⟩ := hi.writer j hj
      refine ⟨v, c, ?_⟩
      rw [set_other _ _ ?_]
      · exact e
      · rintro rfl
        rcases hx with hx | ⟨v, c, hx⟩ <;> rw [hx] at e <;> cases e
  | @commit i v c hx =>
    have hk := hi.known i
    unfold Known at hk
    rw [hx] at hk
    obtain ⟨h0, h1, eh, k1, k2, k3, k4, k5, k6, k7, k8, k9⟩ := hk
    have ha : added h (.commit i true : Ev D A) = callsIn i h := by simp only [added, ← k7]; rfl
    have hst : stateAt d h = stateAt d h0 := by rw [← hi.committed]; exact k6 (k9 rfl)
    refine ⟨alone_snoc hi.alone ?_, ?_, ?_, ?_⟩
    · rw [ha, hst]; exact k3
    · rw [stateAt_snoc, ha, hst]; exact k4
    · intro j
      by_cases hj : j = i
      · subst hj
        exact known_over (hi.known j) (by rw [hx]; simp) (set_self _ _ _) rfl
      · have hnj : s.writer ≠ some j := by
          intro h
          rw [k8.1 rfl] at h
          exact hj (by simpa using h.symm)
        refine known_keep (hi.known j) (set_other _ _ hj) rfl (Nat.le_succ _) ?_ ?_ (fun h => absurd h hnj)
        · intro hc; exact absurd hc (by simp [Sys.set])
        · simp [hnj]
    · intro j hj; cases hj
  | @commitFails i hu =>
    refine ⟨alone_snoc hi.alone trivial, ?_, ?_, ?_⟩
    · rw [stateAt_snoc]; exact hi.committed
    · intro j
      by_cases hj : j = i
      · subst hj; exact known_over (hi.known j) hu (set_self _ _ _) rfl
      · refine known_keep (hi.known j) (set_other _ _ hj) rfl (Nat.le_refl _) (fun _ => rfl) ?_ (fun _ => rfl)
        show (if s.writer = some i then none else s.writer) = some j ↔ _
        split
        · rename_i h; rw [h]; simp [Ne.symm hj]
        · rfl
    · intro j hj
      have hj' : (if s.writer = some i then none else s.writer) = some j := hj
      split at hj'
      · cases hj'
      · rename_i hne
        obtain ⟨v, c, e⟩ := hi.writer j hj'
        exact ⟨v, c, (set_other _ _ (by rintro rfl; exact hne hj')).trans e⟩
  | @rollback i hu =>
    refine ⟨alone_snoc hi.alone trivial, ?_, ?_, ?_⟩
    · rw [stateAt_snoc]; exact hi.committed
    · intro j
      by_cases hj : j = i
      · subst hj; exact known_over (hi.known j) hu (set_self _ _ _) rfl
      · refine known_keep (hi.known j) (set_other _ _ hj) rfl (Nat.le_refl _) (fun _ => rfl) ?_ (fun _ => rfl)
        show (if s.writer = some i then none else s.writer) = some j ↔ _
        split
        · rename_i h; rw [h]; simp [Ne.symm hj]
        · rfl
    · intro j hj
      have hj' : (if s.writer = some i then none else s.writer) = some j := hj
      split at hj'
      · cases hj'
      · rename_i hne
        obtain ⟨v, c, e⟩ := hi.writer j hj'
        exact ⟨v, c, (set_other _ _ (by rintro rfl; exact hne hj')).trans e⟩
  | crash =>
    refine ⟨alone_snoc hi.alone trivial, ?_, ?_, ?_⟩
    · rw [stateAt_snoc]; exact hi.committed
    · intro j
      by_cases hu : s.txs j = .unused
      · have hk := hi.known j
        unfold Known at hk ⊢
        rw [hu] at hk
        simp only [hu]
        rw [callsIn_append, hk]; rfl
      · refine known_over (hi.known j) hu ?_ rfl
        show (match s.txs j with | .unused => _ | _ => _) = _
        cases e : s.txs j with
        | unused => exact absurd e hu
        | _ => rfl
    · intro j hj; cases hj

theorem inv_run {d : D} {h : List (Ev D A)} {s : Sys D} (hr : Run d h s) : Inv d h s := by
  induction hr with
  | nil => exact ⟨trivial, rfl, fun _ => rfl, fun _ h => by cases h⟩
  | snoc _ hs ih => exact inv_step ih hs

end TxProof
open TxProof

/-- C150: whatever programs do at the same time, inside and outside of transactions, whatever fails and whenever the process crashes: what
is in the database for good is what the calls outside of transactions and the transactions that were committed leave when they are executed one after
the other, alone, in the order of these calls and of the `Commit`s, and this is also what they returned (of the transactions: those that wrote). A transaction
that was not committed adds nothing. -/
theorem C150_serial {D A : Type} (d : D) (h : List (Ev D A)) (s : Sys D) (hr : Run d h s) :
    s.committed = after d (lasting [] h) ∧ Alone d (lasting [] h) :=
  ⟨(inv_run hr).committed, (inv_run hr).alone⟩

/-- C150: a transaction (committed or not, over or not) sees one state of the database and its own changes: there is a moment after its beginning and before its first
call such that all its calls returned what they return alone on what was in the database for good at that moment. So it does not see changes of
others made later, nor changes that others have not committed. -/
theorem C150_isolated {D A : Type} (d : D) (h : List (Ev D A)) (s : Sys D) (hr : Run d h s) (i : Nat) (hc : callsIn i h ≠ []) :
    ∃ h0 h1, h = h0 ++ h1 ∧ Ev.begin i ∈ h0 ∧ callsIn i h0 = [] ∧ Alone (after d (lasting [] h0)) (callsIn i h) := by
  have hk := (inv_run hr).known i
  unfold Known at hk
  cases e : s.txs i with
  | unused => rw [e] at hk; exact absurd hk hc
  | fresh => rw [e] at hk; exact absurd hk.1 hc
  | over => rw [e] at hk; exact hk
  | active v c w =>
    rw [e] at hk
    obtain ⟨h0, h1, k0, k1, k2, k3, _⟩ := hk
    exact ⟨h0, h1, k0, k1, k2, k3⟩

/-- A call of the package nix_v10 that writes, as a statement. -/
def nixCall (op : Nix.Op) : Stmt Nix.DB (Res Unit) := ⟨fun db => Nix.step true db op, true, fun h => by cases h⟩

/-- `QueryReferrers` as a statement; what it returns is not of interest here. -/
def nixQuery (p : Bytes) : Stmt Nix.DB (Res Unit) :=
  ⟨fun db => (if Nix.queryReferrers db p = [] then .err (.msg "none") else .ok (), db), false, fun _ _ => rfl⟩

namespace TxProof

theorem callsIn_mem {D A : Type} {i : Nat} {h : List (Ev D A)} {c : Stmt D A × A} (hc : c ∈ callsIn i h) :
    ∃ via, Ev.exec via c.1 (some c.2) ∈ h := by
  induction h with
  | nil => cases hc
  | cons e h ih =>
    have keep : c ∈ callsIn i h → ∃ via, Ev.exec via c.1 (some c.2) ∈ e :: h := fun h' => by
      obtain ⟨via, hv⟩ := ih h'
      exact ⟨via, List.mem_cons_of_mem _ hv⟩
    cases e with
    | exec via st r =>
      cases r with
      | none => exact keep hc
      | some r =>
        simp only [callsIn] at hc
        split at hc
        · rcases List.mem_cons.1 hc with rfl | hc
          · exact ⟨via, List.mem_cons_self ..⟩
          · exact keep hc
        · exact keep hc
    | _ => exact keep hc

theorem lasting_mem {D A : Type} {past h : List (Ev D A)} {c : Stmt D A × A} (hc : c ∈ lasting past h) :
    ∃ via, Ev.exec via c.1 (some c.2) ∈ past ++ h := by
  induction h generalizing past with
  | nil => cases hc
  | cons e h ih =>
    simp only [lasting] at hc
    rcases List.mem_append.1 hc with hc | hc
    · unfold added at hc
      split at hc
      · rename_i st r
        simp only [List.mem_singleton] at hc
        subst hc
        exact ⟨[], by simp⟩
      · split at hc
        · obtain ⟨via, hv⟩ := callsIn_mem hc
          exact ⟨via, List.mem_append_left _ hv⟩
        · cases hc
      · cases hc
    · obtain ⟨via, hv⟩ := ih hc
      exact ⟨via, by simpa using hv⟩

end TxProof

/-- C150, for the package nix_v10 (foreign keys enforced, the database new): if the statements that write are calls of the package, then what is in the
database for good is what some history of calls one after the other leaves, and so it has integrity (C78), whatever was committed, rolled
back, refused or lost in a crash. -/
theorem C150_nix {A : Type} (h : List (Ev Nix.DB A)) (s : Sys Nix.DB) (hr : Run Nix.empty h s)
    (hst : ∀ via st r, Ev.exec via st r ∈ h → st.write = true → ∃ op, ∀ db, (st.run db).2 = (Nix.step true db op).2) :
    (∃ ops, s.committed = Nix.run true Nix.empty ops) ∧ Nix.Integrity s.committed := by
  have key : ∀ (l : Calls Nix.DB A) (db : Nix.DB), (∀ c ∈ l, ∃ via r, Ev.exec via c.1 r ∈ h) → ∃ ops, after db l = Nix.run true db ops := by
    intro l
    induction l with
    | nil => intro db _; exact ⟨[], rfl⟩
    | cons c l ih =>
      intro db hl
      obtain ⟨ops, ho⟩ := ih (c.1.run db).2 (fun c' hc' => hl c' (List.mem_cons_of_mem _ hc'))
      cases hw : c.1.write with
      | false =>
        refine ⟨ops, ?_⟩
        rw [c.1.select hw] at ho
        simpa [after, c.1.select hw] using ho
      | true =>
        obtain ⟨via, r, hm⟩ := hl c (List.mem_cons_self ..)
        obtain ⟨op, hop⟩ := hst via c.1 r hm hw
        refine ⟨op :: ops, ?_⟩
        show after (c.1.run db).2 l = Nix.run true (Nix.step true db op).2 ops
        rw [ho, hop]
  obtain ⟨ops, ho⟩ := key (lasting [] h) Nix.empty (fun c hc => by
    obtain ⟨via, hv⟩ := lasting_mem hc
    exact ⟨via, _, by simpa using hv⟩)
  have e : s.committed = Nix.run true Nix.empty ops := (C150_serial _ h s hr).1.trans ho
  exact ⟨⟨ops, e⟩, by rw [e]; exact C78_integrity ops⟩

/-- Two transactions: the first registers two paths and a reference and is committed; the second sees nothing of it, is refused when it writes, and
is lost in a crash. A third, begun on a `Queries` that already was in another transaction, is rolled back. -/
def sampleTx : List (Ev Nix.DB (Res Unit)) :=
  [.begin 1, .begin 2,
   .exec [2] (nixQuery b!"/b") (some (.err (.msg "none"))),
   .exec [1] (nixCall (.register 0 (samplePath b!"/a"))) (some (.ok ())),
   .exec [1] (nixCall (.register 0 (samplePath b!"/b"))) (some (.ok ())),
   .exec [1] (nixCall (.addReference 1 2)) (some (.ok ())),
   .exec [1] (nixQuery b!"/b") (some (.ok ())),
   .exec [] (nixQuery b!"/b") (some (.err (.msg "none"))),
   .commit 1 true,
   .exec [] (nixQuery b!"/b") (some (.ok ())),
   .exec [2] (nixQuery b!"/b") (some (.err (.msg "none"))),
   .exec [2] (nixCall (.invalidate b!"/a")) none,
   .begin 3,
   .exec [2, 3] (nixCall (.invalidate b!"/a")) (some (.ok ())),
   .rollback 3,
   .crash]

example : ∃ s, Run Nix.empty sampleTx s ∧ Nix.queryReferrers s.committed b!"/b" = [b!"/a"] ∧
    (lasting [] sampleTx).length = 6 ∧ callsIn 2 sampleTx ≠ [] := by
  have r0 : Run (A := Res Unit) Nix.empty [] _ := .nil
  have r1 := r0.snoc (.begin (i := 1) rfl)
  have r2 := r1.snoc (.begin (i := 2) rfl)
  have r3 := r2.snoc (.txRead (via := [2]) (st := nixQuery b!"/b") (i := 2) rfl rfl rfl)
  have r4 := r3.snoc (.txWrite (via := [1]) (st := nixCall (.register 0 (samplePath b!"/a"))) (i := 1) rfl rfl rfl (.inr ⟨rfl, rfl⟩))
  have r5 := r4.snoc (.txWrite (via := [1]) (st := nixCall (.register 0 (samplePath b!"/b"))) (i := 1) rfl rfl rfl (.inl rfl))
  have r6 := r5.snoc (.txWrite (via := [1]) (st := nixCall (.addReference 1 2)) (i := 1) rfl rfl rfl (.inl rfl))
  have r7 := r6.snoc (.txRead (via := [1]) (st := nixQuery b!"/b") (i := 1) rfl rfl rfl)
  have r8 := r7.snoc (.read (via := []) (st := nixQuery b!"/b") rfl rfl)
  have r9 := r8.snoc (.commit (i := 1) rfl)
  have r10 := r9.snoc (.read (via := []) (st := nixQuery b!"/b") rfl rfl)
  have r11 := r10.snoc (.txRead (via := [2]) (st := nixQuery b!"/b") (i := 2) rfl rfl rfl)
  have r12 := r11.snoc (.fails (via := [2]) (st := nixCall (.invalidate b!"/a")))
  have r13 := r12.snoc (.begin (i := 3) rfl)
  have r14 := r13.snoc (.txWrite (via := [2, 3]) (st := nixCall (.invalidate b!"/a")) (i := 3) rfl rfl rfl (.inr ⟨rfl, rfl⟩))
  have r15 := r14.snoc (.rollback (i := 3) (by intro h; cases h))
  refine ⟨_, r15.snoc .crash, ?_, ?_, ?_⟩
  · rfl
  · rfl
  · intro h; cases h

end Verif.Props
