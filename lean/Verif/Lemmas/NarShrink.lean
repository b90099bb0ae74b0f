import Verif.Lemmas.NarHistory

/-! # Every header costs input -/

namespace Verif.Nar
open Verif.GoLib Verif.Wire

/-- bytes left -/
abbrev RState.left (s : RState) : Nat := s.stream.data.length

/-- Of the `n` bytes there were, at least 24 are consumed before each header. -/
def Shrinks {α : Type} (n : Nat) : Step RState Header Bool α → Prop
  | .done _ s => s.left ≤ n
  | .yield _ s k => s.left + 24 ≤ n ∧ ∀ i s', Consume s s' → Shrinks s'.left (k i s')

theorem Shrinks.weaken {α : Type} {n m : Nat} {st : Step RState Header Bool α} (h : Shrinks n st) (hn : n ≤ m) : Shrinks m st := by
  cases st with
  | done r s => exact Nat.le_trans h hn
  | yield y s k => exact ⟨Nat.le_trans h.1 hn, h.2⟩

theorem Shrinks.bind {α β : Type} {n : Nat} {st : Step RState Header Bool α} {f : α → RState → Step RState Header Bool β}
    (h : Shrinks n st) (hf : ∀ a s, Shrinks s.left (f a s)) : Shrinks n (st.bind f) := by
  induction st generalizing n with
  | done r s =>
    rcases r with a | e | _
    · exact (hf a s).weaken h
    · exact h
    · exact h
  | yield y s k ih => exact ⟨h.1, fun i s' hc => ih i s' (h.2 i s' hc)⟩

theorem shr_rd {α β : Type} {m : M Stream α} {c : Nat} (hm : Fwd m c) {n : Nat} {s : RState} (hn : s.left ≤ n)
    {f : α → RState → Step RState Header Bool β}
    (hf : ∀ a s', s'.left + c ≤ s.left → Shrinks n (f a s')) : Shrinks n (((rd m).run s).bind f) := by
  have e : ((rd m).run s : Step RState Header Bool α) =
      .done (m s.stream).1 { s with stream := (m s.stream).2 } := rfl
  rw [e]
  rcases hr : m s.stream with ⟨r, s'⟩
  have hle : s'.data.length ≤ s.stream.data.length := by have := hm.le s.stream; rw [hr] at this; exact this
  rcases r with a | e | _
  · refine hf a _ ?_
    have := hm.ok s.stream a (by rw [hr]); rw [hr] at this; exact this
  · exact Nat.le_trans hle hn
  · exact Nat.le_trans hle hn

theorem shr_done {α : Type} {n : Nat} (r : Res α) {s : RState} (hn : s.left ≤ n) :
    Shrinks n (.done r s : Step RState Header Bool α) := hn

theorem shr_expectClose {n : Nat} {s : RState} (tok : Bytes) (hn : s.left ≤ n) : Shrinks n ((expectClose tok).run s) := by
  unfold expectClose
  split <;> exact hn

theorem shr_close_token {n : Nat} {s : RState} (hn : s.left ≤ n) :
    Shrinks n ((rd (readString tokenLenMax) >>= expectClose).run s) := by
  rw [Coro.run_bind]
  refine shr_rd (fwd_readString _ (by simp [tokenLenMax])) hn ?_
  intro a s' hle
  exact shr_expectClose a (by omega)

theorem shr_closeContent {β : Type} {s : RState} {n : Nat} {f : Unit → RState → Step RState Header Bool β} (hn : s.left ≤ n)
    (hf : ∀ s', s'.left ≤ n → Shrinks n (f () s')) : Shrinks n ((closeContent.run s).bind f) := by
  have hc := fwd_bytesReaderClose s.rem s.len
  have e : closeContent.run s = .done (bytesReaderClose s.rem s.len s.stream).1
    ⟨(bytesReaderClose s.rem s.len s.stream).2, s.rem - min s.rem s.stream.data.length, s.len⟩ := rfl
  rw [e]
  rcases hr : bytesReaderClose s.rem s.len s.stream with ⟨r, s'⟩
  have hle : s'.data.length ≤ s.stream.data.length := by have := hc.le s.stream; rw [hr] at this; exact this
  rcases r with a | e | _
  · exact hf _ (by simp only [RState.left] at *; omega)
  · exact Nat.le_trans hle hn
  · exact Nat.le_trans hle hn

theorem shr_yield {β : Type} {n : Nat} {h : Header} {s : RState}
    {f : Bool → RState → Step RState Header Bool β} (hh : s.left + 24 ≤ n)
    (hf : ∀ i s', Shrinks s'.left (f i s')) :
    Shrinks n (((Coro.yield h : RCoro Bool).run s).bind f) := ⟨hh, fun i s' _ => hf i s'⟩

theorem shr_parseContents {n : Nat} (p : Bytes) (ex : Bool) (tok : Bytes) (s : RState) (hn : s.left + 16 ≤ n) :
    Shrinks n ((parseContents p ex tok).run s) := by
  unfold parseContents
  split
  · exact shr_done _ (by omega)
  · rw [Coro.run_bind]
    refine shr_rd fwd_readUint64 (by omega) ?_
    intro len s' hle
    split
    · exact shr_done _ (by omega)
    · refine shr_yield (s := { s' with rem := len, len := len }) (by simp only [RState.left] at *; omega) ?_
      intro i s2
      cases i with
      | false => exact shr_done _ (Nat.le_refl _)
      | true =>
        refine shr_closeContent (f := fun _ s => (rd (readString tokenLenMax) >>= expectClose).run s) (Nat.le_refl _) ?_
        intro s3 h3
        exact shr_close_token h3

theorem shr_parse (fuel : Nat) :
    (∀ (p : Bytes) (s : RState), Shrinks s.left ((parseNode fuel p).run s)) ∧
    (∀ (p : Bytes) (s : RState), Shrinks s.left ((parseEntries fuel p).run s)) := by
  induction fuel with
  | zero => exact ⟨fun _ _ => Nat.le_refl _, fun _ _ => Nat.le_refl _⟩
  | succ fuel ih =>
    constructor
    · intro p s
      unfold parseNode
      rw [Coro.run_bind]
      refine shr_rd (fwd_expectString _ (by simp)) (Nat.le_refl _) ?_
      intro _ s1 h1
      rw [Coro.run_bind]
      refine shr_rd (fwd_expectString _ (by simp)) (by omega) ?_
      intro _ s2 h2
      rw [Coro.run_bind]
      refine shr_rd (fwd_readString _ (by simp [tokenLenMax])) (by omega) ?_
      intro tok s3 h3
      split
      · unfold parseRegular
        rw [Coro.run_bind]
        refine shr_rd (fwd_readString _ (by simp)) (by omega) ?_
        intro tok s4 h4
        split
        · rw [Coro.run_bind]
          refine shr_rd fwd_readPlaceholder (by omega) ?_
          intro _ s5 h5
          rw [Coro.run_bind]
          refine shr_rd (fwd_readString _ (by simp [tokenLenMax])) (by omega) ?_
          intro tok' s6 h6
          exact shr_parseContents _ _ _ _ (by omega)
        · exact shr_parseContents _ _ _ _ (by omega)
      · split
        · unfold parseSymlink
          rw [Coro.run_bind]
          refine shr_rd (fwd_expectString _ (by simp)) (by omega) ?_
          intro _ s4 h4
          rw [Coro.run_bind]
          refine shr_rd (fwd_readString _ (by simp [pathLenMax])) (by omega) ?_
          intro target s5 h5
          refine shr_yield (s := { s5 with rem := 0, len := 0 }) (by simp only [RState.left] at *; omega) ?_
          intro i s6
          cases i with
          | false => exact shr_done _ (Nat.le_refl _)
          | true => exact shr_close_token (Nat.le_refl _)
        · split
          · refine shr_yield (s := { s3 with rem := 0, len := 0 }) (by simp only [RState.left] at *; omega) ?_
            intro i s4
            cases i with
            | false => exact shr_done _ (Nat.le_refl _)
            | true => exact ih.2 p s4
          · exact shr_expectClose _ (by omega)
    · intro p s
      unfold parseEntries
      rw [Coro.run_bind]
      refine shr_rd (fwd_readString _ (by simp [tokenLenMax])) (Nat.le_refl _) ?_
      intro tok s1 h1
      split
      · rw [Coro.run_bind]
        refine shr_rd (fwd_expectString _ (by simp)) (by omega) ?_
        intro _ s2 h2
        rw [Coro.run_bind]
        refine shr_rd (fwd_expectString _ (by simp)) (by omega) ?_
        intro _ s3 h3
        rw [Coro.run_bind]
        refine shr_rd (fwd_readString _ (by simp [nameLenMax])) (by omega) ?_
        intro name s4 h4
        split
        · exact shr_done _ (by omega)
        · rw [Coro.run_bind]
          refine shr_rd (fwd_expectString _ (by simp)) (by omega) ?_
          intro _ s5 h5
          rw [Coro.run_bind]
          refine Shrinks.bind ((ih.1 (pathJoin p name) s5).weaken (by omega)) ?_
          intro _ s6
          rw [Coro.run_bind]
          refine shr_rd (fwd_expectString _ (by simp)) (Nat.le_refl _) ?_
          intro _ s7 h7
          split
          · exact shr_done _ (by omega)
          · exact (ih.2 p s7).weaken (by omega)
      · split
        · exact shr_done _ (by omega)
        · exact (ih.2 p s1).weaken (by omega)

/-- Invariant of a reader. -/
def ShrInv (r : Reader) : Prop := ∀ k, r.phase = .waiting k → ∃ s0, Consume s0 r.st ∧
  ∀ i s', Consume s0 s' → Shrinks s'.left (k i s')

theorem shrInv_new {s s' : Stream} {r : Reader} (h : newReader s = (.ok r, s')) : ShrInv r := by
  intro k hk
  have := (newReader_facts h).2.1
  rw [this] at hk; cases hk

theorem resume_shrinks {r : Reader} (h : ShrInv r) {st} (hs : r.resume = some st) : Shrinks r.st.left st := by
  unfold Reader.resume at hs
  cases hp : r.phase with
  | start => rw [hp] at hs; simp only [Option.some.injEq] at hs; rw [← hs]; exact (shr_parse _).1 _ _
  | waiting k =>
    rw [hp] at hs
    simp only [Option.some.injEq] at hs
    rw [← hs]
    obtain ⟨s0, h1, h2⟩ := h k hp
    exact h2 true _ h1
  | finished => rw [hp] at hs; simp at hs
  | stuck => rw [hp] at hs; simp at hs

theorem shrInv_next {r : Reader} (h : ShrInv r) : ShrInv r.next.2 ∧ r.next.2.st.left ≤ r.st.left ∧
    ∀ hd, r.next.1 = .ok hd → r.next.2.st.left + 24 ≤ r.st.left := by
  rcases next_cases r with ⟨e, _, h1⟩ | ⟨_, _, h1⟩ | ⟨_, _, _, h1⟩ | ⟨he, hc, st, hs, h1⟩
  · rw [h1]; exact ⟨h, Nat.le_refl _, by simp⟩
  · rw [h1]; exact ⟨h, Nat.le_refl _, by simp⟩
  · rw [h1]; exact ⟨h, Nat.le_refl _, by simp⟩
  · rw [h1]
    have hsh := resume_shrinks h hs
    cases st with
    | done res s =>
      rcases res with _ | e | _
      · exact ⟨fun k hk => by simp [Reader.receive] at hk, hsh, by simp [Reader.receive]⟩
      · exact ⟨fun k hk => by simp [Reader.receive] at hk, hsh, by simp [Reader.receive]⟩
      · exact ⟨fun k hk => by simp [Reader.receive] at hk, hsh, by simp [Reader.receive]⟩
    | yield hd s k =>
      rw [receive_yield]
      have key : ∀ k', Phase.waiting k = .waiting k' → ∃ s0, Consume s0 s ∧ ∀ i s', Consume s0 s' → Shrinks s'.left (k' i s') := by
        intro k' hk; cases hk
        exact ⟨s, Consume.refl s, hsh.2⟩
      split
      · exact ⟨key, Nat.le_trans (Nat.le_add_right _ _) hsh.1, fun _ _ => hsh.1⟩
      · exact ⟨key, Nat.le_trans (Nat.le_add_right _ _) hsh.1, by simp⟩

theorem shrInv_read {r : Reader} (h : ShrInv r) (k : Nat) : ShrInv (r.read k).2 ∧ (r.read k).2.st.left ≤ r.st.left := by
  obtain ⟨s', h1, h2⟩ := read_consume r k
  have h3 := consume_facts h1
  rw [h2]
  refine ⟨?_, h3.2⟩
  intro k' hk
  obtain ⟨s0, c1, c2⟩ := h k' hk
  exact ⟨s0, c1.trans h1, c2⟩

end Verif.Nar
