import Verif.Lemmas.NarSession

namespace Verif.Nar
open Verif.GoLib Verif.Spec Verif.Wire

/-! ### how much content is read does not matter -/

/-- Going on does not depend on how much content the caller has read. -/
def Stable {α : Type} : Step RState Header Bool α → Prop
  | .done _ _ => True
  | .yield _ s k => (∀ s', Consume s s' → k true s' = k true s) ∧
      ∀ i s', Consume s s' → Stable (k i s')

theorem Stable.bind {α β : Type} {st : Step RState Header Bool α}
    {f : α → RState → Step RState Header Bool β} (h : Stable st) (hf : ∀ a s, Stable (f a s)) :
    Stable (st.bind f) := by
  induction st with
  | done r s =>
    rcases r with a | e | _
    · exact hf a s
    · exact trivial
    · exact trivial
  | yield y s k ih =>
    refine ⟨?_, fun i s' hc => ih i s' (h.2 i s' hc)⟩
    intro s' hc
    show (k true s').bind f = (k true s).bind f
    rw [h.1 s' hc]

theorem stable_rd {α : Type} (m : M Stream α) (s : RState) : Stable ((rd m).run s) := trivial

theorem stable_rd_bind {α β : Type} (m : M Stream α) (f : α → RCoro β) (s : RState)
    (hf : ∀ a s, Stable ((f a).run s)) : Stable ((rd m >>= f).run s) :=
  Stable.bind (stable_rd m s) hf

theorem closeContent_consume {s s' : RState} (h : Consume s s') :
    closeContent.run s' = closeContent.run s := by
  obtain ⟨j, h1, h2, rfl⟩ := h
  have e : bytesReaderClose (s.rem - j) s.len ⟨s.stream.data.drop j, s.stream.term⟩
      = bytesReaderClose s.rem s.len s.stream := by
    unfold bytesReaderClose
    simp only [List.length_drop, List.drop_drop]
    have : (s.stream.data.length - j < s.rem - j) ↔ (s.stream.data.length < s.rem) := by omega
    rw [show j + (s.rem - j) = s.rem by omega]
    simp only [this]
  simp only [closeContent, e, List.length_drop]
  congr 2
  omega

theorem stable_expectClose (tok : Bytes) (s : RState) : Stable ((expectClose tok).run s) := by
  unfold expectClose
  split <;> exact trivial

theorem stable_closeContent_bind {β : Type} (f : Unit → RState → Step RState Header Bool β) (s : RState)
    (hf : ∀ a s, Stable (f a s)) : Stable ((closeContent.run s).bind f) :=
  Stable.bind (st := closeContent.run s) trivial hf

theorem stable_parseContents (p : Bytes) (ex : Bool) (tok : Bytes) (s : RState) :
    Stable ((parseContents p ex tok).run s) := by
  unfold parseContents
  split
  · exact trivial
  · refine stable_rd_bind _ _ _ ?_
    intro n s1
    split
    · exact trivial
    · refine ⟨?_, ?_⟩
      · intro s' hc
        show ((closeContent.run s').bind _) = ((closeContent.run _).bind _)
        rw [closeContent_consume hc]
      · intro i s' hc
        cases i with
        | false => exact trivial
        | true =>
          refine stable_closeContent_bind (fun _ s => (rd (readString tokenLenMax) >>= expectClose).run s) s' ?_
          intro _ s2
          exact stable_rd_bind _ _ _ (fun a s => stable_expectClose a s)

theorem consume_rem_zero {s s' : RState} (h : Consume s s') (h0 : s.rem = 0) : s' = s := by
  obtain ⟨j, h1, h2, rfl⟩ := h
  have : j = 0 := by omega
  subst this
  simp

theorem stable_yield0 {β : Type} {h : Header} {s : RState} {k : Bool → RState → Step RState Header Bool β}
    (h0 : s.rem = 0) (hk : ∀ i s, Stable (k i s)) : Stable (.yield h s k) :=
  ⟨fun s' hc => by rw [consume_rem_zero hc h0], fun i s' _ => hk i s'⟩

theorem stable_parseRegular (p : Bytes) (s : RState) : Stable ((parseRegular p).run s) := by
  unfold parseRegular
  refine stable_rd_bind _ _ _ ?_
  intro tok s1
  split
  · refine stable_rd_bind _ _ _ ?_
    intro _ s2
    exact stable_rd_bind _ _ _ (fun a s => stable_parseContents _ _ _ _)
  · exact stable_parseContents _ _ _ _

theorem stable_parseSymlink (p : Bytes) (s : RState) : Stable ((parseSymlink p).run s) := by
  unfold parseSymlink
  refine stable_rd_bind _ _ _ ?_
  intro _ s1
  refine stable_rd_bind _ _ _ ?_
  intro _ s2
  refine stable_yield0 rfl ?_
  intro i s3
  cases i with
  | false => exact trivial
  | true => exact stable_rd_bind _ _ _ (fun a s => stable_expectClose a s)

theorem stable_parse (fuel : Nat) :
    (∀ (p : Bytes) (s : RState), Stable ((parseNode fuel p).run s)) ∧
    (∀ (p : Bytes) (s : RState), Stable ((parseEntries fuel p).run s)) := by
  induction fuel with
  | zero => exact ⟨fun _ _ => trivial, fun _ _ => trivial⟩
  | succ fuel ih =>
    constructor
    · intro p s
      unfold parseNode
      refine stable_rd_bind _ _ _ (fun _ s => ?_)
      refine stable_rd_bind _ _ _ (fun _ s => ?_)
      refine stable_rd_bind _ _ _ (fun tok s => ?_)
      split
      · exact stable_parseRegular p s
      · split
        · exact stable_parseSymlink p s
        · split
          · refine stable_yield0 rfl ?_
            intro i s3
            cases i with
            | false => exact trivial
            | true => exact ih.2 p s3
          · exact stable_expectClose _ _
    · intro p s
      unfold parseEntries
      refine stable_rd_bind _ _ _ (fun tok s => ?_)
      split
      · refine stable_rd_bind _ _ _ (fun _ s => ?_)
        refine stable_rd_bind _ _ _ (fun _ s => ?_)
        refine stable_rd_bind _ _ _ (fun name s => ?_)
        split
        · exact trivial
        · refine stable_rd_bind _ _ _ (fun _ s => ?_)
          refine Stable.bind (ih.1 _ _) ?_
          intro _ s
          refine stable_rd_bind _ _ _ (fun _ s => ?_)
          split
          · exact trivial
          · exact ih.2 _ _
      · split
        · exact trivial
        · exact ih.2 _ _

/-! ### invariant of a Reader -/

theorem Consume.trans {a b c : RState} (h1 : Consume a b) (h2 : Consume b c) : Consume a c := by
  obtain ⟨j, hj1, hj2, rfl⟩ := h1
  obtain ⟨k, hk1, hk2, rfl⟩ := h2
  simp only [List.length_drop] at hk1 hk2
  refine ⟨j + k, by omega, by omega, ?_⟩
  simp only [List.drop_drop, Nat.sub_sub]

theorem read_consume (r : Reader) (k : Nat) :
    ∃ s', Consume r.st s' ∧ (r.read k).2 = { r with st := s' } := by
  unfold Reader.read
  split
  · exact ⟨r.st, Consume.refl _, rfl⟩
  · simp only []
    split
    · exact ⟨r.st, Consume.refl _, rfl⟩
    · refine ⟨_, ⟨(r.st.stream.data.take (min k r.st.rem)).length, ?_, ?_, rfl⟩, rfl⟩
      · simp; omega
      · simp; omega

/-- Invariant of a reader on a stream ending in `t`. -/
structure RInv (t : Err) (r : Reader) : Prop where
  term : r.st.stream.term = t
  start : r.phase = .start → r.st.rem = 0
  waiting : ∀ k, r.phase = .waiting k → ∃ s0 n, Consume s0 r.st ∧
    (∀ i s', Consume s0 s' → Ok t n (k i s')) ∧
    (∀ s', Consume s0 s' → k true s' = k true s0) ∧ (∀ i s', Consume s0 s' → Stable (k i s'))
  finished : r.phase = .finished ∨ r.phase = .stuck → r.err ≠ none ∨ r.closed = true

theorem newReader_facts {s s' : Stream} {r : Reader} (h : newReader s = (.ok r, s')) :
    r.st = ⟨s', 0, 0⟩ ∧ r.phase = .start ∧ r.err = none ∧ r.prev = [] ∧ r.closed = false ∧
      s'.term = s.term := by
  have hf := fwd_expectString narVersionMagic1 (by simp [narVersionMagic1])
  have ht := hf.term s
  unfold newReader at h
  rcases he : expectString narVersionMagic1 s with ⟨_ | _ | _, s1⟩
  · rw [he] at h ht
    simp at h
    obtain ⟨rfl, rfl⟩ := h
    exact ⟨rfl, rfl, rfl, rfl, rfl, ht⟩
  · rw [he] at h; simp at h
  · rw [he] at h; simp at h

theorem rinv_new {s s' : Stream} {r : Reader} (h : newReader s = (.ok r, s')) : RInv s.term r := by
  obtain ⟨h1, h2, h3, _, _, h6⟩ := newReader_facts h
  refine ⟨by rw [h1]; exact h6, fun _ => by rw [h1], ?_, ?_⟩
  · intro k hk; rw [h2] at hk; simp at hk
  · intro hk; rw [h2] at hk; simp at hk

theorem rinv_read {t : Err} {r : Reader} (h : RInv t r) (k : Nat) : RInv t (r.read k).2 := by
  obtain ⟨s', hc, e⟩ := read_consume r k
  rw [e]
  refine ⟨?_, ?_, ?_, h.finished⟩
  · rw [← h.term]; exact (consume_facts hc).1
  · intro hp
    have := h.start hp
    simp only []
    rw [consume_rem_zero hc this]; exact this
  · intro k hk
    obtain ⟨s0, n, h1, h2, h3, h4⟩ := h.waiting k hk
    exact ⟨s0, n, h1.trans hc, h2, h3, h4⟩

/-- The goroutine's next segment of an open reader. -/
theorem resume_ok {t : Err} {r : Reader} (h : RInv t r) (st : Step RState Header Bool Unit)
    (hr : r.resume = some st) : ∃ n, Ok t n st ∧ Stable st := by
  unfold Reader.resume at hr
  cases hp : r.phase with
  | start =>
    rw [hp] at hr
    simp only [Option.some.injEq] at hr
    subst hr
    exact ⟨r.st.stream.data.length,
      (ok_parse (r.st.stream.data.length + 1)).1 [] r.st t _ (by simp) h.term (Nat.le_refl _) (by omega),
      (stable_parse _).1 _ _⟩
  | waiting k =>
    rw [hp] at hr
    simp only [Option.some.injEq] at hr
    subst hr
    obtain ⟨s0, n, h1, h2, h3, h4⟩ := h.waiting k hp
    exact ⟨n, h2 true _ h1, h4 true _ h1⟩
  | finished => rw [hp] at hr; simp at hr
  | stuck => rw [hp] at hr; simp at hr

theorem rinv_receive {t : Err} {r : Reader} {st : Step RState Header Bool Unit} {n : Nat}
    (hok : Ok t n st) (hst : Stable st) : RInv t (r.receive st).2 := by
  cases st with
  | done res s =>
    have hterm := hok.term
    rcases res with _ | e | _
    · exact ⟨hterm, by simp [Reader.receive], by simp [Reader.receive], by simp [Reader.receive]⟩
    · exact ⟨hterm, by simp [Reader.receive], by simp [Reader.receive], by simp [Reader.receive]⟩
    · exact absurd rfl hok.noPanic
  | yield h s k =>
    have key : ∀ k', Phase.waiting k = .waiting k' → ∃ s0 n, Consume s0 s ∧
        (∀ i s', Consume s0 s' → Ok t n (k' i s')) ∧
        (∀ s', Consume s0 s' → k' true s' = k' true s0) ∧ (∀ i s', Consume s0 s' → Stable (k' i s')) := by
      intro k' hk; cases hk
      exact ⟨s, n, Consume.refl s, hok.2, hst.1, hst.2⟩
    have e : r.receive (.yield h s k) = if pathIsLexicographicallyOrdered r.prev h.path then
      (.ok h, { r with st := s, phase := .waiting k, prev := h.path })
      else (.err (.msg "received header in the wrong order"),
        { r with st := s, phase := .waiting k, err := some (.msg "received header in the wrong order") }) := rfl
    rw [e]
    split
    · exact ⟨hok.1.term, by simp, key, by simp⟩
    · exact ⟨hok.1.term, by simp, key, by simp⟩

theorem next_cases (r : Reader) :
    (∃ e, r.err = some e ∧ r.next = (.err e, r)) ∨
    (r.err = none ∧ r.closed = true ∧ r.next = (.panic, r)) ∨
    (r.err = none ∧ r.closed = false ∧ (r.phase = .finished ∨ r.phase = .stuck) ∧ r.next = (.block, r)) ∨
    (r.err = none ∧ r.closed = false ∧ ∃ st, r.resume = some st ∧ r.next = r.receive st) := by
  unfold Reader.next
  cases he : r.err with
  | some e => exact .inl ⟨e, rfl, rfl⟩
  | none =>
    simp only []
    by_cases hc : r.closed = true
    · rw [if_pos hc]; exact .inr (.inl ⟨trivial, hc, rfl⟩)
    · rw [if_neg hc]
      have hc' : r.closed = false := by simpa using hc
      cases hr : r.resume with
      | none =>
        refine .inr (.inr (.inl ⟨trivial, hc', ?_, rfl⟩))
        unfold Reader.resume at hr
        cases hp : r.phase <;> rw [hp] at hr <;> simp at hr ⊢
      | some st => exact .inr (.inr (.inr ⟨trivial, hc', st, rfl, rfl⟩))

theorem rinv_next {t : Err} {r : Reader} (h : RInv t r) : RInv t r.next.2 := by
  rcases next_cases r with ⟨e, _, hn⟩ | ⟨_, _, hn⟩ | ⟨_, _, _, hn⟩ | ⟨_, _, st, hs, hn⟩
  · rw [hn]; exact h
  · rw [hn]; exact h
  · rw [hn]; exact h
  · rw [hn]
    obtain ⟨n, h1, h2⟩ := resume_ok h st hs
    exact rinv_receive h1 h2

theorem state_term {t : Err} {n : Nat} {st : Step RState Header Bool Unit} (h : Ok t n st) :
    (Step.state st).stream.term = t := by
  cases st with
  | done r s => exact h.term
  | yield _ s k => exact h.1.term

theorem rinv_close {t : Err} {r : Reader} (h : RInv t r) : RInv t r.close.2 := by
  unfold Reader.close
  split
  · exact h
  · split
    · exact h
    · cases hp : r.phase with
      | start => exact ⟨h.term, by simp, by simp, by simp⟩
      | finished => exact ⟨h.term, by simp, by simp, by simp⟩
      | stuck => exact ⟨h.term, by simp [hp], by simp [hp], by simp⟩
      | waiting k =>
        obtain ⟨s0, n, h1, h2, h3, h4⟩ := h.waiting k hp
        exact ⟨state_term (h2 false _ h1), by simp, by simp, by simp⟩

/-! ### extension of the stream -/

/-- The second stream continues where the first one ends; nothing is said once the first is
exhausted. The first does not end in `io.EOF`. -/
def ExtS (x : Bytes) (s1 s2 : Stream) : Prop :=
  s1.term ≠ .eof ∧ (s2.data = s1.data ++ x ∨ s1.data = [])

/-- A reading operation on the two streams. -/
def ExtM {α : Type} (m : M Stream α) : Prop :=
  ∀ x s1 s2, ExtS x s1 s2 → ExtS x (m s1).2 (m s2).2 ∧
    (∀ a, (m s1).1 = .ok a → (m s2).1 = .ok a) ∧ (m s1).1 ≠ .err .eof

theorem ext_readFull (k : Nat) : ExtM (readFull k) := by
  intro x s1 s2 ⟨ht, hd⟩
  unfold readFull
  by_cases h : k ≤ s1.data.length
  · rcases hd with hd | hd
    · have h2 : k ≤ s2.data.length := by rw [hd]; simp; omega
      rw [if_pos h, if_pos h2, hd]
      refine ⟨⟨ht, .inl ?_⟩, ?_, by simp⟩
      · simp only []; rw [List.drop_append_of_le_length h]
      · intro a; simp only [Res.ok.injEq]; rw [List.take_append_of_le_length h]; exact id
    · have hk : k = 0 := by rw [hd] at h; simpa using h
      subst hk
      rw [if_pos (by omega), if_pos (by omega)]
      exact ⟨⟨ht, .inr (by simp [hd])⟩, by simp, by simp⟩
  · rw [if_neg h]
    refine ⟨⟨ht, .inr rfl⟩, by simp, ?_⟩
    simp only [shortErr]
    split
    · simp
    · simpa using ht

theorem ext_pure {α : Type} (a : α) : ExtM (pure a : M Stream α) :=
  fun _ _ _ h => ⟨h, by simp, by simp⟩

theorem ext_fail {α : Type} (e : Err) (he : e ≠ .eof) : ExtM (M.fail e : M Stream α) :=
  fun _ _ _ h => ⟨h, by simp, by simpa using he⟩

end Verif.Nar
