import Verif.Model.Memory
import Verif.Spec.Memory
import Verif.Lemmas.NarShrink
import Verif.Props.NarReader

/-!
# C138: memory needed for reading
-/

namespace Verif.Props
open Verif.GoLib Verif.Wire Verif.Nar Verif.Spec

/-- C138: `ReadBytesFull` allocates no more than its limit, whatever the input announces: with blocks of that size it does what it does without a
limit of memory, and with smaller blocks the program ends exactly if the input announces a length between the two. -/
theorem C138_wire (block max : Nat) (hmax : max < 2 ^ 63) (s : Stream) :
    (max ≤ block → Memory.readBytesFull block max s = readBytesFull max s) ∧
    ((Memory.readBytesFull block max s).1 = .panic ↔ ∃ n p rest, IsLE64 p n ∧ s.data = p ++ rest ∧ block < n ∧ n ≤ max) ∧
    ((Memory.readBytesFull block max s).1 ≠ .panic → Memory.readBytesFull block max s = readBytesFull max s) := by
  unfold Memory.readBytesFull readBytesFull
  rcases hr : readUint64 s with ⟨_ | e | _, s'⟩
  · rename_i n
    rw [M.bind_ok hr, M.bind_ok hr]
    have hdata : ∃ p, IsLE64 p n ∧ s.data = p ++ s'.data := by
      unfold readUint64 at hr
      rw [M.bind_eq_ok] at hr
      obtain ⟨b, s2, h2, h1⟩ := hr
      unfold readFull at h2
      split at h2
      case isFalse => simp at h2
      cases h2
      cases h1
      exact ⟨s.data.take 8, ⟨by simp; omega, (getUint64_eq _).symm⟩, (List.take_append_drop 8 s.data).symm⟩
    obtain ⟨p, hp, hd⟩ := hdata
    have uniq : ∀ n' p' rest, IsLE64 p' n' → s.data = p' ++ rest → n' = n := by
      intro n' p' rest h1 h2
      rw [hd] at h2
      have := (List.append_inj h2 (hp.1.trans h1.1.symm)).1
      subst this
      exact h1.2.symm.trans hp.2
    by_cases h1 : n > max
    · rw [if_pos h1, if_pos h1]
      refine ⟨fun _ => rfl, ⟨fun h => by simp at h, ?_⟩, fun _ => rfl⟩
      rintro ⟨n', p', rest, e1, e2, e3, e4⟩
      have := uniq n' p' rest e1 e2
      omega
    · have h63 : ¬ 2 ^ 63 ≤ n := by omega
      simp only [if_neg h1, if_neg h63]
      by_cases h2 : block < n
      · rw [if_pos h2]
        refine ⟨fun h => by omega, ⟨fun _ => ⟨n, p, s'.data, hp, hd, h2, by omega⟩, fun _ => rfl⟩, fun h => absurd rfl h⟩
      · rw [if_neg h2]
        refine ⟨fun _ => rfl, ⟨fun h => absurd h ((fwd_readContent n).noPanic _), ?_⟩, fun _ => rfl⟩
        rintro ⟨n', p', rest, e1, e2, e3, e4⟩
        have := uniq n' p' rest e1 e2
        omega
  · rw [M.bind_err hr, M.bind_err hr]
    refine ⟨fun _ => rfl, ⟨fun h => by simp at h, ?_⟩, fun _ => rfl⟩
    rintro ⟨n, p, rest, h1, h2, _⟩
    have : s = ⟨p ++ rest, s.term⟩ := by rw [← h2]
    rw [this, readUint64_append p rest _ n h1] at hr
    simp at hr
  · exact absurd (by rw [hr]) (fwd_readUint64.noPanic s)

/-! ### with room for every string -/

section
variable {block : Nat} (hb : pathLenMax ≤ block)
include hb

theorem mem_read {max : Nat} (h : max ≤ pathLenMax) : Memory.readBytesFull block max = readString max := by
  funext s
  exact (C138_wire block max (by simp [pathLenMax] at h; omega) s).1 (by omega)

theorem mem_expect {e : Bytes} (h : e.length ≤ pathLenMax) : Memory.expectString block e = expectString e := by
  funext s
  unfold Memory.expectString expectString
  rw [mem_read hb h]
  rfl

theorem mem_placeholder : Memory.readPlaceholder block = readPlaceholder := by
  funext s
  unfold Memory.readPlaceholder readPlaceholder
  rw [mem_read hb (Nat.zero_le _)]
  rfl

theorem mem_contents (p : Bytes) (ex : Bool) (tok : Bytes) : Memory.parseContents block p ex tok = parseContents p ex tok := by
  unfold Memory.parseContents parseContents
  rw [mem_read hb (by decide)]

theorem mem_regular (p : Bytes) : Memory.parseRegular block p = parseRegular p := by
  unfold Memory.parseRegular parseRegular
  rw [mem_read hb (by decide), mem_read hb (by decide), mem_placeholder hb]
  simp only [mem_contents hb]

theorem mem_symlink (p : Bytes) : Memory.parseSymlink block p = parseSymlink p := by
  unfold Memory.parseSymlink parseSymlink
  rw [mem_read hb (by decide : tokenLenMax ≤ pathLenMax), mem_read hb (Nat.le_refl _), mem_expect hb (by decide)]

end

/-! ### any input -/

/-- Two goroutines do the same as long as the caller only reads, and have at most `n` bytes of input left. -/
inductive Same {α : Type} (n : Nat) : Step RState Header Bool α → Step RState Header Bool α → Prop
  | done {r : Res α} {s : RState} : s.left ≤ n → Same n (.done r s) (.done r s)
  | yield {h : Header} {s : RState} {k k' : Bool → RState → Step RState Header Bool α} : s.left ≤ n →
      (∀ i s', Consume s s' → Same n (k i s') (k' i s')) → Same n (.yield h s k) (.yield h s k')

theorem Same.bind {α β : Type} {n : Nat} {st st' : Step RState Header Bool α} {f f' : α → RState → Step RState Header Bool β}
    (h : Same n st st') (hf : ∀ a s, s.left ≤ n → Same n (f a s) (f' a s)) : Same n (st.bind f) (st'.bind f') := by
  induction h with
  | @done r s hs =>
    rcases r with a | e | _
    · exact hf a s hs
    · exact .done hs
    · exact .done hs
  | yield hs _ ih => exact .yield hs fun i s' hc => ih i s' hc

theorem Same.weaken {α : Type} {n m : Nat} {st st' : Step RState Header Bool α} (h : Same n st st') (hm : n ≤ m) : Same m st st' := by
  induction h with
  | done hs => exact .done (Nat.le_trans hs hm)
  | yield hs _ ih => exact .yield (Nat.le_trans hs hm) ih

theorem same_rd {α β : Type} {m : M Stream α} {c : Nat} (hm : Fwd m c) {n : Nat} {s : RState} (hn : s.left ≤ n)
    {f f' : α → RState → Step RState Header Bool β}
    (hf : ∀ a s', s'.left + c ≤ s.left → Same n (f a s') (f' a s')) :
    Same n (((rd m).run s).bind f) (((rd m).run s).bind f') := by
  have e : ((rd m).run s : Step RState Header Bool α) =
      .done (m s.stream).1 { s with stream := (m s.stream).2 } := rfl
  rw [e]
  rcases hr : m s.stream with ⟨r, s'⟩
  have hle : s'.data.length ≤ s.stream.data.length := by have := hm.le s.stream; rw [hr] at this; exact this
  rcases r with a | e | _
  · refine hf a _ ?_
    have := hm.ok s.stream a (by rw [hr]); rw [hr] at this; exact this
  · exact .done (Nat.le_trans hle hn)
  · exact .done (Nat.le_trans hle hn)

theorem same_shrinks {α : Type} {n : Nat} {st : Step RState Header Bool α} (h : Shrinks n st) : Same n st st := by
  induction st generalizing n with
  | done r s => exact .done h
  | yield y s k ih =>
    have h1 := h.1
    refine .yield (by omega) fun i s' hc => (ih i s' (h.2 i s' hc)).weaken ?_
    have := (consume_facts hc).2
    simp only [RState.left] at *
    omega

theorem shr_regular {n : Nat} (p : Bytes) (s : RState) (hn : s.left + 8 ≤ n) : Shrinks n ((parseRegular p).run s) := by
  unfold parseRegular
  rw [Coro.run_bind]
  refine shr_rd (fwd_readString _ (by simp)) (by omega) ?_
  intro tok s4 h4
  split
  · rw [Coro.run_bind]
    refine shr_rd fwd_readPlaceholder (by omega) ?_
    intro _ s5 h5
    rw [Coro.run_bind]
    refine shr_rd (fwd_readString _ (by simp [tokenLenMax])) (by omega) ?_
    intro tok' s6 h6
    exact shr_parseContents _ _ _ _ (by omega)
  · exact shr_parseContents _ _ _ _ (by omega)

theorem shr_symlink {n : Nat} (p : Bytes) (s : RState) (hn : s.left + 8 ≤ n) : Shrinks n ((parseSymlink p).run s) := by
  unfold parseSymlink
  rw [Coro.run_bind]
  refine shr_rd (fwd_expectString _ (by simp)) (by omega) ?_
  intro _ s4 h4
  rw [Coro.run_bind]
  refine shr_rd (fwd_readString _ (by simp [pathLenMax])) (by omega) ?_
  intro target s5 h5
  refine shr_yield (s := { s5 with rem := 0, len := 0 }) (by simp only [RState.left] at *; omega) ?_
  intro i s6
  cases i with
  | false => exact shr_done _ (Nat.le_refl _)
  | true => exact shr_close_token (Nat.le_refl _)

theorem same_node (block : Nat) (hb : pathLenMax ≤ block) (fuel : Nat) :
    (∀ (stack : Nat) (p : Bytes) (s : RState) (n : Nat), s.left ≤ n → s.left < 64 * stack →
      Same n ((parseNode fuel p).run s) ((Memory.parseNode block fuel stack p).run s)) ∧
    (∀ (stack : Nat) (p : Bytes) (s : RState) (n : Nat), s.left ≤ n → s.left < 64 * stack + 40 →
      Same n ((parseEntries fuel p).run s) ((Memory.parseEntries block fuel stack p).run s)) := by
  induction fuel with
  | zero => exact ⟨fun _ _ _ _ hn _ => .done hn, fun _ _ _ _ hn _ => .done hn⟩
  | succ fuel ih =>
    constructor
    · intro stack p s n hn hs
      obtain ⟨stack, rfl⟩ : ∃ k, stack = k + 1 := ⟨stack - 1, by omega⟩
      unfold parseNode Memory.parseNode
      rw [mem_expect hb (by decide), mem_expect hb (by decide), mem_read hb (by decide), mem_regular hb, mem_symlink hb]
      rw [Coro.run_bind, Coro.run_bind]
      refine same_rd (fwd_expectString _ (by simp)) hn ?_
      intro _ s1 h1
      rw [Coro.run_bind, Coro.run_bind]
      refine same_rd (fwd_expectString _ (by simp)) (by omega) ?_
      intro _ s2 h2
      rw [Coro.run_bind, Coro.run_bind]
      refine same_rd (fwd_readString _ (by simp [tokenLenMax])) (by omega) ?_
      intro tok s3 h3
      split
      · exact same_shrinks (shr_regular p s3 (by omega))
      · split
        · exact same_shrinks (shr_symlink p s3 (by omega))
        · split
          · refine Same.yield (s := { s3 with rem := 0, len := 0 }) (by simp only [RState.left] at *; omega) ?_
            intro i s4 hc
            have := (consume_facts hc).2
            simp only [RState.left] at *
            cases i with
            | false => exact .done (by simp only [RState.left]; omega)
            | true => exact ih.2 stack p s4 n (by omega) (by omega)
          · exact (same_shrinks (shr_expectClose tok (Nat.le_refl _))).weaken (by omega)
    · intro stack p s n hn hs
      unfold parseEntries Memory.parseEntries
      rw [mem_expect hb (by decide), mem_expect hb (by decide), mem_expect hb (by decide), mem_expect hb (by decide), mem_read hb (by decide),
        mem_read hb (by decide)]
      rw [Coro.run_bind, Coro.run_bind]
      refine same_rd (fwd_readString _ (by simp [tokenLenMax])) hn ?_
      intro tok s1 h1
      split
      · rw [Coro.run_bind, Coro.run_bind]
        refine same_rd (fwd_expectString _ (by simp)) (by omega) ?_
        intro _ s2 h2
        rw [Coro.run_bind, Coro.run_bind]
        refine same_rd (fwd_expectString _ (by simp)) (by omega) ?_
        intro _ s3 h3
        rw [Coro.run_bind, Coro.run_bind]
        refine same_rd (fwd_readString _ (by simp [nameLenMax])) (by omega) ?_
        intro name s4 h4
        split
        · exact .done (by omega)
        · rw [Coro.run_bind, Coro.run_bind]
          refine same_rd (fwd_expectString _ (by simp)) (by omega) ?_
          intro _ s5 h5
          rw [Coro.run_bind, Coro.run_bind]
          refine Same.weaken (n := s5.left) (Same.bind (ih.1 stack (pathJoin p name) s5 _ (Nat.le_refl _) (by omega)) ?_) (by omega)
          intro _ s6 h6
          rw [Coro.run_bind, Coro.run_bind]
          refine same_rd (fwd_expectString _ (by simp)) h6 ?_
          intro _ s7 h7
          split
          · exact .done (by omega)
          · exact ih.2 stack p s7 _ (by omega) (by omega)
      · split
        · exact .done (by omega)
        · exact ih.2 stack p s1 n (by omega) (by omega)

/-- The goroutines of the two readers are at corresponding places. -/
inductive SamePhase (m : Memory.Mem) (st : RState) : Phase → Phase → Prop
  | start : st.left < 64 * m.stack → SamePhase m st .start (.waiting (Memory.goroutine m))
  | waiting {n : Nat} {s0 : RState} {k k' : Bool → RState → Step RState Header Bool Unit} : Consume s0 st →
      (∀ i s', Consume s0 s' → Same n (k i s') (k' i s')) → SamePhase m st (.waiting k) (.waiting k')
  | over {p p' : Phase} : p = .finished ∨ p = .stuck → p' = .finished ∨ p' = .stuck → SamePhase m st p p'

/-- Two readers that cannot be told apart. -/
structure SameReader (m : Memory.Mem) (r r' : Reader) : Prop where
  st : r'.st = r.st
  err : r'.err = r.err
  prev : r'.prev = r.prev
  closed : r'.closed = r.closed
  phase : SamePhase m r.st r.phase r'.phase


theorem same_read {m : Memory.Mem} {r r' : Reader} (h : SameReader m r r') (k : Nat) :
    (r'.read k).1 = (r.read k).1 ∧ SameReader m (r.read k).2 (r'.read k).2 := by
  obtain ⟨s', h1, h2⟩ := read_consume r k
  have e1 : (r'.read k).1 = (r.read k).1 := by unfold Reader.read; rw [h.st]; split; rfl; simp only []; split <;> rfl
  have e2 : (r'.read k).2 = { r' with st := (r.read k).2.st } := by
    unfold Reader.read
    rw [h.st]
    split
    · rw [← h.st]
    · simp only []
      split
      · rw [← h.st]
      · rfl
  refine ⟨e1, ?_⟩
  rw [e2, h2]
  refine ⟨rfl, h.err, h.prev, h.closed, ?_⟩
  have hp := h.phase
  show SamePhase m s' r.phase r'.phase
  generalize r.phase = p at hp
  generalize r'.phase = p' at hp
  cases hp with
  | start hl => exact .start (Nat.lt_of_le_of_lt (consume_facts h1).2 hl)
  | waiting c1 c2 => exact .waiting (c1.trans h1) c2
  | over p1 p2 => exact .over p1 p2

theorem same_resume {m : Memory.Mem} (hb : pathLenMax ≤ m.block) {r r' : Reader} (h : SameReader m r r') :
    (r.resume = none ∧ r'.resume = none) ∨ ∃ n st st', r.resume = some st ∧ r'.resume = some st' ∧ Same n st st' := by
  have hp := h.phase
  unfold Reader.resume
  rw [h.st]
  generalize r.phase = p at hp
  generalize r'.phase = p' at hp
  cases hp with
  | start hl => exact .inr ⟨_, _, _, rfl, rfl, (same_node m.block hb _).1 m.stack _ _ _ (Nat.le_refl _) hl⟩
  | waiting c1 c2 => exact .inr ⟨_, _, _, rfl, rfl, c2 true _ c1⟩
  | over p1 p2 =>
    left
    rcases p1 with rfl | rfl <;> rcases p2 with rfl | rfl <;> exact ⟨rfl, rfl⟩

theorem same_receive {m : Memory.Mem} {r r' : Reader} (h : SameReader m r r') {n : Nat} {st st' : Step RState Header Bool Unit} (hs : Same n st st') :
    (r'.receive st').1 = (r.receive st).1 ∧ SameReader m (r.receive st).2 (r'.receive st').2 := by
  cases hs with
  | @done res s hl =>
    rcases res with _ | e | _
    · exact ⟨rfl, rfl, rfl, h.prev, h.closed, .over (.inl rfl) (.inl rfl)⟩
    · exact ⟨rfl, rfl, rfl, h.prev, h.closed, .over (.inl rfl) (.inl rfl)⟩
    · exact ⟨rfl, rfl, h.err, h.prev, h.closed, .over (.inl rfl) (.inl rfl)⟩
  | @yield hd s k k' hl hk =>
    rw [receive_yield, receive_yield, h.prev]
    split
    · exact ⟨rfl, rfl, h.err, rfl, h.closed, .waiting (Consume.refl s) hk⟩
    · exact ⟨rfl, rfl, rfl, rfl, h.closed, .waiting (Consume.refl s) hk⟩

theorem same_next {m : Memory.Mem} (hb : pathLenMax ≤ m.block) {r r' : Reader} (h : SameReader m r r') :
    r'.next.1 = r.next.1 ∧ SameReader m r.next.2 r'.next.2 := by
  unfold Reader.next
  rw [h.err, h.closed]
  cases r.err with
  | some e => exact ⟨rfl, h⟩
  | none =>
    simp only []
    split
    · exact ⟨rfl, h⟩
    · rcases same_resume hb h with ⟨h1, h2⟩ | ⟨n, st, st', h1, h2, hs⟩
      · rw [h1, h2]; exact ⟨rfl, h⟩
      · rw [h1, h2]; exact same_receive h hs

theorem same_close {m : Memory.Mem} {r r' : Reader} (h : SameReader m r r') :
    r'.close.1 = r.close.1 ∧ SameReader m r.close.2 r'.close.2 := by
  unfold Reader.close
  rw [h.err, h.closed, h.st]
  split
  · exact ⟨rfl, h⟩
  · split
    · exact ⟨rfl, h⟩
    · have hp := h.phase
      generalize r.phase = p at hp
      generalize r'.phase = p' at hp
      cases hp with
      | start hl => exact ⟨rfl, rfl, rfl, h.prev, rfl, .over (.inl rfl) (.inr rfl)⟩
      | @waiting n s0 k k' c1 c2 =>
        refine ⟨rfl, ?_, rfl, h.prev, rfl, .over (.inr rfl) (.inr rfl)⟩
        have := c2 false _ c1
        show Step.state (k' false r.st) = Step.state (k false r.st)
        generalize k false r.st = a at this
        generalize k' false r.st = b at this
        cases this <;> rfl
      | over p1 p2 =>
        rcases p1 with rfl | rfl <;> rcases p2 with rfl | rfl
        · exact ⟨rfl, rfl, rfl, h.prev, rfl, .over (.inl rfl) (.inl rfl)⟩
        · exact ⟨rfl, rfl, rfl, h.prev, rfl, .over (.inl rfl) (.inr rfl)⟩
        · exact ⟨rfl, rfl, rfl, h.prev, rfl, .over (.inr rfl) (.inl rfl)⟩
        · exact ⟨rfl, rfl, rfl, h.prev, rfl, .over (.inr rfl) (.inr rfl)⟩

theorem same_run {m : Memory.Mem} (hb : pathLenMax ≤ m.block) {r r' : Reader} (h : SameReader m r r') (ops : List ROp) :
    (r'.run ops).1 = (r.run ops).1 := by
  induction ops generalizing r r' with
  | nil => rfl
  | cons o os ih =>
    have key : (r'.op o).1 = (r.op o).1 ∧ SameReader m (r.op o).2 (r'.op o).2 := by
      cases o with
      | next => exact ⟨congrArg ROut.next (same_next hb h).1, (same_next hb h).2⟩
      | read k => exact ⟨congrArg ROut.read (same_read h k).1, (same_read h k).2⟩
      | close => exact ⟨congrArg ROut.close (same_close h).1, (same_close h).2⟩
    simp only [Reader.run, key.1, ih key.2]

/-- C138: a process that can allocate 4095 bytes at once and make one nested call for every 64 bytes of input reads whatever it is given, with whatever
calls, like a process without limits. -/
theorem C138_reader (m : Memory.Mem) (hb : 4095 ≤ m.block) (s : Stream) (hs : s.data.length ≤ 64 * m.stack) :
    (∀ r s', newReader s = (.ok r, s') → ∃ r', Memory.newReader m s = (.ok r', s') ∧ ∀ ops, (r'.run ops).1 = (r.run ops).1) ∧
    (∀ e s', newReader s = (.err e, s') → Memory.newReader m s = (.err e, s')) := by
  have he : Memory.expectString m.block narVersionMagic1 = expectString narVersionMagic1 := mem_expect (block := m.block) hb (by decide)
  unfold newReader Memory.newReader
  rw [he]
  rcases hx : expectString narVersionMagic1 s with ⟨_ | e | _, s1⟩
  · refine ⟨?_, fun e s' h => by simp at h⟩
    intro r s' h
    simp only [Prod.mk.injEq, Res.ok.injEq] at h
    obtain ⟨rfl, rfl⟩ := h
    refine ⟨_, rfl, fun ops => same_run (m := m) hb (r := ⟨⟨s1, 0, 0⟩, .start, none, [], false⟩) (r' := ⟨⟨s1, 0, 0⟩, .waiting (Memory.goroutine m), none, [], false⟩)
      ⟨rfl, rfl, rfl, rfl, .start ?_⟩ ops⟩
    have := (fwd_expectString narVersionMagic1 (by decide)).ok s () (by rw [hx])
    rw [hx] at this
    simp only [RState.left] at *
    omega
  · refine ⟨fun r s' h => by simp at h, ?_⟩
    intro e' s' h
    exact h
  · exact absurd (by rw [hx]) ((fwd_expectString narVersionMagic1 (by decide)).noPanic s)

/-! ### exactly -/

theorem pathDepth_abs {cs : List Bytes} (h : ∀ c ∈ cs, Good c) : pathDepth (absPath cs) = cs.length + 1 := by
  have key : ∀ (c : Bytes) (cs : List Bytes), (∀ x ∈ c :: cs, Good x) → (join (c :: cs) b!"/").count 47 = cs.length := by
    intro c cs
    induction cs generalizing c with
    | nil =>
      intro h
      simp only [join, List.length_nil]
      exact List.count_eq_zero.2 (h c (by simp)).2.2.2
    | cons d cs ih =>
      intro h
      rw [join, List.count_append, List.count_append, ih d (fun x hx => h x (List.mem_cons_of_mem _ hx)),
        List.count_eq_zero.2 (h c (by simp)).2.2.2]
      simp; omega
  unfold pathDepth
  cases cs with
  | nil => rfl
  | cons c cs =>
    have hc := h c (by simp)
    have : absPath (c :: cs) ≠ b!"/" := by
      intro hh
      have h2 := cleanComps_absPath h
      rw [hh] at h2
      exact absurd h2.symm (by simp [show cleanComps b!"/" = [] from rfl])
    rw [if_neg this]
    unfold absPath
    rw [List.count_cons_self, key c cs h]
    simp

theorem shallow_head {cs : List Bytes} (h : ∀ c ∈ cs, Good c) (L : Nat) (e : Entry) (he : e.path = absPath cs) :
    decide (pathDepth e.path ≤ L) = decide (cs.length + 1 ≤ L) := by rw [he, pathDepth_abs h]

theorem takeWhile_cases {α : Type} (p : α → Bool) (l l' : List α) :
    ((∀ a ∈ l, p a = true) ∧ (l ++ l').takeWhile p = l ++ l'.takeWhile p) ∨
    ((¬ ∀ a ∈ l, p a = true) ∧ (l ++ l').takeWhile p = l.takeWhile p) := by
  induction l with
  | nil => exact .inl ⟨by simp, rfl⟩
  | cons a l ih =>
    cases h : p a with
    | false => exact .inr ⟨fun hh => by simpa [h] using hh a (by simp), by simp [h]⟩
    | true =>
      rcases ih with ⟨h1, h2⟩ | ⟨h1, h2⟩
      · exact .inl ⟨by simpa [h] using h1, by simp [h, h2]⟩
      · exact .inr ⟨fun hh => h1 fun b hb => hh b (List.mem_cons_of_mem _ hb), by simp [h, h2]⟩

section
variable {β : Type} {block : Nat} (hb : pathLenMax ≤ block)
include hb

mutual
theorem mem_runs_node (tr : Tree) (hall : tr.All NameRd NodeRd) (fuel stack : Nat) (cs : List Bytes)
    (hcs : ∀ c ∈ cs, Good c) (rest : Bytes) (t : Err) (r l : Nat)
    (hfuel : (tr.node ++ rest).length < fuel) (out es : List Entry) (Q : Step RState Header Bool β → Prop)
    (f : Unit → RState → Step RState Header Bool β)
    (hA : (∀ e ∈ tr.entriesAt (absPath cs), decide (pathDepth e.path ≤ cs.length + stack) = true) →
      out = tr.entriesAt (absPath cs) ++ es ∧ ∀ r l, Runs Q es (f () ⟨⟨rest, t⟩, r, l⟩))
    (hB : (¬ ∀ e ∈ tr.entriesAt (absPath cs), decide (pathDepth e.path ≤ cs.length + stack) = true) →
      out = (tr.entriesAt (absPath cs)).takeWhile (fun e => decide (pathDepth e.path ≤ cs.length + stack)) ∧ ∀ s, Q (.done .panic s)) :
    Runs Q out (((Memory.parseNode block fuel stack (absPath cs)).run ⟨⟨tr.node ++ rest, t⟩, r, l⟩).bind f) := by
  obtain ⟨fuel, rfl⟩ : ∃ k, fuel = k + 1 := ⟨fuel - 1, by omega⟩
  have hd : ∃ e es', tr.entriesAt (absPath cs) = e :: es' ∧ e.path = absPath cs := by
    cases tr <;> exact ⟨_, _, rfl, rfl⟩
  cases stack with
  | zero =>
    obtain ⟨e, es', h1, h2⟩ := hd
    have h3 := shallow_head hcs (cs.length + 0) e h2
    have h4 : decide (cs.length + 1 ≤ cs.length + 0) = false := by simp
    rw [h1] at hB
    obtain ⟨h5, h6⟩ := hB (fun hh => by have := hh e (by simp); rw [h3, h4] at this; simp at this)
    rw [List.takeWhile_cons_of_neg (by rw [h3, h4]; simp)] at h5
    rw [h5]
    exact h6 _
  | succ stack =>
    have hhd : ∀ e : Entry, e.path = absPath cs → decide (pathDepth e.path ≤ cs.length + (stack + 1)) = true := by
      intro e he
      rw [shallow_head hcs _ e he]
      simp
    cases tr with
    | regular ex c =>
      have hAll : ∀ e ∈ (Tree.regular ex c).entriesAt (absPath cs), decide (pathDepth e.path ≤ cs.length + (stack + 1)) = true := by
        intro e he
        simp only [Tree.entriesAt, List.mem_singleton] at he
        exact hhd e (by rw [he])
      obtain ⟨rfl, hf⟩ := hA hAll
      simp only [Tree.node, Tree.entriesAt, Memory.parseNode, List.append_assoc, List.cons_append, List.nil_append]
      rw [mem_expect hb (by decide), mem_expect hb (by decide), mem_read hb (by decide), mem_regular hb]
      simp only [Tree.All, NodeRd] at hall
      rw [Coro.run_bind, Step.bind_assoc, rd_expect _ _ _ _ _ (by simp)]
      rw [Coro.run_bind, Step.bind_assoc, rd_expect _ _ _ _ _ (by simp)]
      rw [Coro.run_bind, Step.bind_assoc, rd_tok _ _ _ _ _ _ (by simp [tokenLenMax]) (by simp [tokenLenMax])]
      rw [if_pos rfl]
      exact runs_regular (absPath cs) ex c rest t r l hall es Q f hf
    | symlink tg =>
      have hAll : ∀ e ∈ (Tree.symlink tg).entriesAt (absPath cs), decide (pathDepth e.path ≤ cs.length + (stack + 1)) = true := by
        intro e he
        simp only [Tree.entriesAt, List.mem_singleton] at he
        exact hhd e (by rw [he])
      obtain ⟨rfl, hf⟩ := hA hAll
      simp only [Tree.node, Tree.entriesAt, Memory.parseNode, List.append_assoc, List.cons_append, List.nil_append]
      rw [mem_expect hb (by decide), mem_expect hb (by decide), mem_read hb (by decide), mem_symlink hb]
      simp only [Tree.All, NodeRd] at hall
      rw [Coro.run_bind, Step.bind_assoc, rd_expect _ _ _ _ _ (by simp)]
      rw [Coro.run_bind, Step.bind_assoc, rd_expect _ _ _ _ _ (by simp)]
      rw [Coro.run_bind, Step.bind_assoc, rd_tok _ _ _ _ _ _ (by simp [tokenLenMax]) (by simp [tokenLenMax])]
      have e : ¬ (b!"symlink" = b!"regular") := by decide
      rw [if_neg e, if_pos rfl]
      exact runs_symlink (absPath cs) tg rest t r l hall es Q f hf
    | directory ents =>
      simp only [Tree.All] at hall
      have hd0 := hhd ⟨absPath cs, b!"directory", false, [], []⟩ rfl
      simp only [Tree.entriesAt, List.forall_mem_cons, List.cons_append] at hA hB
      have hL : cs.length + (stack + 1) = cs.length + 1 + stack := by omega
      obtain ⟨out', ho, hA', hB'⟩ : ∃ out', out = ⟨absPath cs, b!"directory", false, [], []⟩ :: out' ∧
          ((∀ e ∈ ents.entriesAt (absPath cs), decide (pathDepth e.path ≤ cs.length + 1 + stack) = true) →
            out' = ents.entriesAt (absPath cs) ++ es ∧ ∀ r l, Runs Q es (f () ⟨⟨rest, t⟩, r, l⟩)) ∧
          ((¬ ∀ e ∈ ents.entriesAt (absPath cs), decide (pathDepth e.path ≤ cs.length + 1 + stack) = true) →
            out' = (ents.entriesAt (absPath cs)).takeWhile (fun e => decide (pathDepth e.path ≤ cs.length + 1 + stack)) ∧
              ∀ s, Q (.done .panic s)) := by
        rw [← hL]
        by_cases hc : ∀ e ∈ ents.entriesAt (absPath cs), decide (pathDepth e.path ≤ cs.length + (stack + 1)) = true
        · obtain ⟨h1, h2⟩ := hA ⟨hd0, hc⟩
          exact ⟨_, h1, fun _ => ⟨rfl, h2⟩, fun h => absurd hc h⟩
        · obtain ⟨h1, h2⟩ := hB (fun h => hc h.2)
          rw [List.takeWhile_cons, if_pos hd0] at h1
          exact ⟨_, h1, fun h => absurd h hc, fun _ => ⟨rfl, h2⟩⟩
      subst ho
      simp only [Tree.node, Memory.parseNode, List.append_assoc]
      rw [mem_expect hb (by decide), mem_expect hb (by decide), mem_read hb (by decide)]
      have hlen : (ents.nodes ++ (str b!")" ++ rest)).length < fuel := by
        simp only [Tree.node, List.length_append] at hfuel ⊢
        have := str_pos b!"("
        omega
      rw [Coro.run_bind, Step.bind_assoc, rd_expect _ _ _ _ _ (by simp)]
      rw [Coro.run_bind, Step.bind_assoc, rd_expect _ _ _ _ _ (by simp)]
      rw [Coro.run_bind, Step.bind_assoc, rd_tok _ _ _ _ _ _ (by simp [tokenLenMax]) (by simp [tokenLenMax])]
      have e : ¬ (b!"directory" = b!"regular") := by decide
      have e' : ¬ (b!"directory" = b!"symlink") := by decide
      rw [if_neg e, if_neg e', if_pos rfl]
      refine ⟨ents.nodes ++ (str b!")" ++ rest), t, 0, _, str_append_ne _ _ _, rfl, ?_⟩
      intro s' hcons
      obtain ⟨j, h1, h2, rfl⟩ := hcons
      simp only [List.length_nil, Nat.le_zero] at h1
      subst h1
      exact mem_runs_entries ents hall.2.2 fuel stack cs hcs rest t 0 0 hlen out' es Q f hA' hB'
theorem mem_runs_entries (ents : Entries) (hall : ents.All NameRd NodeRd) (fuel stack : Nat) (cs : List Bytes)
    (hcs : ∀ c ∈ cs, Good c) (rest : Bytes) (t : Err) (r l : Nat)
    (hfuel : (ents.nodes ++ (str b!")" ++ rest)).length < fuel) (out es : List Entry)
    (Q : Step RState Header Bool β → Prop)
    (f : Unit → RState → Step RState Header Bool β)
    (hA : (∀ e ∈ ents.entriesAt (absPath cs), decide (pathDepth e.path ≤ cs.length + 1 + stack) = true) →
      out = ents.entriesAt (absPath cs) ++ es ∧ ∀ r l, Runs Q es (f () ⟨⟨rest, t⟩, r, l⟩))
    (hB : (¬ ∀ e ∈ ents.entriesAt (absPath cs), decide (pathDepth e.path ≤ cs.length + 1 + stack) = true) →
      out = (ents.entriesAt (absPath cs)).takeWhile (fun e => decide (pathDepth e.path ≤ cs.length + 1 + stack)) ∧ ∀ s, Q (.done .panic s)) :
    Runs Q out
      (((Memory.parseEntries block fuel stack (absPath cs)).run ⟨⟨ents.nodes ++ (str b!")" ++ rest), t⟩, r, l⟩).bind f) := by
  obtain ⟨fuel, rfl⟩ : ∃ k, fuel = k + 1 := ⟨fuel - 1, by omega⟩
  cases ents with
  | nil =>
    obtain ⟨rfl, hf⟩ := hA (by simp [Entries.entriesAt])
    simp only [Entries.nodes, Entries.entriesAt, Memory.parseEntries, List.nil_append]
    rw [mem_read hb (by decide)]
    rw [Coro.run_bind, Step.bind_assoc, rd_tok _ _ _ _ _ _ (by simp [tokenLenMax]) (by simp [tokenLenMax])]
    have e : ¬ (b!")" = b!"entry") := by decide
    rw [if_neg e, if_pos rfl]
    exact hf r l
  | cons n tr ents =>
    simp only [Entries.All] at hall
    obtain ⟨⟨hn1, hn2, hn3⟩, ht, hrest⟩ := hall
    simp only [Entries.entriesAt] at hA hB
    rw [← absPath_snoc cs n hcs] at hA hB
    simp only [Entries.nodes, Memory.parseEntries, List.append_assoc]
    rw [mem_expect hb (by decide), mem_expect hb (by decide), mem_expect hb (by decide), mem_expect hb (by decide), mem_read hb (by decide),
      mem_read hb (by decide)]
    have hp1 := str_pos b!"entry"
    have hlen1 : (tr.node ++ (str b!")" ++ (ents.nodes ++ (str b!")" ++ rest)))).length < fuel := by
      simp only [Entries.nodes, List.length_append] at hfuel ⊢; omega
    have hlen2 : (ents.nodes ++ (str b!")" ++ rest)).length < fuel := by
      simp only [Entries.nodes, List.length_append] at hfuel ⊢; omega
    rw [Coro.run_bind, Step.bind_assoc, rd_tok _ _ _ _ _ _ (by simp [tokenLenMax]) (by simp [tokenLenMax])]
    rw [if_pos rfl]
    rw [Coro.run_bind, Step.bind_assoc, rd_expect _ _ _ _ _ (by simp)]
    rw [Coro.run_bind, Step.bind_assoc, rd_expect _ _ _ _ _ (by simp)]
    rw [Coro.run_bind, Step.bind_assoc, rd_tok _ _ _ _ _ _ (by simpa [nameLenMax] using hn3) (by simp [nameLenMax])]
    have hv : isValidNodeName n = true := (isValidNodeName_iff n).2 ⟨hn1.2.2.2.1, hn1.2.2.2.2⟩
    rw [if_neg (by simp [hv])]
    rw [Coro.run_bind, Step.bind_assoc, rd_expect _ _ _ _ _ (by simp)]
    rw [Coro.run_bind, Step.bind_assoc, pathJoin_good hcs (nameOk_good hn1)]
    have hcs' : ∀ c ∈ cs ++ [n], Good c := by
      intro c hc
      rcases List.mem_append.1 hc with h | h
      · exact hcs c h
      · rw [List.mem_singleton.1 h]; exact (nameOk_good hn1)
    have hL : (cs ++ [n]).length + stack = cs.length + 1 + stack := by simp
    rcases takeWhile_cases (fun e : Entry => decide (pathDepth e.path ≤ cs.length + 1 + stack)) (tr.entriesAt (absPath (cs ++ [n])))
        (ents.entriesAt (absPath cs)) with ⟨k1, k2⟩ | ⟨k1, k2⟩
    · obtain ⟨out', ho, hA', hB'⟩ : ∃ out', out = tr.entriesAt (absPath (cs ++ [n])) ++ out' ∧
          ((∀ e ∈ ents.entriesAt (absPath cs), decide (pathDepth e.path ≤ cs.length + 1 + stack) = true) →
            out' = ents.entriesAt (absPath cs) ++ es ∧ ∀ r l, Runs Q es (f () ⟨⟨rest, t⟩, r, l⟩)) ∧
          ((¬ ∀ e ∈ ents.entriesAt (absPath cs), decide (pathDepth e.path ≤ cs.length + 1 + stack) = true) →
            out' = (ents.entriesAt (absPath cs)).takeWhile (fun e => decide (pathDepth e.path ≤ cs.length + 1 + stack)) ∧
              ∀ s, Q (.done .panic s)) := by
        by_cases hc : ∀ e ∈ ents.entriesAt (absPath cs), decide (pathDepth e.path ≤ cs.length + 1 + stack) = true
        · obtain ⟨h1, h2⟩ := hA (fun e he => (List.mem_append.1 he).elim (k1 e) (hc e))
          rw [List.append_assoc] at h1
          exact ⟨_, h1, fun _ => ⟨rfl, h2⟩, fun h => absurd hc h⟩
        · obtain ⟨h1, h2⟩ := hB (fun h => hc fun e he => h e (List.mem_append_right _ he))
          rw [k2] at h1
          exact ⟨_, h1, fun h => absurd h hc, fun _ => ⟨rfl, h2⟩⟩
      refine mem_runs_node tr ht fuel stack (cs ++ [n]) hcs' _ t r l hlen1 out out' Q _ ?_ ?_
      · rw [hL]
        intro _
        refine ⟨ho, ?_⟩
        intro r' l'
        rw [Coro.run_bind, Step.bind_assoc, rd_expect _ _ _ _ _ (by simp)]
        rw [if_neg hn2]
        exact mem_runs_entries ents hrest fuel stack cs hcs rest t r' l' hlen2 out' es Q f hA' hB'
      · rw [hL]
        intro h
        exact absurd k1 h
    · obtain ⟨h1, h2⟩ := hB (fun h => k1 fun e he => h e (List.mem_append_left _ he))
      rw [k2] at h1
      refine mem_runs_node tr ht fuel stack (cs ++ [n]) hcs' _ t r l hlen1 out [] Q _ ?_ ?_
      · rw [hL]
        intro h
        exact absurd h k1
      · rw [hL]
        intro _
        exact ⟨h1, h2⟩
end

end

theorem step_bind_pure (st : Step RState Header Bool Unit) : st.bind (fun a s => .done (.ok a) s) = st := by
  induction st with
  | done r s => rcases r with _ | _ | _ <;> rfl
  | yield y s k ih => simp only [Step.bind_yield]; congr 1; funext i s'; exact ih i s'

/-- C138: exactly. In a process with room for `stack` nested calls, reading the archive of a tree returns the entries in order up to the first whose depth
is more than `stack`, each with its contents; then the program ends, unless there is no such entry: then the archive has been read to its end. -/
theorem C138_tree (m : Memory.Mem) (hb : 4095 ≤ m.block) (t : Tree) (ht : t.All NameRd NodeRd) (rest : Bytes) (e : Err)
    (plan : List (List Nat)) (hplan : plan.length = ((t.entriesAt b!"/").takeWhile fun en => decide (pathDepth en.path ≤ m.stack)).length) :
    ∃ r s', Memory.newReader m ⟨t.nar ++ rest, e⟩ = (.ok r, s') ∧
      (r.session plan).1 = List.zipWith (fun en ks => (.ok (hdrOf en), readResults en.contents ks))
        ((t.entriesAt b!"/").takeWhile fun en => decide (pathDepth en.path ≤ m.stack)) plan ∧
      ((∀ en ∈ t.entriesAt b!"/", pathDepth en.path ≤ m.stack) → ∃ r'', (r.session plan).2.next = (.err .eof, r'') ∧ r''.st.stream = ⟨rest, e⟩) ∧
      ((¬ ∀ en ∈ t.entriesAt b!"/", pathDepth en.path ≤ m.stack) → (r.session plan).2.next.1 = .panic) := by
  have hb' : pathLenMax ≤ m.block := hb
  have hnew : Memory.newReader m ⟨t.nar ++ rest, e⟩ = (.ok ⟨⟨⟨t.node ++ rest, e⟩, 0, 0⟩, .waiting (Memory.goroutine m), none, [], false⟩, ⟨t.node ++ rest, e⟩) := by
    unfold Memory.newReader Tree.nar
    rw [mem_expect hb' (by decide), List.append_assoc]
    rw [show expectString narVersionMagic1 ⟨str b!"nix-archive-1" ++ (t.node ++ rest), e⟩ = (.ok (), ⟨t.node ++ rest, e⟩) from
      expectString_str _ _ _ (by decide)]
  refine ⟨_, _, hnew, ?_⟩
  have hP : ∀ n, NameRd n → Good n := fun n hn => nameOk_good hn.1
  obtain ⟨hp1, hp2⟩ := tree_paths hP t ht [] (by simp)
  obtain ⟨Q, hQ⟩ : ∃ Q : Step RState Header Bool Unit → Prop, ∀ st, Q st ↔
      ((∀ en ∈ t.entriesAt b!"/", decide (pathDepth en.path ≤ m.stack) = true) ∧ ∃ r l, st = .done (.ok ()) ⟨⟨rest, e⟩, r, l⟩) ∨
      ((¬ ∀ en ∈ t.entriesAt b!"/", decide (pathDepth en.path ≤ m.stack) = true) ∧ ∃ s, st = .done .panic s) := ⟨_, fun _ => Iff.rfl⟩
  have hruns : Runs Q ((t.entriesAt b!"/").takeWhile fun en => decide (pathDepth en.path ≤ m.stack))
      (Memory.goroutine m true ⟨⟨t.node ++ rest, e⟩, 0, 0⟩) := by
    have := mem_runs_node (β := Unit) hb' t ht ((t.node ++ rest).length + 1) m.stack [] (by simp) rest e 0 0
      (Nat.lt_succ_self _) ((t.entriesAt b!"/").takeWhile fun en => decide (pathDepth en.path ≤ m.stack)) [] Q
      (fun a s => .done (.ok a) s)
    rw [step_bind_pure, List.length_nil, Nat.zero_add, absPath_nil] at this
    have eg : Memory.goroutine m true ⟨⟨t.node ++ rest, e⟩, 0, 0⟩ =
      (Memory.parseNode m.block ((t.node ++ rest).length + 1) m.stack b!"/").run ⟨⟨t.node ++ rest, e⟩, 0, 0⟩ := by
      unfold Memory.goroutine
      rw [if_pos rfl]
    rw [eg]
    refine this ?_ ?_
    · intro h
      have h' : (t.entriesAt b!"/").takeWhile (fun en => decide (pathDepth en.path ≤ m.stack)) = t.entriesAt b!"/" := by
        rcases takeWhile_cases (fun en : Entry => decide (pathDepth en.path ≤ m.stack)) (t.entriesAt b!"/") [] with ⟨_, k2⟩ | ⟨k1, _⟩
        · rw [List.append_nil, List.takeWhile_nil, List.append_nil] at k2
          exact k2
        · exact absurd h k1
      refine ⟨by rw [List.append_nil]; exact h', fun r l => ?_⟩
      exact (hQ _).2 (.inl ⟨h, r, l, rfl⟩)
    · intro h
      exact ⟨rfl, fun s => (hQ _).2 (.inr ⟨h, s, rfl⟩)⟩
  have hpw : (t.entriesAt b!"/").Pairwise (fun a b => pathIsLexicographicallyOrdered a.path b.path = true) := by
    have hp2' : (t.entriesAt b!"/").Pairwise (fun a b => cleanComps a.path < cleanComps b.path) := hp2
    refine hp2'.imp_of_mem ?_
    intro a b ha hb hab
    obtain ⟨ds, e1, g1⟩ := hp1 a ha
    obtain ⟨ds', e2, g2⟩ := hp1 b hb
    rw [e1, e2] at hab ⊢
    rw [cleanComps_absPath g1, cleanComps_absPath g2] at hab
    exact ordered_abs g1 g2 (List.le_of_lt hab)
  obtain ⟨h1, h2, h3, st', h4, h5⟩ := session_spec _ plan
    ⟨⟨⟨t.node ++ rest, e⟩, 0, 0⟩, .waiting (Memory.goroutine m), none, [], false⟩ _ rfl rfl rfl hruns
    (by intro e' _; simp [pathIsLexicographicallyOrdered, strLe])
    (hpw.sublist (List.takeWhile_sublist _)) (by omega)
  refine ⟨h1, ?_⟩
  rw [hplan, List.drop_length] at h5
  generalize (Reader.session _ plan).2 = q at h2 h3 h4 ⊢
  have hn : q.next = q.receive st' := by
    unfold Reader.next
    rw [h2]
    simp only []
    rw [if_neg (by rw [h3]; simp), h4]
  rw [hn]
  have hdec : (∀ en ∈ t.entriesAt b!"/", decide (pathDepth en.path ≤ m.stack) = true) ↔ ∀ en ∈ t.entriesAt b!"/", pathDepth en.path ≤ m.stack := by
    simp only [decide_eq_true_eq]
  rcases (hQ _).1 h5 with ⟨k1, r, l, rfl⟩ | ⟨k1, s, rfl⟩
  · exact ⟨fun _ => ⟨_, rfl, rfl⟩, fun h => absurd (hdec.1 k1) h⟩
  · exact ⟨fun h => absurd (hdec.2 h) k1, fun _ => rfl⟩

/-- C138: the memory needed has no bound: whatever the room for nested calls, there is a well-formed archive, of directories inside each other, whose reading
ends the program. -/
theorem C138_refuted (m : Memory.Mem) (hb : 4095 ≤ m.block) :
    ∃ t : Tree, t.All NameRd NodeRd ∧ ∃ r s', Memory.newReader m ⟨t.nar, .eof⟩ = (.ok r, s') ∧
      ∃ n, (r.session (List.replicate n [])).2.next.1 = .panic := by
  have hall : ∀ n, (nested n).All NameRd NodeRd := by
    intro n
    induction n with
    | zero => simp [nested, Tree.All, NodeRd]
    | succ n ih =>
      refine ⟨trivial, List.pairwise_singleton _ _, ⟨?_, ?_, ?_⟩, ih, trivial⟩ <;> decide
  have hdeep : ∀ n cs, (∀ c ∈ cs, Good c) → ∃ en ∈ (nested n).entriesAt (absPath cs), pathDepth en.path = cs.length + n + 1 := by
    intro n
    induction n with
    | zero => intro cs hcs; exact ⟨_, by simp [nested, Tree.entriesAt]; rfl, pathDepth_abs hcs⟩
    | succ n ih =>
      intro cs hcs
      have hcs' : ∀ c ∈ cs ++ [b!"a"], Good c := by
        intro c hc
        rcases List.mem_append.1 hc with h | h
        · exact hcs c h
        · rw [List.mem_singleton.1 h]; decide
      obtain ⟨en, h1, h2⟩ := ih (cs ++ [b!"a"]) hcs'
      refine ⟨en, ?_, by rw [h2]; simp; omega⟩
      simp only [nested, Tree.entriesAt, Entries.entriesAt, List.append_nil]
      rw [← absPath_snoc cs _ hcs]
      exact List.mem_cons_of_mem _ h1
  refine ⟨nested m.stack, hall _, ?_⟩
  obtain ⟨r, s', h1, _, _, h4⟩ := C138_tree m hb (nested m.stack) (hall _) [] .eof (List.replicate _ []) List.length_replicate
  rw [List.append_nil] at h1
  refine ⟨r, s', h1, _, h4 ?_⟩
  intro h
  obtain ⟨en, k1, k2⟩ := hdeep m.stack [] (by simp)
  have := h en k1
  rw [k2] at this
  simp at this
  omega

example : sampleTree.All NameRd NodeRd ∧ ((sampleTree.entriesAt b!"/").map fun en => pathDepth en.path) = [1, 2, 2, 3, 2] ∧
    ((sampleTree.entriesAt b!"/").takeWhile fun en => decide (pathDepth en.path ≤ 2)).length = 3 := ⟨sampleTree_ok, by decide, by decide⟩

end Verif.Props
