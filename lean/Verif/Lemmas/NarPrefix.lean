import Verif.Lemmas.NarHistory

/-! # What the reader does on a stream and on a longer one -/

namespace Verif.Nar
open Verif.GoLib Verif.Wire

/-- What succeeds on a stream succeeds with the same result on every longer one, whatever comes at the end. -/
def Loc {α : Type} (m : M Stream α) : Prop :=
  ∀ σ σ' : Stream, ∀ a, σ.data <+: σ'.data → (m σ).1 = .ok a → (m σ').1 = .ok a ∧ (m σ).2.data <+: (m σ').2.data

theorem Loc.pure {α : Type} (a : α) : Loc (Pure.pure a : M Stream α) := fun σ σ' b h hb => ⟨hb, h⟩

theorem Loc.fail {α : Type} (e : Err) : Loc (M.fail e : M Stream α) := fun σ σ' b h hb => by cases hb

theorem Loc.panic {α : Type} : Loc (M.panic : M Stream α) := fun σ σ' b h hb => by cases hb

theorem Loc.bind {α β : Type} {m : M Stream α} {f : α → M Stream β} (hm : Loc m) (hf : ∀ a, Loc (f a)) :
    Loc (m >>= f) := by
  intro σ σ' b h hb
  rcases hm1 : m σ with ⟨x, σ1⟩
  rw [M.bind_apply, hm1] at hb
  cases x with
  | err e => cases hb
  | panic => cases hb
  | ok a =>
    obtain ⟨h1, h2⟩ := hm σ σ' a h (by rw [hm1])
    rcases hm2 : m σ' with ⟨x', σ1'⟩
    rw [hm2] at h1 h2
    rw [hm1] at h2
    simp only at h1 h2 hb
    subst h1
    rw [M.bind_apply, M.bind_apply, hm1, hm2]
    exact hf a σ1 σ1' b h2 hb

theorem Loc.readFull (k : Nat) : Loc (readFull k) := by
  intro σ σ' a h ha
  unfold Wire.readFull at ha ⊢
  have hl := h.length_le
  by_cases hk : k ≤ σ.data.length
  · rw [if_pos hk] at ha ⊢
    rw [if_pos (by omega)]
    obtain ⟨z, hz⟩ := h
    simp only [Res.ok.injEq] at ha ⊢
    rw [← hz, List.take_append_of_le_length hk, List.drop_append_of_le_length hk]
    exact ⟨ha, List.prefix_append _ _⟩
  · rw [if_neg hk] at ha; cases ha

theorem Loc.readUint64 : Loc readUint64 := Loc.bind (Loc.readFull 8) fun _ => Loc.pure _

theorem Loc.readPadding (n : Nat) : Loc (readPadding n) := by
  unfold Wire.readPadding
  split
  · exact Loc.pure _
  · refine Loc.bind (Loc.readFull _) fun b => ?_
    split
    · exact Loc.pure _
    · exact Loc.fail _

/-- The padding, read or not, leaves a prefix. -/
theorem readPadding_prefix (n : Nat) {σ σ' : Stream} (h : σ.data <+: σ'.data) :
    (readPadding n σ).2.data <+: (readPadding n σ').2.data := by
  unfold Wire.readPadding
  split
  · exact h
  · rename_i h8
    have key : ∀ τ : Stream, (readPadding n τ).2 = (Wire.readFull (8 - n % 8) τ).2 := by
      intro τ
      unfold Wire.readPadding
      rw [if_neg h8, M.bind_apply]
      rcases Wire.readFull (8 - n % 8) τ with ⟨x, s⟩
      cases x with
      | ok a => simp only []; split <;> rfl
      | err e => rfl
      | panic => rfl
    have key' := key σ
    have key'' := key σ'
    unfold Wire.readPadding at key' key''
    rw [if_neg h8] at key' key''
    rw [key', key'']
    unfold Wire.readFull
    have hl := h.length_le
    by_cases hk : 8 - n % 8 ≤ σ.data.length
    · rw [if_pos hk, if_pos (by omega)]
      obtain ⟨z, hz⟩ := h
      simp only []
      rw [← hz, List.drop_append_of_le_length hk]
      exact List.prefix_append _ _
    · rw [if_neg hk]
      exact List.nil_prefix

theorem Loc.readContent (n : Nat) : Loc (readContent n) := by
  intro σ σ' a h ha
  have hl := h.length_le
  unfold Wire.readContent at ha ⊢
  by_cases hk : n ≤ σ.data.length
  · obtain ⟨h1, h2⟩ := Loc.readFull n σ σ' a h ha
    refine ⟨h1, ?_⟩
    simp only []
    rw [Nat.min_eq_left hk, Nat.min_eq_left (by omega), Nat.sub_self]
    unfold bytesReaderClose
    rw [if_neg (by omega), if_neg (by omega)]
    apply readPadding_prefix
    simpa using h2
  · have : (Wire.readFull n σ).1 = .ok a := ha
    unfold Wire.readFull at this
    rw [if_neg hk] at this
    cases this

theorem Loc.readBytesFull (n : Nat) : Loc (readBytesFull n) := by
  unfold Wire.readBytesFull
  refine Loc.bind Loc.readUint64 fun k => ?_
  split
  · exact Loc.fail _
  split
  · exact Loc.panic
  · exact Loc.readContent k

theorem Loc.readString (n : Nat) : Loc (readString n) := Loc.readBytesFull n

theorem Loc.expectString (e : Bytes) : Loc (expectString e) := by
  intro σ σ' a h ha
  unfold Nar.expectString at ha ⊢
  rcases hm : Wire.readString e.length σ with ⟨x, σ1⟩
  rw [hm] at ha
  cases x with
  | err e => cases ha
  | panic => cases ha
  | ok t =>
    obtain ⟨h1, h2⟩ := Loc.readString e.length σ σ' t h (by rw [hm])
    rcases hm2 : Wire.readString e.length σ' with ⟨x', σ1'⟩
    rw [hm2] at h1 h2
    rw [hm] at h2
    simp only at h1 h2 ha ⊢
    subst h1
    simp only []
    by_cases ht : t ≠ e
    · rw [if_pos ht] at ha; cases ha
    · rw [if_neg ht] at ha ⊢
      rw [if_neg ht]
      exact ⟨ha, h2⟩

theorem Loc.readPlaceholder : Loc readPlaceholder := by
  intro σ σ' a h ha
  unfold Nar.readPlaceholder at ha ⊢
  rcases hm : Wire.readBytesFull 0 σ with ⟨x, σ1⟩
  rw [hm] at ha
  cases x with
  | err e => cases ha
  | panic => cases ha
  | ok t =>
    obtain ⟨h1, h2⟩ := Loc.readBytesFull 0 σ σ' t h (by rw [hm])
    rcases hm2 : Wire.readBytesFull 0 σ' with ⟨x', σ1'⟩
    rw [hm2] at h1 h2
    rw [hm] at h2
    simp only at h1 h2 ha ⊢
    subst h1
    exact ⟨rfl, h2⟩

/-- The same position in a stream and in a longer one. -/
def SR (s s' : RState) : Prop := s.stream.data <+: s'.stream.data ∧ s.rem = s'.rem ∧ s.len = s'.len

/-- Until the first fails, the two goroutines do the same (as long as the contents are not read). -/
inductive Pre {α : Type} : Step RState Header Bool α → Step RState Header Bool α → Prop
  | err (e : Err) (s : RState) (st') : Pre (.done (.err e) s) st'
  | panic (s : RState) (st') : Pre (.done .panic s) st'
  | ok (a : α) {s s' : RState} (h : SR s s') : Pre (.done (.ok a) s) (.done (.ok a) s')
  | yield (y : Header) {s s' : RState} (h : SR s s') (k k') (hk : Pre (k true s) (k' true s')) :
      Pre (.yield y s k) (.yield y s' k')

theorem Pre.bind {α β : Type} {st st' : Step RState Header Bool α} {f f' : α → RState → Step RState Header Bool β}
    (h : Pre st st') (hf : ∀ a s s', SR s s' → Pre (f a s) (f' a s')) : Pre (st.bind f) (st'.bind f') := by
  induction h with
  | err e s st' => exact .err _ _ _
  | panic s st' => exact .panic _ _
  | ok a h => exact hf a _ _ h
  | yield y h k k' _ ih => exact .yield y h _ _ ih

/-- From every position the two goroutines do the same until the first fails. -/
def PreC {α : Type} (m m' : RCoro α) : Prop := ∀ s s', SR s s' → Pre (m.run s) (m'.run s')

theorem PreC.bind {α β : Type} {m m' : RCoro α} {f f' : α → RCoro β} (h : PreC m m') (hf : ∀ a, PreC (f a) (f' a)) :
    PreC (m >>= f) (m' >>= f') := fun s s' hs => (h s s' hs).bind fun a s s' hs => hf a s s' hs

theorem PreC.pure {α : Type} (a : α) : PreC (Pure.pure a) (Pure.pure a) := fun s s' hs => .ok a hs

theorem PreC.fail {α : Type} (e : Err) (m : RCoro α) : PreC (Coro.fail e) m := fun s s' _ => .err e s _

theorem PreC.rd {α : Type} {m : M Stream α} (h : Loc m) : PreC (rd m) (rd m) := by
  intro s s' hs
  simp only [Nar.rd, Coro.lift]
  rcases hm : m s.stream with ⟨x, σ1⟩
  cases x with
  | err e => exact .err _ _ _
  | panic => exact .panic _ _
  | ok a =>
    obtain ⟨h1, h2⟩ := h s.stream s'.stream a hs.1 (by rw [hm])
    rw [h1]
    rw [hm] at h2
    exact .ok a ⟨h2, hs.2.1, hs.2.2⟩

theorem PreC.setContent (n : Nat) : PreC (setContent n) (setContent n) :=
  fun s s' hs => .ok () ⟨hs.1, rfl, rfl⟩

theorem PreC.expectClose (tok : Bytes) : PreC (expectClose tok) (expectClose tok) := by
  unfold Nar.expectClose
  split
  · exact PreC.pure _
  · exact PreC.fail _ _

theorem PreC.yield {α : Type} (h : Header) {f f' : Bool → RCoro α} (hf : PreC (f true) (f' true)) :
    PreC (Coro.yield h >>= f) (Coro.yield h >>= f') := by
  intro s s' hs
  simp only [Coro.run_bind, Coro.run_yield, Step.bind_yield, Step.bind_done_ok]
  exact .yield h hs _ _ (hf s s' hs)

theorem readString_nil (n : Nat) (t : Err) : ∃ e s, readString n ⟨[], t⟩ = (.err e, s) :=
  ⟨_, _, by unfold Wire.readString Wire.readBytesFull; rfl⟩

theorem PreC.closeToken : PreC (closeContent >>= fun _ => Nar.rd (readString tokenLenMax) >>= Nar.expectClose)
    (closeContent >>= fun _ => Nar.rd (readString tokenLenMax) >>= Nar.expectClose) := by
  intro s s' hs
  have hg : PreC (Nar.rd (readString tokenLenMax) >>= Nar.expectClose) (Nar.rd (readString tokenLenMax) >>= Nar.expectClose) :=
    PreC.bind (PreC.rd (Loc.readString _)) fun tok => PreC.expectClose tok
  obtain ⟨hd, hr, hn⟩ := hs
  have hl := hd.length_le
  by_cases hk : s.rem ≤ s.stream.data.length
  · refine Pre.bind ?_ (fun _ => hg)
    simp only [closeContent]
    rw [← hr, ← hn, Nat.min_eq_left hk, Nat.min_eq_left (by omega)]
    unfold bytesReaderClose
    rw [if_neg (by omega), if_neg (by omega)]
    have hp : s.stream.data.drop s.rem <+: s'.stream.data.drop s.rem := by
      obtain ⟨z, hz⟩ := hd
      rw [← hz, List.drop_append_of_le_length hk]
      exact List.prefix_append _ _
    rcases hm : readPadding s.len { s.stream with data := s.stream.data.drop s.rem } with ⟨x, σ1⟩
    cases x with
    | err e => exact .err _ _ _
    | panic => exact .panic _ _
    | ok a =>
      obtain ⟨h1, h2⟩ := Loc.readPadding s.len { s.stream with data := s.stream.data.drop s.rem }
        { s'.stream with data := s'.stream.data.drop s.rem } a hp (by rw [hm])
      rw [h1]
      rw [hm] at h2
      exact .ok a ⟨h2, rfl, rfl⟩
  · -- the contents are cut off: nothing is left for the closing token
    have key : ∃ e t, (closeContent >>= fun _ => Nar.rd (readString tokenLenMax) >>= Nar.expectClose).run s = .done (.err e) t ∨
        (closeContent >>= fun _ => Nar.rd (readString tokenLenMax) >>= Nar.expectClose).run s = .done .panic t := by
      simp only [Coro.run_bind, closeContent]
      by_cases ht : s.stream.term = .eof
      · have e1 : bytesReaderClose s.rem s.len s.stream = readPadding s.len ⟨[], s.stream.term⟩ := by
          unfold bytesReaderClose
          rw [if_neg (by simp [ht]), List.drop_eq_nil_of_le (by omega)]
        rw [e1]
        unfold Wire.readPadding
        split
        · obtain ⟨e, σ, he⟩ := readString_nil tokenLenMax s.stream.term
          have h3 : ∀ c l, ((Nar.rd (readString tokenLenMax)).run ⟨⟨[], s.stream.term⟩, c, l⟩) = .done (.err e) ⟨σ, c, l⟩ := by
            intro c l
            simp only [Nar.rd, Coro.lift]
            rw [he]
          exact ⟨e, ⟨σ, s.rem - min s.rem (List.length s.stream.data), s.len⟩, .inl (by
            show Step.bind ((Nar.rd (readString tokenLenMax)).run ⟨⟨[], s.stream.term⟩, _, _⟩) (fun a s' => (Nar.expectClose a).run s') = _
            rw [h3]; rfl)⟩
        · rw [M.bind_apply]
          have : Wire.readFull (8 - s.len % 8) ⟨[], s.stream.term⟩ = (.err s.stream.term, ⟨[], s.stream.term⟩) := by
            unfold Wire.readFull
            rw [if_neg (by simp only [List.length_nil]; omega)]
            simp [shortErr]
          rw [this]
          exact ⟨_, _, .inl rfl⟩
      · have e1 : bytesReaderClose s.rem s.len s.stream = (.err s.stream.term, { s.stream with data := [] }) := by
          unfold bytesReaderClose
          rw [if_pos ⟨by omega, ht⟩]
        rw [e1]
        exact ⟨_, _, .inl rfl⟩
    obtain ⟨e, t, he | he⟩ := key
    · rw [he]; exact .err _ _ _
    · rw [he]; exact .panic _ _

theorem PreC.parseContents (p : Bytes) (ex : Bool) (tok : Bytes) :
    PreC (parseContents p ex tok) (parseContents p ex tok) := by
  unfold Nar.parseContents
  split
  · exact PreC.fail _ _
  · refine PreC.bind (PreC.rd Loc.readUint64) fun n => ?_
    split
    · exact PreC.fail _ _
    · refine PreC.bind (PreC.setContent n) fun _ => ?_
      exact PreC.yield _ PreC.closeToken

theorem PreC.parseRegular (p : Bytes) : PreC (parseRegular p) (parseRegular p) := by
  unfold Nar.parseRegular
  refine PreC.bind (PreC.rd (Loc.readString _)) fun tok => ?_
  split
  · refine PreC.bind (PreC.rd Loc.readPlaceholder) fun _ => ?_
    exact PreC.bind (PreC.rd (Loc.readString _)) fun tok => PreC.parseContents p true tok
  · exact PreC.parseContents p false tok

theorem PreC.parseSymlink (p : Bytes) : PreC (parseSymlink p) (parseSymlink p) := by
  unfold Nar.parseSymlink
  refine PreC.bind (PreC.rd (Loc.expectString _)) fun _ => ?_
  refine PreC.bind (PreC.rd (Loc.readString _)) fun tg => ?_
  refine PreC.bind (PreC.setContent 0) fun _ => ?_
  exact PreC.yield _ (PreC.bind (PreC.rd (Loc.readString _)) fun tok => PreC.expectClose tok)

theorem PreC.parse (fuel : Nat) : ∀ fuel', fuel ≤ fuel' →
    (∀ p, PreC (parseNode fuel p) (parseNode fuel' p)) ∧ ∀ p, PreC (parseEntries fuel p) (parseEntries fuel' p) := by
  induction fuel with
  | zero =>
    intro fuel' _
    constructor <;> intro p
    · simp only [Nar.parseNode]; exact PreC.fail _ _
    · simp only [Nar.parseEntries]; exact PreC.fail _ _
  | succ fuel ih =>
    intro fuel' hle
    obtain ⟨g, rfl⟩ : ∃ g, fuel' = g + 1 := ⟨fuel' - 1, by omega⟩
    have ih := ih g (by omega)
    constructor
    · intro p
      simp only [Nar.parseNode]
      refine PreC.bind (PreC.rd (Loc.expectString _)) fun _ => ?_
      refine PreC.bind (PreC.rd (Loc.expectString _)) fun _ => ?_
      refine PreC.bind (PreC.rd (Loc.readString _)) fun tok => ?_
      split
      · exact PreC.parseRegular p
      split
      · exact PreC.parseSymlink p
      split
      · refine PreC.bind (PreC.setContent 0) fun _ => ?_
        exact PreC.yield _ (ih.2 p)
      · exact PreC.expectClose tok
    · intro p
      simp only [Nar.parseEntries]
      refine PreC.bind (PreC.rd (Loc.readString _)) fun tok => ?_
      split
      · refine PreC.bind (PreC.rd (Loc.expectString _)) fun _ => ?_
        refine PreC.bind (PreC.rd (Loc.expectString _)) fun _ => ?_
        refine PreC.bind (PreC.rd (Loc.readString _)) fun name => ?_
        split
        · exact PreC.fail _ _
        · refine PreC.bind (PreC.rd (Loc.expectString _)) fun _ => ?_
          refine PreC.bind (ih.1 _) fun _ => ?_
          refine PreC.bind (PreC.rd (Loc.expectString _)) fun _ => ?_
          split
          · exact PreC.pure _
          · exact ih.2 p
      split
      · exact PreC.pure _
      · exact ih.2 p

/-! ### readers -/

/-- The same position, nothing of the contents read. -/
structure PreU (q q' : Reader) : Prop where
  err : q.err = none
  err' : q'.err = none
  closed : q.closed = false
  closed' : q'.closed = false
  prev : q.prev = q'.prev
  st : SR q.st q'.st
  resume : ∃ st st', q.resume = some st ∧ q'.resume = some st' ∧ Pre st st'

/-- The same position, each with some of the contents read. -/
def PreR (t t' : Err) (r r' : Reader) : Prop := ∃ q q', Same t r q ∧ Same t' r' q' ∧ PreU q q'

theorem preU_new {s s1 : Stream} {r : Reader} (h : newReader s = (.ok r, s1)) {s' : Stream} (hp : s.data <+: s'.data) :
    ∃ r' s1', newReader s' = (.ok r', s1') ∧ PreU r r' := by
  have hx : (Nar.expectString narVersionMagic1 s).1 = .ok () := by
    unfold newReader at h
    rcases hm : Nar.expectString narVersionMagic1 s with ⟨x, s2⟩
    rw [hm] at h
    cases x <;> simp_all
  obtain ⟨h1, h2⟩ := Loc.expectString _ s s' () hp hx
  rcases hm : Nar.expectString narVersionMagic1 s with ⟨x, σ⟩
  rcases hm' : Nar.expectString narVersionMagic1 s' with ⟨x', σ'⟩
  rw [hm] at hx h2
  rw [hm'] at h1 h2
  simp only at hx h1 h2
  subst hx h1
  unfold newReader at h ⊢
  rw [hm] at h
  rw [hm']
  simp only [Prod.mk.injEq, Res.ok.injEq] at h
  obtain ⟨rfl, rfl⟩ := h
  refine ⟨_, _, rfl, ⟨rfl, rfl, rfl, rfl, rfl, ⟨h2, rfl, rfl⟩, ?_⟩⟩
  refine ⟨_, _, rfl, rfl, ?_⟩
  exact (PreC.parse _ _ (by have := h2.length_le; simp only []; omega)).1 _ _ _ ⟨h2, rfl, rfl⟩

theorem next_of_resume {r : Reader} {st : Step RState Header Bool Unit} (he : r.err = none) (hc : r.closed = false)
    (hr : r.resume = some st) : r.next = r.receive st := by
  unfold Reader.next
  rw [he]
  simp only []
  rw [if_neg (by simp [hc]), hr]

theorem preU_next {q q' q1 : Reader} {h : Header} (hp : PreU q q') (hn : q.next = (.ok h, q1)) :
    ∃ q1', q'.next = (.ok h, q1') ∧ PreU q1 q1' := by
  obtain ⟨st, st', hr, hr', hs⟩ := hp.resume
  rw [next_of_resume hp.err hp.closed hr] at hn
  rw [next_of_resume hp.err' hp.closed' hr']
  cases hs with
  | err e s st' => cases hn
  | panic s st' => cases hn
  | ok a h => cases hn
  | yield y hsr k k' hk =>
    rw [receive_yield] at hn ⊢
    rw [← hp.prev]
    split at hn
    · rename_i ho
      simp only [Prod.mk.injEq, Call.ok.injEq] at hn
      obtain ⟨rfl, rfl⟩ := hn
      rw [if_pos ho]
      exact ⟨_, rfl, hp.err, hp.err', hp.closed, hp.closed', rfl, hsr, _, _, rfl, rfl, hk⟩
    · cases hn

/-- With content read or not, `Next` returns the same header and leaves the same reader. -/
theorem same_next_ok {t : Err} {r1 r2 r' : Reader} (h : Same t r1 r2) {hd : Header} (hn : r1.next = (.ok hd, r')) :
    r2.next = (.ok hd, r') := by
  have hr := same_resume h
  rcases next_cases r1 with ⟨e, he, h1⟩ | ⟨he, hc, h1⟩ | ⟨he, hc, hp, h1⟩ | ⟨he, hc, st, hs, h1⟩
  · rw [h1] at hn; cases hn
  · rw [h1] at hn; cases hn
  · rw [h1] at hn; cases hn
  · have h2 : r2.next = r2.receive st := next_of_resume (by rw [← h.err]; exact he) (by rw [← h.closed]; exact hc) (by rw [← hr]; exact hs)
    rw [h2, ← receive_same r1 r2 h.err h.closed h.prev, ← h1, hn]

theorem same_symm {t : Err} {r1 r2 : Reader} (h : Same t r1 r2) : Same t r2 r1 :=
  ⟨h.inv2, h.inv1, h.err.symm, h.closed.symm, h.prev.symm, h.phase.symm, fun hp => (h.st (by rw [h.phase]; exact hp)).symm,
    fun k hk => by
      obtain ⟨s0, a, b, c⟩ := h.wait k (by rw [h.phase]; exact hk)
      exact ⟨s0, b, a, c⟩⟩

theorem preR_next {t t' : Err} {r r' r1 : Reader} {h : Header} (hp : PreR t t' r r') (hn : r.next = (.ok h, r1)) :
    ∃ r1', r'.next = (.ok h, r1') ∧ PreR t t' r1 r1' ∧ SR r1.st r1'.st := by
  obtain ⟨q, q', hq, hq', hu⟩ := hp
  obtain ⟨q1', hn', hu'⟩ := preU_next hu (same_next_ok hq hn)
  have hn2 := same_next_ok (same_symm hq') hn'
  have i1 := (same_next hq).2.inv1
  have i2 := (same_next hq').2.inv1
  rw [hn] at i1
  rw [hn2] at i2
  exact ⟨q1', hn2, ⟨r1, q1', same_refl i1, same_refl i2, hu'⟩, hu'.st⟩

theorem preR_read {t t' : Err} {r r' : Reader} (hp : PreR t t' r r') (k : Nat) : PreR t t' (r.read k).2 r' := by
  obtain ⟨q, q', hq, hq', hu⟩ := hp
  exact ⟨q, q', same_read hq k, hq', hu⟩

theorem preR_read' {t t' : Err} {r r' : Reader} (hp : PreR t t' r r') (k : Nat) : PreR t t' r (r'.read k).2 := by
  obtain ⟨q, q', hq, hq', hu⟩ := hp
  exact ⟨q, q', hq, same_read hq' k, hu⟩

theorem preR_new {s s1 : Stream} {r : Reader} (h : newReader s = (.ok r, s1)) {s' : Stream} (hp : s.data <+: s'.data) :
    ∃ r' s1', newReader s' = (.ok r', s1') ∧ PreR s.term s'.term r r' := by
  obtain ⟨r', s1', h', hu⟩ := preU_new h hp
  exact ⟨r', s1', h', r, r', same_refl (rinv_new h), same_refl (rinv_new h'), hu⟩

/-- A reader that failed, or whose goroutine is gone, returns no header any more. -/
theorem preR_end {t t' : Err} {r r' r1 : Reader} {x : Call Header} (hp : PreR t t' r r') (hn : r.next = (x, r1))
    (hx : ∀ h, x ≠ .ok h) : r1.err ≠ none := by
  obtain ⟨q, q', hq, hq', hu⟩ := hp
  have he : r.err = none := hq.err.trans hu.err
  have hc : r.closed = false := hq.closed.trans hu.closed
  rcases x with h | e | _ | _
  · exact absurd rfl (hx h)
  · rw [(next_err hn).1]; simp
  · exact absurd (by rw [hn]) (next_not_panic hq.inv1 hc).1
  · exact absurd (by rw [hn]) (next_not_panic hq.inv1 hc).2

end Verif.Nar
