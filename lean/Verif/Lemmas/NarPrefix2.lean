import Verif.Lemmas.NarPrefix
import Verif.Lemmas.NarShrink

/-! # What the reader has seen completely it returns, even when the stream ends there -/

namespace Verif.Nar
open Verif.GoLib Verif.Wire

/-- What succeeds on a stream without touching the end `z` succeeds without that end, with the same result. Nothing is put
back. -/
structure Keep (z : Bytes) {α : Type} (m : M Stream α) : Prop where
  le : ∀ σ, (m σ).2.data.length ≤ σ.data.length
  keep : ∀ σ σ' : Stream, ∀ a, σ'.data = σ.data ++ z → (m σ').1 = .ok a → z.length ≤ (m σ').2.data.length →
    (m σ).1 = .ok a ∧ (m σ').2.data = (m σ).2.data ++ z

theorem Keep.pure (z : Bytes) {α : Type} (a : α) : Keep z (Pure.pure a : M Stream α) :=
  ⟨fun _ => Nat.le_refl _, fun _ _ _ h hb _ => ⟨hb, h⟩⟩

theorem Keep.fail (z : Bytes) {α : Type} (e : Err) : Keep z (M.fail e : M Stream α) :=
  ⟨fun _ => Nat.le_refl _, fun _ _ _ _ hb _ => by cases hb⟩

theorem Keep.panic (z : Bytes) {α : Type} : Keep z (M.panic : M Stream α) :=
  ⟨fun _ => Nat.le_refl _, fun _ _ _ _ hb _ => by cases hb⟩

theorem Keep.bind {z : Bytes} {α β : Type} {m : M Stream α} {f : α → M Stream β} (hm : Keep z m) (hf : ∀ a, Keep z (f a)) :
    Keep z (m >>= f) := by
  constructor
  · intro σ
    rw [M.bind_apply]
    have := hm.le σ
    rcases hm1 : m σ with ⟨x, σ1⟩
    rw [hm1] at this
    cases x with
    | err e => exact this
    | panic => exact this
    | ok a => exact Nat.le_trans ((hf a).le σ1) this
  · intro σ σ' b h hb hz
    rcases hm1 : m σ' with ⟨x, σ1'⟩
    rw [M.bind_apply, hm1] at hb hz
    cases x with
    | err e => cases hb
    | panic => cases hb
    | ok a =>
      simp only at hb hz
      have hle := (hf a).le σ1'
      obtain ⟨h1, h2⟩ := hm.keep σ σ' a h (by rw [hm1]) (by rw [hm1]; simp only []; omega)
      rcases hm2 : m σ with ⟨x', σ1⟩
      rw [hm2] at h1 h2
      rw [hm1] at h2
      simp only at h1 h2
      subst h1
      rw [M.bind_apply, M.bind_apply, hm1, hm2]
      exact (hf a).keep σ1 σ1' b h2 hb hz

theorem Keep.readFull (z : Bytes) (k : Nat) : Keep z (readFull k) := by
  constructor
  · exact (fwd_readFull k).le
  · intro σ σ' a h ha hz
    unfold Wire.readFull at ha hz ⊢
    by_cases hk : k ≤ σ'.data.length
    · rw [if_pos hk] at ha hz ⊢
      simp only [List.length_drop] at hz
      have hl : σ'.data.length = σ.data.length + z.length := by rw [h, List.length_append]
      rw [if_pos (by omega)]
      simp only [Res.ok.injEq] at ha ⊢
      rw [h, List.take_append_of_le_length (by omega)] at ha
      rw [h, List.drop_append_of_le_length (by omega)]
      exact ⟨ha, rfl⟩
    · rw [if_neg hk] at ha; cases ha

theorem Keep.readUint64 (z : Bytes) : Keep z readUint64 := Keep.bind (Keep.readFull z 8) fun _ => Keep.pure z _

theorem Keep.readPadding (z : Bytes) (n : Nat) : Keep z (readPadding n) := by
  unfold Wire.readPadding
  split
  · exact Keep.pure z _
  · refine Keep.bind (Keep.readFull z _) fun b => ?_
    split
    · exact Keep.pure z _
    · exact Keep.fail z _

theorem readPadding_data (n : Nat) (τ : Stream) :
    (readPadding n τ).2.data = if n % 8 = 0 then τ.data else τ.data.drop (8 - n % 8) := by
  unfold Wire.readPadding
  by_cases h8 : n % 8 = 0
  · rw [if_pos h8, if_pos h8]; rfl
  · rw [if_neg h8, if_neg h8, M.bind_apply]
    unfold Wire.readFull
    by_cases hk : 8 - n % 8 ≤ τ.data.length
    · rw [if_pos hk]
      simp only []
      split <;> rfl
    · rw [if_neg hk]
      simp only []
      rw [List.drop_eq_nil_of_le (by omega)]

theorem Keep.readContent {z : Bytes} (hz0 : z ≠ []) (n : Nat) : Keep z (readContent n) := by
  constructor
  · exact (fwd_readContent n).le
  · intro σ σ' a h ha hz
    have hzp := List.length_pos_iff.2 hz0
    have hl : σ'.data.length = σ.data.length + z.length := by rw [h, List.length_append]
    unfold Wire.readContent at ha hz ⊢
    have ha' : (Wire.readFull n σ').1 = .ok a := ha
    have hk : n ≤ σ'.data.length := by
      unfold Wire.readFull at ha'
      by_cases hk : n ≤ σ'.data.length
      · exact hk
      · rw [if_neg hk] at ha'; cases ha'
    have hrf : Wire.readFull n σ' = (.ok (σ'.data.take n), ⟨σ'.data.drop n, σ'.term⟩) := by
      unfold Wire.readFull; rw [if_pos hk]
    rw [hrf] at ha hz ⊢
    simp only [Nat.min_eq_left hk, Nat.sub_self, Res.ok.injEq] at ha hz ⊢
    have hcl : ∀ τ : Stream, bytesReaderClose 0 n τ = Wire.readPadding n τ := by
      intro τ
      unfold bytesReaderClose
      rw [if_neg (by omega), List.drop_zero]
    rw [hcl, readPadding_data] at hz ⊢
    simp only [] at hz ⊢
    have hn : n ≤ σ.data.length := by
      split at hz
      · rw [List.length_drop] at hz; omega
      · rw [List.length_drop, List.length_drop] at hz; omega
    have hrf' : Wire.readFull n σ = (.ok (σ.data.take n), ⟨σ.data.drop n, σ.term⟩) := by
      unfold Wire.readFull; rw [if_pos hn]
    rw [hrf']
    simp only [Nat.min_eq_left hn, Nat.sub_self, Res.ok.injEq] at ha hz ⊢
    rw [hcl, readPadding_data]
    simp only []
    refine ⟨?_, ?_⟩
    · rw [← ha, h, List.take_append_of_le_length hn]
    · rw [h, List.drop_append_of_le_length hn]
      split
      · rfl
      · rename_i h8
        rw [if_neg h8, List.length_drop, List.length_drop] at hz
        rw [List.drop_append_of_le_length (by rw [List.length_drop]; omega)]

theorem Keep.readBytesFull {z : Bytes} (hz0 : z ≠ []) (n : Nat) : Keep z (readBytesFull n) := by
  unfold Wire.readBytesFull
  refine Keep.bind (Keep.readUint64 z) fun k => ?_
  split
  · exact Keep.fail z _
  split
  · exact Keep.panic z
  · exact Keep.readContent hz0 k

theorem Keep.readString {z : Bytes} (hz0 : z ≠ []) (n : Nat) : Keep z (readString n) := Keep.readBytesFull hz0 n

theorem Keep.expectString {z : Bytes} (hz0 : z ≠ []) (e : Bytes) (he : e.length < 2 ^ 63) : Keep z (expectString e) := by
  constructor
  · exact (fwd_expectString e he).le
  · intro σ σ' a h ha hz
    unfold Nar.expectString at ha hz ⊢
    rcases hm : Wire.readString e.length σ' with ⟨x, σ1'⟩
    rw [hm] at ha hz
    cases x with
    | err e => cases ha
    | panic => cases ha
    | ok t =>
      by_cases ht : t ≠ e
      · simp only [if_pos ht] at ha; cases ha
      · simp only [if_neg ht] at ha hz ⊢
        obtain ⟨h1, h2⟩ := (Keep.readString hz0 e.length).keep σ σ' t h (by rw [hm]) (by rw [hm]; exact hz)
        rcases hm2 : Wire.readString e.length σ with ⟨x', σ1⟩
        rw [hm2] at h1 h2
        rw [hm] at h2
        simp only at h1 h2
        subst h1
        simp only [if_neg ht]
        exact ⟨trivial, h2⟩

theorem Keep.readPlaceholder {z : Bytes} (hz0 : z ≠ []) : Keep z readPlaceholder := by
  constructor
  · exact fwd_readPlaceholder.le
  · intro σ σ' a h ha hz
    unfold Nar.readPlaceholder at ha hz ⊢
    rcases hm : Wire.readBytesFull 0 σ' with ⟨x, σ1'⟩
    rw [hm] at ha hz
    cases x with
    | err e => cases ha
    | panic => cases ha
    | ok t =>
      simp only at hz ⊢
      obtain ⟨h1, h2⟩ := (Keep.readBytesFull hz0 0).keep σ σ' t h (by rw [hm]) (by rw [hm]; exact hz)
      rcases hm2 : Wire.readBytesFull 0 σ with ⟨x', σ1⟩
      rw [hm2] at h1 h2
      rw [hm] at h2
      simp only at h1 h2
      subst h1
      exact ⟨rfl, h2⟩

/-- The same position in a stream without and with the end `z`. -/
def SZ (z : Bytes) (s s' : RState) : Prop := s'.stream.data = s.stream.data ++ z ∧ s.rem = s'.rem ∧ s.len = s'.len

/-- Fewer than `n` bytes are left from now on. -/
def Low {α : Type} (n : Nat) : Step RState Header Bool α → Prop
  | .done _ s => s.left < n
  | .yield _ s k => s.left < n ∧ Low n (k true s)

theorem Low.bind {n : Nat} {α β : Type} {st : Step RState Header Bool α} {f : α → RState → Step RState Header Bool β}
    (h : Low n st) (hf : ∀ a s, s.left < n → Low n (f a s)) : Low n (st.bind f) := by
  induction st with
  | done r s =>
    rcases r with a | e | _
    · exact hf a s h
    · exact h
    · exact h
  | yield y s k ih => exact ⟨h.1, ih true s h.2⟩

/-- The second goroutine (on the stream without the end `z`) does what the first does, as long as the first does not touch
that end and does not fail. -/
inductive Post (z : Bytes) {α : Type} : Step RState Header Bool α → Step RState Header Bool α → Prop
  | low {st' : Step RState Header Bool α} (h : Low z.length st') (st) : Post z st' st
  | err (e : Err) (s : RState) (st) : Post z (.done (.err e) s) st
  | panic (s : RState) (st) : Post z (.done .panic s) st
  | fuel (st') (s : RState) : Post z st' (.done (.err outOfFuel) s)
  | ok (a : α) {s s' : RState} (h : SZ z s s') : Post z (.done (.ok a) s') (.done (.ok a) s)
  | yield (y : Header) {s s' : RState} (h : SZ z s s') (k k') (hk : Post z (k' true s') (k true s)) :
      Post z (.yield y s' k') (.yield y s k)

theorem Post.bind {z : Bytes} {α β : Type} {st st' : Step RState Header Bool α} {f f' : α → RState → Step RState Header Bool β}
    (h : Post z st' st) (hl : ∀ a s, s.left < z.length → Low z.length (f' a s))
    (hf : ∀ a s s', SZ z s s' → Post z (f' a s') (f a s)) : Post z (st'.bind f') (st.bind f) := by
  induction h with
  | low h st => exact .low (h.bind hl) _
  | err e s st' => exact .err _ _ _
  | panic s st' => exact .panic _ _
  | fuel st' s => exact .fuel _ _
  | ok a h => exact hf a _ _ h
  | yield y h k k' _ ih => exact .yield y h _ _ ih

/-- From every position; the first never puts anything back. -/
structure PostC (z : Bytes) {α : Type} (m' m : RCoro α) : Prop where
  low : ∀ s, s.left < z.length → Low z.length (m'.run s)
  post : ∀ s s', SZ z s s' → Post z (m'.run s') (m.run s)

theorem PostC.bind {z : Bytes} {α β : Type} {m m' : RCoro α} {f f' : α → RCoro β} (h : PostC z m' m)
    (hf : ∀ a, PostC z (f' a) (f a)) : PostC z (m' >>= f') (m >>= f) :=
  ⟨fun s hs => (h.low s hs).bind fun a s hs => (hf a).low s hs,
    fun s s' hs => (h.post s s' hs).bind (fun a s hs => (hf a).low s hs) fun a s s' hs => (hf a).post s s' hs⟩

theorem PostC.pure (z : Bytes) {α : Type} (a : α) : PostC z (Pure.pure a) (Pure.pure a) :=
  ⟨fun _ hs => hs, fun _ _ hs => .ok a hs⟩

theorem PostC.fail (z : Bytes) {α : Type} (e : Err) (m : RCoro α) : PostC z (Coro.fail e) m :=
  ⟨fun _ hs => hs, fun _ s' _ => .err e s' _⟩

theorem PostC.rd {z : Bytes} {α : Type} {m : M Stream α} (h : Keep z m) : PostC z (rd m) (rd m) := by
  constructor
  · intro s hs
    exact Nat.lt_of_le_of_lt (h.le s.stream) hs
  · intro s s' hs
    by_cases hlow : (m s'.stream).2.data.length < z.length
    · exact .low (st' := (Nar.rd m).run s') hlow _
    simp only [Nar.rd, Coro.lift]
    rcases hm : m s'.stream with ⟨x, σ1⟩
    rw [hm] at hlow
    cases x with
    | err e => exact .err _ _ _
    | panic => exact .panic _ _
    | ok a =>
      obtain ⟨h1, h2⟩ := h.keep s.stream s'.stream a hs.1 (by rw [hm]) (by rw [hm]; simp only at hlow ⊢; omega)
      rw [h1]
      rw [hm] at h2
      exact .ok a ⟨h2, hs.2.1, hs.2.2⟩

theorem PostC.setContent (z : Bytes) (n : Nat) : PostC z (setContent n) (setContent n) :=
  ⟨fun _ hs => hs, fun _ _ hs => .ok () ⟨hs.1, rfl, rfl⟩⟩

theorem PostC.expectClose (z : Bytes) (tok : Bytes) : PostC z (expectClose tok) (expectClose tok) := by
  unfold Nar.expectClose
  split
  · exact PostC.pure z _
  · exact PostC.fail z _ _

theorem PostC.yield {z : Bytes} {α : Type} (h : Header) {f f' : Bool → RCoro α} (hf : PostC z (f' true) (f true)) :
    PostC z (Coro.yield h >>= f') (Coro.yield h >>= f) := by
  constructor
  · intro s hs
    simp only [Coro.run_bind, Coro.run_yield, Step.bind_yield, Step.bind_done_ok]
    exact ⟨hs, hf.low s hs⟩
  · intro s s' hs
    simp only [Coro.run_bind, Coro.run_yield, Step.bind_yield, Step.bind_done_ok]
    exact .yield h hs _ _ (hf.post s s' hs)

theorem PostC.closeContent {z : Bytes} (hz0 : z ≠ []) : PostC z closeContent closeContent := by
  constructor
  · intro s hs
    exact Nat.lt_of_le_of_lt ((fwd_bytesReaderClose s.rem s.len).le s.stream) hs
  · intro s s' hs
    have hzp := List.length_pos_iff.2 hz0
    obtain ⟨hd, hr, hn⟩ := hs
    have hl : s'.stream.data.length = s.stream.data.length + z.length := by rw [hd, List.length_append]
    by_cases hlow : (bytesReaderClose s'.rem s'.len s'.stream).2.data.length < z.length
    · exact .low (st' := Nar.closeContent.run s') hlow _
    have hk : s.rem ≤ s.stream.data.length := by
      rw [← hr] at hlow
      unfold bytesReaderClose at hlow
      split at hlow
      · simp only [List.length_nil] at hlow; omega
      · rw [readPadding_data] at hlow
        simp only [] at hlow
        split at hlow
        · rw [List.length_drop] at hlow; omega
        · rw [List.length_drop, List.length_drop] at hlow; omega
    simp only [Nar.closeContent]
    rw [← hr, ← hn] at hlow ⊢
    rw [Nat.min_eq_left hk, Nat.min_eq_left (by omega)]
    unfold bytesReaderClose at hlow ⊢
    rw [if_neg (by omega)] at hlow
    rw [if_neg (by omega), if_neg (by omega)]
    rcases hm : readPadding s.len { s'.stream with data := s'.stream.data.drop s.rem } with ⟨x, σ1⟩
    rw [hm] at hlow
    cases x with
    | err e => exact .err _ _ _
    | panic => exact .panic _ _
    | ok a =>
      obtain ⟨h1, h2⟩ := (Keep.readPadding z s.len).keep { s.stream with data := s.stream.data.drop s.rem }
        { s'.stream with data := s'.stream.data.drop s.rem } a
        (by simp only []; rw [hd, List.drop_append_of_le_length hk]) (by rw [hm]) (by rw [hm]; simp only at hlow ⊢; omega)
      rw [h1]
      rw [hm] at h2
      exact .ok a ⟨h2, rfl, rfl⟩

theorem PostC.parseContents {z : Bytes} (hz0 : z ≠ []) (p : Bytes) (ex : Bool) (tok : Bytes) :
    PostC z (parseContents p ex tok) (parseContents p ex tok) := by
  unfold Nar.parseContents
  split
  · exact PostC.fail z _ _
  · refine PostC.bind (PostC.rd (Keep.readUint64 z)) fun n => ?_
    split
    · exact PostC.fail z _ _
    · refine PostC.bind (PostC.setContent z n) fun _ => ?_
      refine PostC.yield _ (PostC.bind (PostC.closeContent hz0) fun _ => ?_)
      exact PostC.bind (PostC.rd (Keep.readString hz0 _)) fun tok => PostC.expectClose z tok

theorem PostC.parseRegular {z : Bytes} (hz0 : z ≠ []) (p : Bytes) : PostC z (parseRegular p) (parseRegular p) := by
  unfold Nar.parseRegular
  refine PostC.bind (PostC.rd (Keep.readString hz0 _)) fun tok => ?_
  split
  · refine PostC.bind (PostC.rd (Keep.readPlaceholder hz0)) fun _ => ?_
    exact PostC.bind (PostC.rd (Keep.readString hz0 _)) fun tok => PostC.parseContents hz0 p true tok
  · exact PostC.parseContents hz0 p false tok

theorem PostC.parseSymlink {z : Bytes} (hz0 : z ≠ []) (p : Bytes) : PostC z (parseSymlink p) (parseSymlink p) := by
  unfold Nar.parseSymlink
  refine PostC.bind (PostC.rd (Keep.expectString hz0 _ (by decide))) fun _ => ?_
  refine PostC.bind (PostC.rd (Keep.readString hz0 _)) fun tg => ?_
  refine PostC.bind (PostC.setContent z 0) fun _ => ?_
  exact PostC.yield _ (PostC.bind (PostC.rd (Keep.readString hz0 _)) fun tok => PostC.expectClose z tok)

theorem PostC.ofFuel {z : Bytes} {α : Type} {m' : RCoro α} (h : PostC z m' m') : PostC z m' (Coro.fail outOfFuel) :=
  ⟨h.low, fun _ _ _ => .fuel _ _⟩

theorem PostC.parse {z : Bytes} (hz0 : z ≠ []) (fuel' : Nat) : ∀ fuel, fuel ≤ fuel' →
    (∀ p, PostC z (parseNode fuel' p) (parseNode fuel p)) ∧ ∀ p, PostC z (parseEntries fuel' p) (parseEntries fuel p) := by
  induction fuel' with
  | zero =>
    intro fuel _
    constructor <;> intro p
    · simp only [Nar.parseNode]; exact PostC.fail z _ _
    · simp only [Nar.parseEntries]; exact PostC.fail z _ _
  | succ fuel' ih =>
    have key : ∀ fuel, fuel ≤ fuel' → (∀ p, PostC z (parseNode (fuel' + 1) p) (parseNode (fuel + 1) p)) ∧
        ∀ p, PostC z (parseEntries (fuel' + 1) p) (parseEntries (fuel + 1) p) := by
      intro fuel hle
      have ih := ih fuel hle
      constructor
      · intro p
        simp only [Nar.parseNode]
        refine PostC.bind (PostC.rd (Keep.expectString hz0 _ (by decide))) fun _ => ?_
        refine PostC.bind (PostC.rd (Keep.expectString hz0 _ (by decide))) fun _ => ?_
        refine PostC.bind (PostC.rd (Keep.readString hz0 _)) fun tok => ?_
        split
        · exact PostC.parseRegular hz0 p
        split
        · exact PostC.parseSymlink hz0 p
        split
        · refine PostC.bind (PostC.setContent z 0) fun _ => ?_
          exact PostC.yield _ (ih.2 p)
        · exact PostC.expectClose z tok
      · intro p
        simp only [Nar.parseEntries]
        refine PostC.bind (PostC.rd (Keep.readString hz0 _)) fun tok => ?_
        split
        · refine PostC.bind (PostC.rd (Keep.expectString hz0 _ (by decide))) fun _ => ?_
          refine PostC.bind (PostC.rd (Keep.expectString hz0 _ (by decide))) fun _ => ?_
          refine PostC.bind (PostC.rd (Keep.readString hz0 _)) fun name => ?_
          split
          · exact PostC.fail z _ _
          · refine PostC.bind (PostC.rd (Keep.expectString hz0 _ (by decide))) fun _ => ?_
            refine PostC.bind (ih.1 _) fun _ => ?_
            refine PostC.bind (PostC.rd (Keep.expectString hz0 _ (by decide))) fun _ => ?_
            split
            · exact PostC.pure z _
            · exact ih.2 p
        split
        · exact PostC.pure z _
        · exact ih.2 p
    intro fuel hle
    cases fuel with
    | zero =>
      obtain ⟨h1, h2⟩ := key fuel' (Nat.le_refl _)
      constructor <;> intro p
      · have := (h1 p).ofFuel
        simpa only [Nar.parseNode] using this
      · have := (h2 p).ofFuel
        simpa only [Nar.parseEntries] using this
    | succ fuel => exact key fuel (by omega)

/-! ### readers -/

/-- The same position, nothing of the contents read. -/
structure PostU (z : Bytes) (q q' : Reader) : Prop where
  err : q.err = none
  err' : q'.err = none
  closed : q.closed = false
  closed' : q'.closed = false
  prev : q.prev = q'.prev
  st : SZ z q.st q'.st
  resume : ∃ st st', q.resume = some st ∧ q'.resume = some st' ∧ Post z st' st

/-- The same position, each with some of the contents read. -/
def PostR (z : Bytes) (t t' : Err) (r r' : Reader) : Prop := ∃ q q', Same t r q ∧ Same t' r' q' ∧ PostU z q q'

theorem postU_new {z : Bytes} (hz0 : z ≠ []) {s s' s1' : Stream} {r' : Reader} (h : newReader s' = (.ok r', s1'))
    (hp : s'.data = s.data ++ z) (hz : z.length ≤ s1'.data.length) :
    ∃ r s1, newReader s = (.ok r, s1) ∧ PostU z r r' := by
  rcases hm' : Nar.expectString narVersionMagic1 s' with ⟨x, σ'⟩
  unfold newReader at h ⊢
  rw [hm'] at h
  cases x with
  | err e => cases h
  | panic => cases h
  | ok u =>
    simp only [Prod.mk.injEq, Res.ok.injEq] at h
    obtain ⟨rfl, rfl⟩ := h
    obtain ⟨h1, h2⟩ := (Keep.expectString hz0 narVersionMagic1 (by decide)).keep s s' () hp (by rw [hm']) (by rw [hm']; exact hz)
    rcases hm : Nar.expectString narVersionMagic1 s with ⟨x, σ⟩
    rw [hm] at h1 h2
    rw [hm'] at h2
    simp only at h1 h2
    subst h1
    refine ⟨_, _, rfl, ⟨rfl, rfl, rfl, rfl, rfl, ⟨h2, rfl, rfl⟩, ?_⟩⟩
    refine ⟨_, _, rfl, rfl, ?_⟩
    exact ((PostC.parse hz0 _ _ (by simp only []; rw [h2, List.length_append]; omega)).1 _).post _ _ ⟨h2, rfl, rfl⟩

theorem postU_next {z : Bytes} {q q' q1' : Reader} {h : Header} (hp : PostU z q q') (hn : q'.next = (.ok h, q1'))
    (hz : z.length ≤ q1'.st.left) (hfuel : q.next.1 ≠ .err outOfFuel) : ∃ q1, q.next = (.ok h, q1) ∧ PostU z q1 q1' := by
  obtain ⟨st, st', hr, hr', hs⟩ := hp.resume
  rw [next_of_resume hp.err' hp.closed' hr'] at hn
  rw [next_of_resume hp.err hp.closed hr] at hfuel ⊢
  cases hs with
  | low h st =>
    exfalso
    cases st' with
    | done x s => rcases x with _ | _ | _ <;> cases hn
    | yield y s k =>
      rw [receive_yield] at hn
      split at hn
      · simp only [Prod.mk.injEq, Call.ok.injEq] at hn
        obtain ⟨rfl, rfl⟩ := hn
        have := h.1
        simp only [] at hz
        omega
      · cases hn
  | err e s st' => cases hn
  | panic s st' => cases hn
  | fuel st' s => exact absurd rfl hfuel
  | ok a h => cases hn
  | yield y hsr k k' hk =>
    rw [receive_yield] at hn ⊢
    rw [hp.prev]
    split at hn
    · rename_i ho
      simp only [Prod.mk.injEq, Call.ok.injEq] at hn
      obtain ⟨rfl, rfl⟩ := hn
      rw [if_pos ho]
      exact ⟨_, rfl, hp.err, hp.err', hp.closed, hp.closed', rfl, hsr, _, _, rfl, rfl, hk⟩
    · cases hn

theorem postR_next {z : Bytes} {t t' : Err} {r r' r1' : Reader} {h : Header} (hp : PostR z t t' r r') (hn : r'.next = (.ok h, r1'))
    (hz : z.length ≤ r1'.st.left) (hfuel : r.next.1 ≠ .err outOfFuel) :
    ∃ r1, r.next = (.ok h, r1) ∧ PostR z t t' r1 r1' ∧ SZ z r1.st r1'.st := by
  obtain ⟨q, q', hq, hq', hu⟩ := hp
  obtain ⟨q1, hn', hu'⟩ := postU_next hu (same_next_ok hq' hn) hz (by rw [← (same_next hq).1]; exact hfuel)
  have hn2 := same_next_ok (same_symm hq) hn'
  have i1 := (same_next hq).2.inv1
  have i2 := (same_next hq').2.inv1
  rw [hn2] at i1
  rw [hn] at i2
  exact ⟨q1, hn2, ⟨q1, r1', same_refl i1, same_refl i2, hu'⟩, hu'.st⟩

theorem postR_read {z : Bytes} {t t' : Err} {r r' : Reader} (hp : PostR z t t' r r') (k : Nat) : PostR z t t' (r.read k).2 r' := by
  obtain ⟨q, q', hq, hq', hu⟩ := hp
  exact ⟨q, q', same_read hq k, hq', hu⟩

theorem postR_read' {z : Bytes} {t t' : Err} {r r' : Reader} (hp : PostR z t t' r r') (k : Nat) : PostR z t t' r (r'.read k).2 := by
  obtain ⟨q, q', hq, hq', hu⟩ := hp
  exact ⟨q, q', hq, same_read hq' k, hu⟩

end Verif.Nar
