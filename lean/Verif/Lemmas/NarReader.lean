import Verif.Lemmas.NarUtil
import Verif.Lemmas.Wire

namespace Verif.Nar
open Verif.GoLib Verif.Spec Verif.Wire

/-! ### reading operations in general -/

/-- A reading operation moves forward, keeps the end of the stream, does not panic and makes up
only errors satisfying `E`; on success it consumed at least `c` bytes. -/
structure Fwd {α : Type} (m : M Stream α) (c : Nat) : Prop where
  term : ∀ s, (m s).2.term = s.term
  le : ∀ s, (m s).2.data.length ≤ s.data.length
  noPanic : ∀ s, (m s).1 ≠ .panic
  noFuel : ∀ s, s.term ≠ outOfFuel → (m s).1 ≠ .err outOfFuel
  ok : ∀ s a, (m s).1 = .ok a → (m s).2.data.length + c ≤ s.data.length

theorem fwd_readFull (k : Nat) : Fwd (readFull k) k := by
  constructor
  · intro s; unfold readFull; split <;> rfl
  · intro s; unfold readFull; split <;> simp
  · intro s; unfold readFull; split <;> simp
  · intro s h; unfold readFull; split
    · simp
    · simp only [shortErr]; split
      · simp [outOfFuel]
      · simpa using h
  · intro s a; unfold readFull; split
    · simp; omega
    · simp

theorem fwd_pure {α : Type} (a : α) : Fwd (pure a : M Stream α) 0 :=
  ⟨fun _ => rfl, fun _ => Nat.le_refl _, fun _ => by simp, fun _ _ => by simp, fun _ _ _ => Nat.le_refl _⟩

theorem fwd_fail {α : Type} (e : Err) (h : e ≠ outOfFuel) (c : Nat) : Fwd (M.fail e : M Stream α) c :=
  ⟨fun _ => rfl, fun _ => Nat.le_refl _, fun _ => by simp, fun _ _ => by simpa using h,
    fun _ _ => by simp⟩

theorem fwd_bind {α β : Type} {m : M Stream α} {f : α → M Stream β} {c d : Nat} (hm : Fwd m c)
    (hf : ∀ a, Fwd (f a) d) : Fwd (m >>= f) (c + d) := by
  have key : ∀ s, (∃ a, m s = (.ok a, (m s).2) ∧ (m >>= f) s = f a (m s).2) ∨
      (∃ e, m s = (.err e, (m s).2) ∧ (m >>= f) s = (.err e, (m s).2)) := by
    intro s
    rcases h : m s with ⟨r, s'⟩
    rcases r with a | e | _
    · exact .inl ⟨a, rfl, M.bind_ok h⟩
    · exact .inr ⟨e, rfl, M.bind_err h⟩
    · exact absurd (by rw [h]) (hm.noPanic s)
  constructor
  · intro s
    rcases key s with ⟨a, h1, h2⟩ | ⟨e, h1, h2⟩
    · rw [h2, (hf a).term, hm.term]
    · rw [h2]; exact hm.term s
  · intro s
    have := hm.le s
    rcases key s with ⟨a, h1, h2⟩ | ⟨e, h1, h2⟩
    · rw [h2]; exact Nat.le_trans ((hf a).le _) this
    · rw [h2]; exact this
  · intro s
    rcases key s with ⟨a, h1, h2⟩ | ⟨e, h1, h2⟩
    · rw [h2]; exact (hf a).noPanic _
    · rw [h2]; simp
  · intro s ht
    rcases key s with ⟨a, h1, h2⟩ | ⟨e, h1, h2⟩
    · rw [h2]; exact (hf a).noFuel _ (by rw [hm.term]; exact ht)
    · rw [h2]; have := hm.noFuel s ht; rw [h1] at this; simpa using this
  · intro s b
    rcases key s with ⟨a, h1, h2⟩ | ⟨e, h1, h2⟩
    · rw [h2]; intro h
      have h3 := (hf a).ok _ b h
      have h4 := hm.ok s a (by rw [h1])
      omega
    · rw [h2]; simp

theorem Fwd.weaken {α : Type} {m : M Stream α} {c d : Nat} (h : Fwd m c) (hd : d ≤ c) : Fwd m d :=
  ⟨h.term, h.le, h.noPanic, h.noFuel, fun s a ha => by have := h.ok s a ha; omega⟩

theorem fwd_readUint64 : Fwd readUint64 8 := fwd_bind (fwd_readFull 8) (fun _ => fwd_pure _)

theorem fwd_readPadding (n : Nat) : Fwd (readPadding n) 0 := by
  unfold readPadding
  split
  · exact fwd_pure ()
  · refine (fwd_bind (fwd_readFull _) (d := 0) ?_).weaken (by omega)
    intro a
    split
    · exact fwd_pure ()
    · exact fwd_fail _ (by simp [outOfFuel]) _

theorem fwd_bytesReaderClose (r n : Nat) : Fwd (bytesReaderClose r n) 0 := by
  have hp := fwd_readPadding n
  constructor
  · intro s; unfold bytesReaderClose; split
    · rfl
    · exact hp.term _
  · intro s; unfold bytesReaderClose; split
    · simp
    · exact Nat.le_trans (hp.le _) (by simp)
  · intro s; unfold bytesReaderClose; split
    · simp
    · exact hp.noPanic _
  · intro s h; unfold bytesReaderClose; split
    · simpa using h
    · exact hp.noFuel _ h
  · intro s a; unfold bytesReaderClose; split
    · simp
    · intro _
      exact Nat.le_trans (hp.le _) (by simp)

theorem fwd_readContent (n : Nat) : Fwd (readContent n) n := by
  have h1 := fwd_readFull n
  constructor
  · intro s; unfold readContent
    rw [(fwd_bytesReaderClose _ _).term]; exact h1.term s
  · intro s; unfold readContent
    exact Nat.le_trans ((fwd_bytesReaderClose _ _).le _) (h1.le s)
  · intro s; unfold readContent; exact h1.noPanic s
  · intro s h; unfold readContent; exact h1.noFuel s h
  · intro s a h
    unfold readContent at h ⊢
    have h2 := h1.ok s a h
    have h3 := (fwd_bytesReaderClose (n - min n s.data.length) n).le (readFull n s).2
    simp only []
    omega

theorem fwd_readBytesFull (max : Nat) (hm : max < 2 ^ 63) : Fwd (readBytesFull max) 8 := by
  have h := fwd_bind (β := Bytes) fwd_readUint64 (d := 0)
    (f := fun contentLength => if contentLength > max then M.fail (.msg "content length exceeds maximum")
      else if 2 ^ 63 ≤ contentLength then M.panic
      else readContent contentLength) (by
        intro a
        split
        · exact fwd_fail _ (by simp [outOfFuel]) _
        · rw [if_neg (by omega)]
          exact (fwd_readContent a).weaken (by omega))
  exact h

theorem fwd_readString (max : Nat) (hm : max < 2 ^ 63) : Fwd (readString max) 8 :=
  fwd_readBytesFull max hm

theorem readString_le (max : Nat) (s : Stream) (b : Bytes) (h : (readString max s).1 = .ok b) :
    b.length ≤ max := by
  unfold readString readBytesFull at h
  rcases hr : readUint64 s with ⟨r, s'⟩
  rcases r with n | e | _
  · rw [M.bind_ok hr] at h
    split at h
    · simp at h
    · split at h
      · simp at h
      · unfold readContent readFull at h
        simp only at h
        split at h
        · simp at h; subst h; simp; omega
        · simp at h
  · rw [M.bind_err hr] at h; simp at h
  · rw [M.bind_panic hr] at h; simp at h

theorem fwd_expectString (e : Bytes) (he : e.length < 2 ^ 63) : Fwd (expectString e) 8 := by
  have h := fwd_readString e.length he
  have key : ∀ s, ((expectString e s).2 = (readString e.length s).2) := by
    intro s; unfold expectString
    rcases readString e.length s with ⟨_ | _ | _, s'⟩
    · simp only []; split <;> rfl
    · rfl
    · rfl
  constructor
  · intro s; rw [key]; exact h.term s
  · intro s; rw [key]; exact h.le s
  · intro s
    have := h.noPanic s
    unfold expectString
    rcases hr : readString e.length s with ⟨_ | _ | _, s'⟩
    · simp only []; split <;> simp
    · simp
    · rw [hr] at this; simp at this
  · intro s ht
    have := h.noFuel s ht
    unfold expectString
    rcases hr : readString e.length s with ⟨_ | e', s'⟩
    · simp only []; split <;> simp [outOfFuel]
    · rw [hr] at this
      simp only []
      split
      · simp [outOfFuel]
      · simpa using this
    · simp
  · intro s a hok
    rw [key]
    unfold expectString at hok
    rcases hr : readString e.length s with ⟨b | e', s'⟩
    · have := h.ok s b (by rw [hr]); rw [hr] at this; exact this
    · rw [hr] at hok; simp at hok
    · rw [hr] at hok; simp at hok

theorem fwd_readPlaceholder : Fwd readPlaceholder 8 := by
  have h := fwd_readBytesFull 0 (by omega)
  have key : ∀ s, ((readPlaceholder s).2 = (readBytesFull 0 s).2) := by
    intro s; unfold readPlaceholder
    rcases readBytesFull 0 s with ⟨_ | _ | _, s'⟩ <;> rfl
  constructor
  · intro s; rw [key]; exact h.term s
  · intro s; rw [key]; exact h.le s
  · intro s
    have := h.noPanic s
    unfold readPlaceholder
    rcases hr : readBytesFull 0 s with ⟨_ | _ | _, s'⟩
    · simp
    · simp
    · rw [hr] at this; simp at this
  · intro s ht
    unfold readPlaceholder
    rcases hr : readBytesFull 0 s with ⟨_ | e', s'⟩ <;> simp [outOfFuel]
  · intro s a hok
    rw [key]
    unfold readPlaceholder at hok
    rcases hr : readBytesFull 0 s with ⟨b | e', s'⟩
    · have := h.ok s b (by rw [hr]); rw [hr] at this; exact this
    · rw [hr] at hok; simp at hok
    · rw [hr] at hok; simp at hok

/-! ### invariants of the goroutine -/

/-- What the caller may do to the shared state between two calls of `Next`: read some of the
content. -/
def Consume (s s' : RState) : Prop :=
  ∃ j, j ≤ s.rem ∧ j ≤ s.stream.data.length ∧
    s' = ⟨⟨s.stream.data.drop j, s.stream.term⟩, s.rem - j, s.len⟩

theorem Consume.refl (s : RState) : Consume s s := ⟨0, by omega, by omega, by simp⟩

/-- Every header handed over satisfies `Y` and every result `D`, as long as the caller only reads
content. -/
def Inv {α : Type} (Y : Header → RState → Prop) (D : Res α → RState → Prop) :
    Step RState Header Bool α → Prop
  | .done r s => D r s
  | .yield h s k => Y h s ∧ ∀ i s', Consume s s' → Inv Y D (k i s')

theorem Inv.bind {α β : Type} {Y : Header → RState → Prop} {D' : Res α → RState → Prop}
    {D : Res β → RState → Prop} {st : Step RState Header Bool α}
    {f : α → RState → Step RState Header Bool β} (h : Inv Y D' st)
    (hok : ∀ a s, D' (.ok a) s → Inv Y D (f a s)) (herr : ∀ e s, D' (.err e) s → D (.err e) s)
    (hp : ∀ s, D' .panic s → D .panic s) : Inv Y D (st.bind f) := by
  induction st with
  | done r s =>
    rcases r with a | e | _
    · exact hok a s h
    · exact herr e s h
    · exact hp s h
  | yield y s k ih =>
    exact ⟨h.1, fun i s' hc => ih i s' (h.2 i s' hc)⟩

theorem Inv.mono {α : Type} {Y Y' : Header → RState → Prop} {D D' : Res α → RState → Prop}
    {st : Step RState Header Bool α} (h : Inv Y D st) (hY : ∀ x s, Y x s → Y' x s)
    (hD : ∀ r s, D r s → D' r s) : Inv Y' D' st := by
  induction st with
  | done r s => exact hD r s h
  | yield y s k ih => exact ⟨hY _ _ h.1, fun i s' hc => ih i s' (h.2 i s' hc)⟩

/-- A component of a path in a NAR as read: what `IsValidNodeName` and the length limit leave. -/
def CompOk (c : Bytes) : Prop := Good c ∧ (0 : UInt8) ∉ c ∧ c.length ≤ nameLenMax

/-- Facts about a header handed over, for a stream ending in `t` with at most `n` bytes left. -/
structure HdrOk (t : Err) (n : Nat) (h : Header) (s : RState) : Prop where
  path : ∃ cs, (∀ c ∈ cs, CompOk c) ∧ h.path = absPath cs
  typ : h.typ = typeRegular ∨ h.typ = typeDirectory ∨ h.typ = typeSymlink
  size : 0 ≤ h.size ∧ h.size ≤ 2 ^ 63 - 1
  other : h.typ ≠ typeRegular → h.size = 0 ∧ h.executable = false
  target : h.linkTarget.length ≤ pathLenMax ∧ (h.typ ≠ typeSymlink → h.linkTarget = [])
  content : (s.rem : Int) = h.size ∧ s.len = s.rem
  term : s.stream.term = t
  le : s.stream.data.length ≤ n

/-- Facts about the end of a computation. -/
structure EndOk {α : Type} (t : Err) (n : Nat) (r : Res α) (s : RState) : Prop where
  noPanic : r ≠ .panic
  noFuel : t ≠ outOfFuel → r ≠ .err outOfFuel
  term : s.stream.term = t
  le : s.stream.data.length ≤ n

abbrev Ok (t : Err) (n : Nat) {α : Type} (st : Step RState Header Bool α) : Prop :=
  Inv (HdrOk t n) (EndOk t n) st

theorem EndOk.weaken {α : Type} {t : Err} {n m : Nat} {r : Res α} {s : RState} (h : EndOk t n r s)
    (hn : n ≤ m) : EndOk t m r s := ⟨h.noPanic, h.noFuel, h.term, Nat.le_trans h.le hn⟩

theorem HdrOk.weaken {t : Err} {n m : Nat} {h : Header} {s : RState} (hh : HdrOk t n h s)
    (hn : n ≤ m) : HdrOk t m h s :=
  ⟨hh.path, hh.typ, hh.size, hh.other, hh.target, hh.content, hh.term, Nat.le_trans hh.le hn⟩

theorem Ok.weaken {α : Type} {t : Err} {n m : Nat} {st : Step RState Header Bool α} (h : Ok t n st)
    (hn : n ≤ m) : Ok t m st :=
  Inv.mono h (fun _ _ hx => hx.weaken hn) (fun _ _ hx => hx.weaken hn)

/-- Reading, then going on. -/
theorem ok_rd {α β : Type} {m : M Stream α} {c : Nat} (hm : Fwd m c) {t : Err} {n : Nat} {s : RState}
    (ht : s.stream.term = t) (hn : s.stream.data.length ≤ n) {f : α → RState → Step RState Header Bool β}
    (hf : ∀ a s', (m s.stream).1 = .ok a → s'.stream.term = t →
      s'.stream.data.length + c ≤ s.stream.data.length → Ok t n (f a s')) :
    Ok t n (((rd m).run s).bind f) := by
  have e : ((rd m).run s : Step RState Header Bool α) =
      .done (m s.stream).1 { s with stream := (m s.stream).2 } := rfl
  rw [e]
  rcases hr : m s.stream with ⟨r, s'⟩
  have hterm : s'.term = t := by have := hm.term s.stream; rw [hr] at this; rw [← ht]; exact this
  have hle : s'.data.length ≤ s.stream.data.length := by have := hm.le s.stream; rw [hr] at this; exact this
  rcases r with a | e | _
  · refine hf a _ (by rw [hr]) hterm ?_
    have := hm.ok s.stream a (by rw [hr]); rw [hr] at this; exact this
  · refine ⟨by simp, ?_, hterm, Nat.le_trans hle hn⟩
    intro h
    have := hm.noFuel s.stream (by rw [ht]; exact h); rw [hr] at this; simpa using this
  · have := hm.noPanic s.stream; rw [hr] at this; exact absurd rfl this

theorem ok_bind {α β : Type} {t : Err} {n : Nat} {st : Step RState Header Bool α}
    {f : α → RState → Step RState Header Bool β} (h : Ok t n st)
    (hf : ∀ a s', s'.stream.term = t → s'.stream.data.length ≤ n → Ok t n (f a s')) :
    Ok t n (st.bind f) :=
  Inv.bind h (fun a s hd => hf a s hd.term hd.le)
    (fun e _ hd => ⟨by simp, fun ht => by have := hd.noFuel ht; simpa using this, hd.term, hd.le⟩)
    (fun _ hd => absurd rfl hd.noPanic)

theorem ok_fail {α : Type} {t : Err} {n : Nat} {s : RState} {e : Err} (he : e ≠ outOfFuel)
    (ht : s.stream.term = t) (hn : s.stream.data.length ≤ n) :
    Ok t n ((Coro.fail e : RCoro α).run s) := ⟨by simp, fun _ => by simpa using he, ht, hn⟩

theorem ok_pure {α : Type} {t : Err} {n : Nat} {s : RState} {a : α}
    (ht : s.stream.term = t) (hn : s.stream.data.length ≤ n) :
    Ok t n ((pure a : RCoro α).run s) := ⟨by simp, fun _ => by simp, ht, hn⟩

theorem ok_expectClose {t : Err} {n : Nat} {s : RState} (tok : Bytes)
    (ht : s.stream.term = t) (hn : s.stream.data.length ≤ n) : Ok t n ((expectClose tok).run s) := by
  unfold expectClose
  split
  · exact ok_pure ht hn
  · exact ok_fail (by simp [outOfFuel]) ht hn

theorem ok_close_token {t : Err} {n : Nat} {s : RState}
    (ht : s.stream.term = t) (hn : s.stream.data.length ≤ n) :
    Ok t n ((rd (readString tokenLenMax) >>= expectClose).run s) := by
  rw [Coro.run_bind]
  refine ok_rd (fwd_readString _ (by simp [tokenLenMax])) ht hn ?_
  intro a s' _ ht' hle
  exact ok_expectClose a ht' (by omega)

theorem consume_facts {s s' : RState} (h : Consume s s') :
    s'.stream.term = s.stream.term ∧ s'.stream.data.length ≤ s.stream.data.length := by
  obtain ⟨j, h1, h2, rfl⟩ := h
  exact ⟨rfl, by simp⟩

theorem ok_closeContent {β : Type} {t : Err} {n : Nat} {s : RState}
    {f : Unit → RState → Step RState Header Bool β}
    (ht : s.stream.term = t) (hn : s.stream.data.length ≤ n)
    (hf : ∀ s', s'.stream.term = t → s'.stream.data.length ≤ n → Ok t n (f () s')) :
    Ok t n ((closeContent.run s).bind f) := by
  have hc := fwd_bytesReaderClose s.rem s.len
  have e : closeContent.run s = .done (bytesReaderClose s.rem s.len s.stream).1
    ⟨(bytesReaderClose s.rem s.len s.stream).2, s.rem - min s.rem s.stream.data.length, s.len⟩ := rfl
  rw [e]
  rcases hr : bytesReaderClose s.rem s.len s.stream with ⟨r, s'⟩
  have hterm : s'.term = t := by have := hc.term s.stream; rw [hr] at this; rw [← ht]; exact this
  have hle : s'.data.length ≤ s.stream.data.length := by have := hc.le s.stream; rw [hr] at this; exact this
  rcases r with a | e | _
  · exact hf _ hterm (by simp only []; omega)
  · refine ⟨by simp, ?_, hterm, by simp only []; omega⟩
    intro h
    have := hc.noFuel s.stream (by rw [ht]; exact h); rw [hr] at this; simpa using this
  · have := hc.noPanic s.stream; rw [hr] at this; exact absurd rfl this

/-- Handing over a header, then going on. -/
theorem ok_yield {β : Type} {t : Err} {n : Nat} {h : Header} {s : RState}
    {f : Bool → RState → Step RState Header Bool β} (hh : HdrOk t n h s)
    (hf : ∀ i s', s'.stream.term = t → s'.stream.data.length ≤ s.stream.data.length → Ok t n (f i s')) :
    Ok t n (((Coro.yield h : RCoro Bool).run s).bind f) := by
  refine ⟨hh, ?_⟩
  intro i s' hc
  obtain ⟨h1, h2⟩ := consume_facts hc
  exact hf i s' (by rw [h1, hh.term]) h2

theorem ok_parseContents {t : Err} {n : Nat} {cs : List Bytes} (hcs : ∀ c ∈ cs, CompOk c) (ex : Bool)
    (tok : Bytes) (s : RState) (ht : s.stream.term = t) (hn : s.stream.data.length ≤ n) :
    Ok t n ((parseContents (absPath cs) ex tok).run s) := by
  unfold parseContents
  split
  · exact ok_fail (by simp [outOfFuel]) ht hn
  · rw [Coro.run_bind]
    refine ok_rd fwd_readUint64 ht hn ?_
    intro len s' _ ht' hle
    split
    · exact ok_fail (by simp [outOfFuel]) ht' (by omega)
    · rename_i hlen
      refine ok_yield (s := { s' with rem := len, len := len })
        ⟨⟨cs, hcs, rfl⟩, .inl rfl, ⟨by simp, by simp only []; omega⟩, by simp, by simp, by simp, ht',
          by simp only []; omega⟩ ?_
      intro i s2 hc1 hc2
      simp only [] at hc2
      cases i with
      | false => exact ok_pure hc1 (by omega)
      | true =>
        refine ok_closeContent (f := fun _ s => (rd (readString tokenLenMax) >>= expectClose).run s) hc1 (by omega) ?_
        intro s3 ht3 hn3
        exact ok_close_token ht3 hn3

theorem ok_parseRegular {t : Err} {n : Nat} {cs : List Bytes} (hcs : ∀ c ∈ cs, CompOk c)
    (s : RState) (ht : s.stream.term = t) (hn : s.stream.data.length ≤ n) :
    Ok t n ((parseRegular (absPath cs)).run s) := by
  unfold parseRegular
  rw [Coro.run_bind]
  refine ok_rd (fwd_readString _ (by simp)) ht hn ?_
  intro tok s' _ ht' hle
  split
  · rw [Coro.run_bind]
    refine ok_rd fwd_readPlaceholder ht' (by omega) ?_
    intro _ s2 _ ht2 hle2
    rw [Coro.run_bind]
    refine ok_rd (fwd_readString _ (by simp [tokenLenMax])) ht2 (by omega) ?_
    intro tok' s3 _ ht3 hle3
    exact ok_parseContents hcs _ _ _ ht3 (by omega)
  · exact ok_parseContents hcs _ _ _ ht' (by omega)

theorem ok_parseSymlink {t : Err} {n : Nat} {cs : List Bytes} (hcs : ∀ c ∈ cs, CompOk c)
    (s : RState) (ht : s.stream.term = t) (hn : s.stream.data.length ≤ n) :
    Ok t n ((parseSymlink (absPath cs)).run s) := by
  unfold parseSymlink
  rw [Coro.run_bind]
  refine ok_rd (fwd_expectString _ (by simp)) ht hn ?_
  intro _ s1 _ ht1 hle1
  rw [Coro.run_bind]
  refine ok_rd (fwd_readString _ (by simp [pathLenMax])) ht1 (by omega) ?_
  intro target s2 htg ht2 hle2
  refine ok_yield (s := { s2 with rem := 0, len := 0 })
    ⟨⟨cs, hcs, rfl⟩, .inr (.inr rfl), by simp, by simp,
      ⟨readString_le _ _ _ htg, by simp⟩, by simp, ht2, by simp only []; omega⟩ ?_
  intro i s3 hc1 hc2
  simp only [] at hc2
  cases i with
  | false => exact ok_pure hc1 (by omega)
  | true => exact ok_close_token hc1 (by omega)

theorem compOk_join {cs : List Bytes} (hcs : ∀ c ∈ cs, CompOk c) {name : Bytes}
    (hv : isValidNodeName name = true) (hl : name.length ≤ nameLenMax) :
    ∃ ds, (∀ c ∈ ds, CompOk c) ∧ pathJoin (absPath cs) name = absPath ds := by
  rw [isValidNodeName_iff] at hv
  obtain ⟨ds, h1, h2, h3⟩ := pathJoin_comps (fun x hx => (hcs x hx).1) name hv.1
  refine ⟨ds, ?_, h2⟩
  intro c hc
  rcases h3 c hc with h | rfl
  · exact hcs c h
  · exact ⟨h1 c hc, hv.2, hl⟩

/-- The parser keeps the invariant, with enough fuel. -/
theorem ok_parse (fuel : Nat) :
    (∀ (cs : List Bytes) (s : RState) (t : Err) (n : Nat), (∀ c ∈ cs, CompOk c) → s.stream.term = t →
      s.stream.data.length ≤ n → s.stream.data.length < fuel → Ok t n ((parseNode fuel (absPath cs)).run s)) ∧
    (∀ (cs : List Bytes) (s : RState) (t : Err) (n : Nat), (∀ c ∈ cs, CompOk c) → s.stream.term = t →
      s.stream.data.length ≤ n → s.stream.data.length < fuel →
      Ok t n ((parseEntries fuel (absPath cs)).run s)) := by
  induction fuel with
  | zero => exact ⟨fun _ _ _ _ _ _ _ h => by omega, fun _ _ _ _ _ _ _ h => by omega⟩
  | succ fuel ih =>
    constructor
    · intro cs s t n hcs ht hn hf
      unfold parseNode
      rw [Coro.run_bind]
      refine ok_rd (fwd_expectString _ (by simp)) ht hn ?_
      intro _ s1 _ ht1 hle1
      rw [Coro.run_bind]
      refine ok_rd (fwd_expectString _ (by simp)) ht1 (by omega) ?_
      intro _ s2 _ ht2 hle2
      rw [Coro.run_bind]
      refine ok_rd (fwd_readString _ (by simp [tokenLenMax])) ht2 (by omega) ?_
      intro tok s3 _ ht3 hle3
      split
      · exact ok_parseRegular hcs _ ht3 (by omega)
      · split
        · exact ok_parseSymlink hcs _ ht3 (by omega)
        · split
          · refine ok_yield (s := { s3 with rem := 0, len := 0 })
              ⟨⟨cs, hcs, rfl⟩, .inr (.inl rfl), by simp, by simp, by simp, by simp, ht3,
                by simp only []; omega⟩ ?_
            intro i s4 hc1 hc2
            simp only [] at hc2
            cases i with
            | false => exact ok_pure hc1 (by omega)
            | true => exact ih.2 cs s4 t n hcs hc1 (by omega) (by omega)
          · exact ok_expectClose _ ht3 (by omega)
    · intro cs s t n hcs ht hn hf
      unfold parseEntries
      rw [Coro.run_bind]
      refine ok_rd (fwd_readString _ (by simp [tokenLenMax])) ht hn ?_
      intro tok s1 _ ht1 hle1
      split
      · rw [Coro.run_bind]
        refine ok_rd (fwd_expectString _ (by simp)) ht1 (by omega) ?_
        intro _ s2 _ ht2 hle2
        rw [Coro.run_bind]
        refine ok_rd (fwd_expectString _ (by simp)) ht2 (by omega) ?_
        intro _ s3 _ ht3 hle3
        rw [Coro.run_bind]
        refine ok_rd (fwd_readString _ (by simp [nameLenMax])) ht3 (by omega) ?_
        intro name s4 hname ht4 hle4
        split
        · exact ok_fail (by simp [outOfFuel]) ht4 (by omega)
        · rename_i hv
          rw [Coro.run_bind]
          refine ok_rd (fwd_expectString _ (by simp)) ht4 (by omega) ?_
          intro _ s5 _ ht5 hle5
          obtain ⟨ds, hds, hj⟩ := compOk_join hcs (by simpa using hv) (readString_le _ _ _ hname)
          rw [hj, Coro.run_bind]
          have h5 := ih.1 ds s5 t s5.stream.data.length hds ht5 (Nat.le_refl _) (by omega)
          refine Ok.weaken (n := s5.stream.data.length) ?_ (by omega)
          refine ok_bind h5 ?_
          intro _ s6 ht6 hle6
          rw [Coro.run_bind]
          refine ok_rd (fwd_expectString _ (by simp)) ht6 (by omega) ?_
          intro _ s7 _ ht7 hle7
          split
          · exact ok_pure ht7 (by omega)
          · exact ih.2 cs s7 t _ hcs ht7 (by omega) (by omega)
      · split
        · exact ok_pure ht1 (by omega)
        · exact ih.2 cs s1 t n hcs ht1 (by omega) (by omega)

end Verif.Nar
