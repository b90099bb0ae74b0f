import Verif.Lemmas.NarSorted
import Verif.Spec.NarLang

namespace Verif.Nar
open Verif.GoLib Verif.Spec Verif.Wire

theorem le8_eq (n : Nat) : (List.range 8).map (fun i => UInt8.ofNat (n / 256 ^ i)) = putUint64 n := by
  simp [List.range, List.range.loop, putUint64, Nat.shiftRight_eq_div_pow]

/-- After an operation that failed with `io.EOF` nothing is left and the reader ends in `io.EOF`. -/
def EofAt {α : Type} (m : M Stream α) : Prop :=
  ∀ s, (m s).1 = .err .eof → (m s).2.data = [] ∧ s.term = .eof

theorem eof_readFull (k : Nat) : EofAt (readFull k) := by
  intro s; unfold readFull; split
  · simp
  · simp only [shortErr]; split
    · simp
    · intro h; refine ⟨?_, by injection h⟩; simp

theorem eof_bind {α β : Type} {m : M Stream α} {f : α → M Stream β} (hm : EofAt m)
    (ht : ∀ s, (m s).2.term = s.term) (hf : ∀ a, EofAt (f a)) : EofAt (m >>= f) := by
  intro s
  rcases hs : m s with ⟨r, s'⟩
  have h1 := hm s; have h2 := ht s
  rw [hs] at h1 h2
  rcases r with a | e | _
  · rw [M.bind_ok hs]; intro h; rw [← h2]; exact hf a s' h
  · rw [M.bind_err hs]; intro h; exact h1 (by injection h with h; rw [h])
  · rw [M.bind_panic hs]; intro h; cases h

theorem eof_pure {α : Type} (a : α) : EofAt (pure a : M Stream α) := by intro s; simp
theorem eof_fail {α : Type} (l : String) : EofAt (M.fail (.msg l) : M Stream α) := by intro s; simp

theorem eof_readUint64 : EofAt readUint64 :=
  eof_bind (eof_readFull 8) (fwd_readFull 8).term (fun _ => eof_pure _)

theorem eof_readPadding (n : Nat) : EofAt (readPadding n) := by
  unfold readPadding
  split
  · exact eof_pure _
  · refine eof_bind (eof_readFull _) (fwd_readFull _).term ?_
    intro b
    split
    · exact eof_pure _
    · exact eof_fail _

theorem eof_bytesReaderClose (r n : Nat) : EofAt (bytesReaderClose r n) := by
  intro s; unfold bytesReaderClose; split
  · intro h; exact ⟨rfl, by injection h⟩
  · intro h; exact eof_readPadding n _ h

theorem bytesReaderClose_nil (n : Nat) (r : Nat) (s : Stream) (h : s.data = []) :
    (bytesReaderClose r n s).2.data = [] := by
  have := (fwd_bytesReaderClose r n).le s
  rw [h] at this
  simpa using this

theorem eof_readContent (n : Nat) : EofAt (readContent n) := by
  intro s; unfold readContent
  intro h
  obtain ⟨h1, h2⟩ := eof_readFull n s h
  exact ⟨bytesReaderClose_nil _ _ _ h1, h2⟩

theorem eof_readBytesFull (max : Nat) : EofAt (readBytesFull max) := by
  refine eof_bind eof_readUint64 fwd_readUint64.term ?_
  intro n
  split
  · exact eof_fail _
  · split
    · intro s; simp
    · exact eof_readContent n

theorem eof_readString (max : Nat) : EofAt (readString max) := eof_readBytesFull max

theorem eof_expectString (e : Bytes) : EofAt (expectString e) := by
  intro s
  unfold expectString
  rcases readString e.length s with ⟨_ | er | _, s'⟩
  · simp only []; split <;> simp
  · simp only []; split
    · simp
    · rename_i h; intro h'; simp at h'; exact absurd h' h
  · simp

theorem eof_readPlaceholder : EofAt readPlaceholder := by
  intro s
  unfold readPlaceholder
  rcases readBytesFull 0 s with ⟨_ | er | _, s'⟩ <;> simp

/-! ### what was consumed -/

theorem tok_readString {max : Nat} {s : Stream} {t : Bytes} (h : (readString max s).1 = .ok t) :
    Tok t s.data (readString max s).2.data := by
  unfold readString readBytesFull at h ⊢
  rcases hr : readUint64 s with ⟨r, s1⟩
  rcases r with n | e | _
  · rw [M.bind_ok hr] at h ⊢
    split at h
    · simp at h
    · rename_i hmax
      rw [if_neg hmax]
      split at h
      · simp at h
      · rename_i h63
        rw [if_neg h63]
        -- the length
        have hlen : n = getUint64 (s.data.take 8) ∧ s1.data = s.data.drop 8 ∧ 8 ≤ s.data.length := by
          unfold readUint64 at hr
          rw [M.bind_eq_ok] at hr
          obtain ⟨b, s', h1, h2⟩ := hr
          unfold readFull at h1
          split at h1
          · rename_i hle
            simp at h1 h2
            obtain ⟨rfl, rfl⟩ := h1
            obtain ⟨rfl, rfl⟩ := h2
            exact ⟨rfl, rfl, hle⟩
          · simp at h1
        obtain ⟨hn, hd, h8⟩ := hlen
        unfold readContent readFull at h ⊢
        by_cases hle : n ≤ s1.data.length
        · rw [if_pos hle] at h ⊢
          simp only [Res.ok.injEq] at h
          simp only []
          have htl : t.length = n := by rw [← h]; simp; omega
          have hput : s.data.take 8 = putUint64 t.length := by
            rw [htl]
            apply isLE64_unique
            exact ⟨by simp; omega, by rw [← getUint64_eq, ← hn]⟩
          have e0 : n - min n s1.data.length = 0 := by omega
          have e1 : bytesReaderClose (n - min n s1.data.length) n ⟨s1.data.drop n, s1.term⟩
              = readPadding n ⟨s1.data.drop n, s1.term⟩ := by
            rw [e0]; unfold bytesReaderClose; rw [if_neg (by omega)]; simp
          have key : ∃ p, s1.data.drop n = p ++ (readPadding n ⟨s1.data.drop n, s1.term⟩).2.data ∧
              (p.length = (8 - n % 8) % 8 ∨ (p.length ≤ (8 - n % 8) % 8 ∧
                (readPadding n ⟨s1.data.drop n, s1.term⟩).2.data = [])) := by
            unfold readPadding
            split
            · exact ⟨[], by simp, .inl (by simp; omega)⟩
            · rename_i hn8
              rw [M.bind_apply]
              unfold readFull
              by_cases hl : 8 - n % 8 ≤ (s1.data.drop n).length
              · rw [if_pos hl]
                refine ⟨(s1.data.drop n).take (8 - n % 8), ?_, .inl ?_⟩
                · simp only []
                  split
                  · exact (List.take_append_drop _ _).symm
                  · exact (List.take_append_drop _ _).symm
                · rw [List.length_take]; omega
              · rw [if_neg hl]
                exact ⟨s1.data.drop n, by simp, .inr ⟨by omega, rfl⟩⟩
          obtain ⟨p, hp1, hp2⟩ := key
          rw [e1]
          refine ⟨putUint64 t.length, p, ?_, (le8_eq _).symm, by rw [htl]; exact hp2⟩
          rw [List.append_assoc, ← hp1, ← hput, List.append_assoc, ← h, List.take_append_drop, hd,
            List.take_append_drop]
        · rw [if_neg hle] at h; simp at h
  · rw [M.bind_err hr] at h; simp at h
  · rw [M.bind_panic hr] at h; simp at h

theorem tok_expectString {e : Bytes} {s : Stream} {a : Unit} (h : (expectString e s).1 = .ok a) :
    Tok e s.data (expectString e s).2.data := by
  unfold expectString at h ⊢
  have := fun t => tok_readString (max := e.length) (s := s) (t := t)
  rcases hr : readString e.length s with ⟨t | er | _, s'⟩
  · rw [hr] at h this
    simp only at h ⊢
    split at h
    · simp at h
    · rename_i he
      rw [if_neg he]
      have he : t = e := by simpa using he
      subst he
      exact this _ rfl
  · rw [hr] at h; simp at h
  · rw [hr] at h; simp at h

theorem tok_readPlaceholder {s : Stream} {a : Unit} (h : (readPlaceholder s).1 = .ok a) :
    Tok [] s.data (readPlaceholder s).2.data := by
  have h0 := fun t => tok_readString (max := 0) (s := s) (t := t)
  unfold readString at h0
  unfold readPlaceholder at h ⊢
  rcases hr : readBytesFull 0 s with ⟨t | er | _, s'⟩
  · rw [hr] at h h0
    have ht := h0 _ rfl
    have hl := readString_le 0 s t (by unfold readString; rw [hr])
    have : t = [] := List.length_eq_zero_iff.1 (by omega)
    subst this
    exact ht
  · rw [hr] at h; simp at h
  · rw [hr] at h; simp at h

/-- what the caller gets for an entry: the header, and the content to read -/
def hc (e : Entry) : Header × Bytes := (hdrOf e, e.contents)

/-- what the caller gets for an entry that may be cut off -/
def hs (x : Seen) : Header × Bytes := (hdrSeen x, x.1.contents)

theorem hs_full (e : Entry) : hs (full e) = hc e := rfl

theorem map_hs_full (es : List Entry) : (es.map full).map hs = es.map hc := by
  rw [List.map_map]; rfl

/-! ### where `io.EOF` comes from -/

theorem cut_readUint64 {s : Stream} (h : (readUint64 s).1 = .err .eof) : s.data = [] := by
  unfold readUint64 at h
  rcases hr : readFull 8 s with ⟨r, s'⟩
  rcases r with a | e | _
  · rw [M.bind_ok hr] at h; simp at h
  · rw [M.bind_err hr] at h
    unfold readFull at hr
    split at hr
    · simp at hr
    · simp only [Prod.mk.injEq, Res.err.injEq] at hr h
      rw [← hr.1] at h
      unfold shortErr at h
      split at h
      · simp at h
      · rename_i hh
        have : ¬ (0 < s.data.length) := fun h' => hh ⟨h', h⟩
        exact List.length_eq_zero_iff.1 (by omega)
  · rw [M.bind_panic hr] at h; simp at h

theorem readUint64_ok {s s1 : Stream} {n : Nat} (h : readUint64 s = (.ok n, s1)) :
    s.data = putUint64 n ++ s1.data ∧ s1.term = s.term ∧ n < 2 ^ 64 := by
  unfold readUint64 at h
  rw [M.bind_apply] at h
  unfold readFull at h
  by_cases h8 : 8 ≤ s.data.length
  · rw [if_pos h8] at h
    simp at h
    obtain ⟨rfl, rfl⟩ := h
    have hl : IsLE64 (s.data.take 8) (getUint64 (s.data.take 8)) := ⟨by simp; omega, by rw [← getUint64_eq]⟩
    refine ⟨?_, rfl, ?_⟩
    · rw [← isLE64_unique hl, List.take_append_drop]
    · have := leValue_lt (s.data.take 8)
      rw [getUint64_eq]
      rw [hl.1] at this
      exact this
  · rw [if_neg h8] at h; simp at h

theorem cut_readString {max : Nat} {s : Stream} (h : (readString max s).1 = .err .eof) :
    CutTok max s.data := by
  unfold readString readBytesFull at h
  rcases hr : readUint64 s with ⟨r, s1⟩
  rcases r with n | e | _
  · rw [M.bind_ok hr] at h
    obtain ⟨h1, h2, h3⟩ := readUint64_ok hr
    split at h
    · simp at h
    · rename_i hm
      split at h
      · simp at h
      · unfold readContent readFull at h
        by_cases hle : n ≤ s1.data.length
        · rw [if_pos hle] at h; simp at h
        · rw [if_neg hle] at h
          simp only [Res.err.injEq, shortErr] at h
          split at h
          · simp at h
          · rename_i hh
            have : ¬ (0 < s1.data.length) := fun h' => hh ⟨h', h⟩
            have h0 := List.length_eq_zero_iff.1 (show s1.data.length = 0 by omega)
            refine .inr ⟨n, by omega, by omega, ?_⟩
            rw [h1, h0, le8_eq, List.append_nil]
  · rw [M.bind_err hr] at h
    simp at h
    exact .inl (cut_readUint64 (by rw [hr, h]))
  · rw [M.bind_panic hr] at h; simp at h

/-- The trace of a goroutine: at a regular end, `R` holds of the entries handed over and the data
left; an `io.EOF` result means that the reader ended, and that `C` holds of the entries. -/
def Parses {α : Type} (R : List (Header × Bytes) → Bytes → Prop) (C : List (Header × Bytes) → Prop)
    (acc : List (Header × Bytes)) : Step RState Header Bool α → Prop
  | .done (.ok _) s => R acc s.stream.data
  | .done (.err .eof) s => s.stream.data = [] ∧ s.stream.term = .eof ∧ C acc
  | .done _ _ => True
  | .yield h s k => ∀ s', Consume s s' →
      Parses R C (acc ++ [(h, s.stream.data.take s.rem)]) (k true s')

section
variable {R R' : List (Header × Bytes) → Bytes → Prop} {C C' : List (Header × Bytes) → Prop}
  {acc : List (Header × Bytes)} {α β : Type}

theorem Parses.bind {st : Step RState Header Bool α} {f : α → RState → Step RState Header Bool β}
    (h : Parses R C acc st) (hf : ∀ a s es, R es s.stream.data → Parses R' C' es (f a s))
    (hc : ∀ es, C es → C' es) :
    Parses R' C' acc (st.bind f) := by
  induction st generalizing acc with
  | done r s =>
    rcases r with a | e | _
    · exact hf a s acc h
    · cases e with
      | eof => exact ⟨h.1, h.2.1, hc _ h.2.2⟩
      | _ => exact trivial
    · exact trivial
  | yield y s k ih => exact fun s' hc => ih true s' (h s' hc)

theorem Parses.mono {st : Step RState Header Bool α} (h : Parses R C acc st)
    (hr : ∀ es d, R es d → R' es d) (hc : ∀ es, C es → C' es) : Parses R' C' acc st := by
  induction st generalizing acc with
  | done r s =>
    rcases r with a | e | _
    · exact hr _ _ h
    · cases e with
      | eof => exact ⟨h.1, h.2.1, hc _ h.2.2⟩
      | _ => exact trivial
    · exact trivial
  | yield y s k ih => exact fun s' hc => ih true s' (h s' hc)

theorem parses_rd {m : M Stream α}
    (he : EofAt m) (ht : ∀ s, (m s).2.term = s.term) {f : α → RCoro β} {s : RState}
    (hc : (m s.stream).1 = .err .eof → C acc)
    (hf : ∀ a s', (m s.stream).1 = .ok a → s'.stream = (m s.stream).2 → Parses R C acc ((f a).run s')) :
    Parses R C acc ((rd m >>= f).run s) := by
  have e : (rd m >>= f).run s = ((Step.done (m s.stream).1 { s with stream := (m s.stream).2 } :
    Step RState Header Bool α)).bind (fun a s' => (f a).run s') := rfl
  rw [e]
  rcases hr : (m s.stream).1 with a | er | _
  · exact hf a _ hr rfl
  · cases er with
    | eof =>
      have := he s.stream hr
      exact ⟨this.1, by rw [ht]; exact this.2, hc hr⟩
    | _ => exact trivial
  · exact trivial

theorem toks_nil (d : Bytes) : Toks [] d d := rfl
theorem toks_snoc {ts : List Bytes} {t d m d' : Bytes} (h : Toks ts d m) (ht : Tok t m d') :
    Toks (ts ++ [t]) d d' := by
  induction ts generalizing d with
  | nil => cases h; exact ⟨d', ht, rfl⟩
  | cons a ts ih => obtain ⟨x, h1, h2⟩ := h; exact ⟨x, h1, ih h2⟩

theorem expectString_ne_eof (e : Bytes) (s : Stream) : (expectString e s).1 ≠ .err .eof := by
  unfold expectString
  rcases readString e.length s with ⟨_ | er | _, s'⟩
  · simp only []; split <;> simp
  · simp only []; split
    · simp
    · rename_i h; simpa using h
  · simp

theorem readPlaceholder_ne_eof (s : Stream) : (readPlaceholder s).1 ≠ .err .eof := by
  unfold readPlaceholder
  rcases readBytesFull 0 s with ⟨_ | er | _, s'⟩ <;> simp

/-- Reading a given string. -/
theorem parses_expect (e : Bytes)
    (he63 : e.length < 2 ^ 63) {f : Unit → RCoro β} {s : RState} {ts : List Bytes} {d : Bytes}
    (hd : Toks ts d s.stream.data)
    (hf : ∀ s', Toks (ts ++ [e]) d s'.stream.data → Parses R C acc ((f ()).run s')) :
    Parses R C acc ((rd (expectString e) >>= f).run s) := by
  refine parses_rd (eof_expectString e) (fwd_expectString e he63).term
    (fun h => absurd h (expectString_ne_eof _ _)) ?_
  intro _ s' hok hs'
  refine hf s' (toks_snoc hd ?_)
  rw [hs']; exact tok_expectString hok

/-- Reading some string. -/
theorem parses_token (max : Nat)
    (hm : max < 2 ^ 63) {f : Bytes → RCoro β} {s : RState} {ts : List Bytes} {d : Bytes}
    (hd : Toks ts d s.stream.data)
    (hc : CutTok max s.stream.data → C acc)
    (hf : ∀ t s', Toks (ts ++ [t]) d s'.stream.data → t.length ≤ max → Parses R C acc ((f t).run s')) :
    Parses R C acc ((rd (readString max) >>= f).run s) := by
  refine parses_rd (eof_readString max) (fwd_readString max hm).term
    (fun h => hc (cut_readString h)) ?_
  intro t s' hok hs'
  refine hf t s' (toks_snoc hd ?_) (readString_le _ _ _ hok)
  rw [hs']; exact tok_readString hok

theorem parses_fail (l : String) (s : RState) :
    Parses R C acc ((Coro.fail (.msg l) : RCoro α).run s) := trivial

theorem parses_close {tok : Bytes} {s : RState}
    (h : tok = b!")" → R acc s.stream.data) : Parses R C acc ((expectClose tok).run s) := by
  unfold expectClose
  split
  · rename_i e; exact h e
  · exact trivial

theorem toks_single {t d d' : Bytes} (h : Toks [t] d d') : Tok t d d' := by
  obtain ⟨m, h1, h2⟩ := h; cases h2; exact h1

theorem readPadding_ok {n : Nat} {s s1 : Stream} (h : readPadding n s = (.ok (), s1)) :
    s.data = pad n ++ s1.data := by
  unfold readPadding at h
  split at h
  · rename_i h8
    simp at h
    rw [← h]
    simp [pad, h8]
  · rename_i h8
    rw [M.bind_eq_ok] at h
    obtain ⟨buf, s3, h1, h2⟩ := h
    unfold readFull at h1
    split at h1
    · rename_i hl
      simp at h1
      obtain ⟨rfl, rfl⟩ := h1
      split at h2
      · rename_i hz
        simp at h2
        rw [← h2]
        have hz' : s.data.take (8 - n % 8) = pad n := by
          unfold pad
          rw [List.eq_replicate_iff]
          refine ⟨by rw [List.length_take]; omega, ?_⟩
          intro b hb
          have := List.all_eq_true.1 hz b hb
          simpa using this
        rw [← hz', List.take_append_drop]
      · simp at h2
    · simp at h1

theorem cut_readPadding {n : Nat} {s : Stream} (h : (readPadding n s).1 = .err .eof) :
    s.data = [] ∧ n % 8 ≠ 0 := by
  unfold readPadding at h
  split at h
  · simp at h
  · rename_i h8
    refine ⟨?_, h8⟩
    rcases hr : readFull (8 - n % 8) s with ⟨r, s'⟩
    rcases r with a | e | _
    · rw [M.bind_ok hr] at h
      split at h <;> simp at h
    · rw [M.bind_err hr] at h
      unfold readFull at hr
      split at hr
      · simp at hr
      · simp only [Prod.mk.injEq, Res.err.injEq] at hr h
        rw [← hr.1] at h
        unfold shortErr at h
        split at h
        · simp at h
        · rename_i hh
          have : ¬ (0 < s.data.length) := fun h' => hh ⟨h', h⟩
          exact List.length_eq_zero_iff.1 (by omega)
    · rw [M.bind_panic hr] at h; simp at h

/-- The end of a file: with a token read afterwards, the content and its padding were complete. -/
theorem close_then_token {s s' : RState} (hc : Consume s s') (hlen : s.len = s.rem) {f : Bytes → RCoro β}
    (hcut1 : s.stream.data.length < s.rem ∨ (s.stream.data.length = s.rem ∧ s.rem % 8 ≠ 0) → C acc)
    (hcut2 : ∀ m', s.stream.data = s.stream.data.take s.rem ++ pad s.rem ++ m' →
      (s.stream.data.take s.rem).length = s.rem → CutTok 32 m' → C acc)
    (hf : ∀ t s2 m', s.stream.data = s.stream.data.take s.rem ++ pad s.rem ++ m' →
      (s.stream.data.take s.rem).length = s.rem → Tok t m' s2.stream.data → Parses R C acc ((f t).run s2)) :
    Parses R C acc (((closeContent.run s').bind
      (fun _ s => (rd (readString tokenLenMax) >>= f).run s))) := by
  have hcl := closeContent_consume hc
  rw [hcl]
  have e : closeContent.run s = .done (bytesReaderClose s.rem s.len s.stream).1
    ⟨(bytesReaderClose s.rem s.len s.stream).2, s.rem - min s.rem s.stream.data.length, s.len⟩ := rfl
  rw [e]
  have he := eof_bytesReaderClose s.rem s.len s.stream
  have ht := (fwd_bytesReaderClose s.rem s.len).term s.stream
  rcases hb : (bytesReaderClose s.rem s.len s.stream) with ⟨r, s1⟩
  rw [hb] at he ht
  by_cases hshort : s.stream.data.length < s.rem
  · -- the content was cut off
    have hC := hcut1 (.inl hshort)
    rcases r with a | er | _
    · refine parses_rd (eof_readString _) (fwd_readString _ (by simp [tokenLenMax])).term (fun _ => hC) ?_
      intro t s2 hok hs2
      exfalso
      have htok := tok_readString hok
      unfold bytesReaderClose at hb
      split at hb
      · simp at hb
      · have h1 := (fwd_readPadding s.len).le { s.stream with data := s.stream.data.drop s.rem }
        rw [hb] at h1
        simp at h1
        obtain ⟨len, p, e1, e2, _⟩ := htok
        have : 8 ≤ s1.data.length := by
          simp only [] at e1
          rw [e1, e2]
          simp only [List.length_append, List.length_map, List.length_range]
          omega
        omega
    · cases er with
      | eof => exact ⟨(he rfl).1, ht.trans (he rfl).2, hC⟩
      | _ => exact trivial
    · exact trivial
  · have hb' : readPadding s.rem { s.stream with data := s.stream.data.drop s.rem } = (r, s1) := by
      unfold bytesReaderClose at hb
      rw [if_neg (fun h => hshort h.1), hlen] at hb
      exact hb
    have hl : (s.stream.data.take s.rem).length = s.rem := by rw [List.length_take]; omega
    rcases r with a | er | _
    · have hpad := readPadding_ok hb'
      simp only [] at hpad
      have hsplit : s.stream.data = s.stream.data.take s.rem ++ pad s.rem ++ s1.data := by
        rw [List.append_assoc, ← hpad, List.take_append_drop]
      refine parses_rd (eof_readString _) (fwd_readString _ (by simp [tokenLenMax])).term ?_ ?_
      · intro h
        exact hcut2 s1.data hsplit hl (cut_readString h)
      · intro t s2 hok hs2
        have htok := tok_readString hok
        rw [← hs2] at htok
        exact hf t s2 s1.data hsplit hl htok
    · cases er with
      | eof =>
        refine ⟨(he rfl).1, ht.trans (he rfl).2, hcut1 (.inr ?_)⟩
        obtain ⟨h1, h2⟩ := cut_readPadding (n := s.rem)
          (s := { s.stream with data := s.stream.data.drop s.rem }) (by rw [hb'])
        simp at h1
        exact ⟨by omega, h2⟩
      | _ => exact trivial
    · exact trivial

/-- What the parser accepted, in terms of the relaxed grammar. -/
theorem parses_contents (p : Bytes) (ex : Bool) (acc : List (Header × Bytes)) (tok : Bytes) (s : RState)
    (d : Bytes) (x : List Bytes) (hex : (x = [] ∧ ex = false) ∨ (x = [b!"executable", []] ∧ ex = true))
    (hts : Toks ([b!"(", b!"type", b!"regular"] ++ x ++ [tok]) d s.stream.data) :
    Parses (fun es d' => ∃ es', es = acc ++ es'.map hc ∧ RelNode p d es' d')
      (fun es => ∃ xs, es = acc ++ xs.map hs ∧ CutNode p d xs) acc
      ((parseContents p ex tok).run s) := by
  have hx : x = [] ∨ x = [b!"executable", []] := hex.imp And.left And.left
  have hxe : ex = (x != []) := by rcases hex with ⟨rfl, rfl⟩ | ⟨rfl, rfl⟩ <;> rfl
  unfold parseContents
  split
  · exact parses_fail _ _
  · rename_i htok
    have htok : tok = b!"contents" := by simpa using htok
    subst htok
    refine parses_rd eof_readUint64 fwd_readUint64.term ?_ ?_
    · intro h
      have h0 := cut_readUint64 h
      rw [h0] at hts
      exact ⟨[], by simp, .length hx hts⟩
    intro n s1 hok hs1
    obtain ⟨hn, _, _⟩ := readUint64_ok (s := s.stream) (s1 := s1.stream) (n := n) (by
      rw [← hok, hs1])
    split
    · exact parses_fail _ _
    · rename_i hn63
      have hn63 : n < 2 ^ 63 := by omega
      intro s' hcons
      refine close_then_token (s := ⟨s1.stream, n, n⟩) hcons rfl ?_ ?_ ?_
      · intro h
        simp only [] at h
        have ht : s1.stream.data.take n = s1.stream.data := List.take_of_length_le (by omega)
        refine ⟨[(⟨p, b!"regular", ex, [], s1.stream.data⟩, n)], ?_, ?_⟩
        · simp only [ht, List.map_cons, List.map_nil]; rfl
        · rw [hxe]
          exact .contents hx hts (by rw [hn, le8_eq]) hn63 h
      · intro m' hd hlen hcut
        simp only [] at hd hlen
        refine ⟨[(⟨p, b!"regular", ex, [], s1.stream.data.take n⟩, n)], ?_, ?_⟩
        · rfl
        · rw [hxe]
          have := CutNode.close (p := p) (c := s1.stream.data.take n) (m' := m') hx hts ?_ (by omega) hcut
          · rw [hlen] at this; exact this
          · rw [hn, str_eq, packet, hlen, List.append_assoc, List.append_assoc,
              ← List.append_assoc _ (pad n), ← hd]
      intro t s2 m' hd hlen htok
      refine parses_close ?_
      intro ht
      subst ht
      refine ⟨[⟨p, b!"regular", ex, [], s1.stream.data.take n⟩], ?_, ?_⟩
      · have hl : (s1.stream.data.take n).length = n := hlen
        simp only [List.map_cons, List.map_nil, hc, hdrOf, hl]
        rfl
      simp only [] at hd hlen
      have hm : s.stream.data = str (s1.stream.data.take n) ++ m' := by
        rw [hn, str_eq, packet, hlen, List.append_assoc, List.append_assoc,
          ← List.append_assoc _ (pad n), ← hd]
      rcases hex with ⟨rfl, rfl⟩ | ⟨rfl, rfl⟩
      · exact .regular hts hm (by omega) htok
      · exact .executable hts hm (by omega) htok

theorem sound_parse (fuel : Nat) :
    (∀ (p : Bytes) (s : RState) (acc : List (Header × Bytes)),
      Parses (fun es d' => ∃ es', es = acc ++ es'.map hc ∧ RelNode p s.stream.data es' d')
        (fun es => ∃ xs, es = acc ++ xs.map hs ∧ CutNode p s.stream.data xs) acc
        ((parseNode fuel p).run s)) ∧
    (∀ (p : Bytes) (s : RState) (acc : List (Header × Bytes)),
      Parses (fun es d' => ∃ es', es = acc ++ es'.map hc ∧ RelEntries p s.stream.data es' d')
        (fun es => ∃ xs, es = acc ++ xs.map hs ∧ CutEntries p s.stream.data xs) acc
        ((parseEntries fuel p).run s)) := by
  induction fuel with
  | zero => exact ⟨fun _ _ _ => trivial, fun _ _ _ => trivial⟩
  | succ fuel ih =>
    constructor
    · intro p s acc
      unfold parseNode
      refine parses_expect _ (by simp) (toks_nil _) (fun s1 h => ?_)
      refine parses_expect _ (by simp) h (fun s1 h => ?_)
      refine parses_token _ (by simp [tokenLenMax]) h (fun hcut => ⟨[], by simp, .type h hcut⟩) (fun tok s1 h _ => ?_)
      split
      · rename_i ht; subst ht
        unfold parseRegular
        refine parses_token _ (by simp) h (fun hcut => ⟨[], by simp, .regular h hcut⟩) (fun tok s1 h _ => ?_)
        split
        · rename_i ht; subst ht
          refine parses_rd eof_readPlaceholder fwd_readPlaceholder.term
            (fun h => absurd h (readPlaceholder_ne_eof _)) ?_
          intro _ s2 hok hs2
          have h2 := toks_snoc h (tok_readPlaceholder hok)
          rw [← hs2] at h2
          refine parses_token _ (by simp [tokenLenMax]) h2
            (fun hcut => ⟨[], by simp, .executable h2 hcut⟩) (fun tok s1 h _ => ?_)
          exact parses_contents p true acc tok s1 _ [b!"executable", []] (.inr ⟨rfl, rfl⟩) h
        · exact parses_contents p false acc tok s1 _ [] (.inl ⟨rfl, rfl⟩) h
      · split
        · rename_i ht; subst ht
          unfold parseSymlink
          refine parses_expect _ (by simp) h (fun s1 h => ?_)
          refine parses_token _ (by simp [pathLenMax]) h (fun hcut => ⟨[], by simp, .target h hcut⟩)
            (fun tg s1 h htg => ?_)
          intro s' hcons
          have e := consume_rem_zero hcons rfl
          subst e
          refine parses_token _ (by simp [tokenLenMax]) (s := ⟨s1.stream, 0, 0⟩) h
            (fun hcut => ⟨[_], rfl, .symlink (t := tg) h htg hcut⟩) (fun tok s1 h _ => ?_)
          refine parses_close ?_
          intro ht; subst ht
          exact ⟨[_], rfl, .symlink (t := tg) h htg⟩
        · split
          · rename_i ht; subst ht
            intro s' hcons
            have e := consume_rem_zero hcons rfl
            subst e
            refine Parses.mono ((ih.2 p ⟨s1.stream, 0, 0⟩ _)) ?_ ?_
            · rintro es d' ⟨es', rfl, h'⟩
              refine ⟨⟨p, b!"directory", false, [], []⟩ :: es', ?_, .directory h h'⟩
              rw [List.map_cons, List.append_assoc, List.singleton_append]
              rfl
            · rintro es ⟨es', rfl, h'⟩
              refine ⟨(⟨p, b!"directory", false, [], []⟩, 0) :: es', ?_, .directory h h'⟩
              rw [List.map_cons, List.append_assoc, List.singleton_append]
              rfl
          · refine parses_close ?_
            intro ht; subst ht
            exact ⟨[], by simp, .nothing h⟩
    · intro p s acc
      unfold parseEntries
      refine parses_token _ (by simp [tokenLenMax]) (toks_nil _) (fun hcut => ⟨[], by simp, .token hcut⟩)
        (fun tok s1 h htl => ?_)
      split
      · rename_i ht; subst ht
        refine parses_expect _ (by simp) h (fun s1 h => ?_)
        refine parses_expect _ (by simp) h (fun s1 h => ?_)
        refine parses_token _ (by simp [nameLenMax]) h (fun hcut => ⟨[], by simp, .name h hcut⟩)
          (fun name s1 h hnl => ?_)
        split
        · exact parses_fail _ _
        · rename_i hv
          have hv := (isValidNodeName_iff name).1 (by simpa using hv)
          refine parses_expect _ (by simp) h (fun s1 h => ?_)
          refine Parses.bind (ih.1 (pathJoin p name) s1 acc) ?_ ?_
          · rintro _ s2 es ⟨es1, rfl, hn⟩
            refine parses_expect _ (by simp) (toks_nil _) (fun s3 h3 => ?_)
            have h3 := toks_single h3
            split
            · rename_i hname; subst hname
              exact ⟨es1, rfl, .lastEntry h hn h3⟩
            · rename_i hname
              refine Parses.mono (ih.2 p s3 _) ?_ ?_
              · rintro es d' ⟨es', rfl, h'⟩
                exact ⟨es1 ++ es', by simp, .entry h hv.1 hv.2 hnl hn h3 hname h'⟩
              · rintro es ⟨xs, rfl, h'⟩
                refine ⟨es1.map full ++ xs, ?_, .entry h hv.1 hv.2 hnl hn h3 hname h'⟩
                rw [List.map_append, map_hs_full, List.append_assoc]
          · rintro es ⟨xs, rfl, h'⟩
            exact ⟨xs, rfl, .node h hv.1 hv.2 hnl h'⟩
      · rename_i he
        have h := toks_single h
        split
        · rename_i ht; subst ht
          exact ⟨[], by simp, .close h⟩
        · rename_i hc
          refine Parses.mono (ih.2 p s1 acc) ?_ ?_
          · rintro es d' ⟨es', rfl, h'⟩
            exact ⟨es', rfl, .unknown h he hc htl h'⟩
          · rintro es ⟨es', rfl, h'⟩
            exact ⟨es', rfl, .unknown h he hc htl h'⟩

end

end Verif.Nar
