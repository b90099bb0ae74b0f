import Verif.Lemmas.NarHistory

namespace Verif.Nar
open Verif.GoLib Verif.Spec Verif.Wire

/-! ### reading strings of the relaxed format -/

theorem readString_tok {t d d' : Bytes} (h : Tok t d d') (max : Nat) (e : Err) (hl : t.length ≤ max)
    (hm : max < 2 ^ 63) : readString max ⟨d, e⟩ = (.ok t, ⟨d', e⟩) := by
  obtain ⟨len, p, rfl, rfl, hp⟩ := h
  rw [le8_eq]
  unfold readString readBytesFull
  rw [List.append_assoc, List.append_assoc,
    M.bind_ok (readUint64_append _ _ e t.length (isLE64_put _ (by omega)))]
  rw [if_neg (by omega), if_neg (by omega)]
  unfold readContent
  rw [readFull_append t _ e _ rfl]
  simp only [List.length_append]
  have e0 : t.length - min t.length (t.length + (p.length + d'.length)) = 0 := by omega
  rw [e0]
  refine congrArg (Prod.mk _) ?_
  unfold bytesReaderClose
  rw [if_neg (by omega)]
  simp only [List.drop_zero]
  unfold readPadding
  split
  · rename_i h8
    have : p = [] := List.length_eq_zero_iff.1 (by omega)
    subst this
    rfl
  · rename_i h8
    rw [M.bind_apply]
    unfold readFull
    by_cases hc : p.length = 8 - t.length % 8
    · rw [if_pos (by simp; omega)]
      simp only []
      have hd : (p ++ d').drop (8 - t.length % 8) = d' := by rw [← hc, List.drop_left]
      split <;> simp [hd]
    · have hd' : d' = [] := by
        rcases hp with hp | hp
        · omega
        · exact hp.2
      subst hd'
      rw [if_neg (by simp; omega)]

theorem readString_cut {d : Bytes} {max : Nat} (h : CutTok max d) (hm : max < 2 ^ 63) :
    readString max ⟨d, .eof⟩ = (.err .eof, ⟨[], .eof⟩) := by
  rcases h with rfl | ⟨n, h0, hn, rfl⟩
  · rfl
  · rw [le8_eq]
    unfold readString readBytesFull
    rw [← List.append_nil (putUint64 n),
      M.bind_ok (readUint64_append _ _ .eof n (isLE64_put _ (by omega)))]
    rw [if_neg (by omega), if_neg (by omega)]
    unfold readContent readFull
    rw [if_neg (by simp; omega)]
    have := bytesReaderClose_nil n (n - min n ([] : Bytes).length) ⟨[], .eof⟩ rfl
    have ht := (fwd_bytesReaderClose (n - min n ([] : Bytes).length) n).term ⟨[], .eof⟩
    simp only [] at this ht ⊢
    refine Prod.ext rfl ?_
    rcases hs : (bytesReaderClose (n - min n ([] : Bytes).length) n ⟨[], .eof⟩).2 with ⟨a, b⟩
    rw [hs] at this ht
    simp only [] at this ht
    rw [this, ht]

theorem expectString_tok {t d d' : Bytes} (h : Tok t d d') (e : Err) (hm : t.length < 2 ^ 63) :
    expectString t ⟨d, e⟩ = (.ok (), ⟨d', e⟩) := by
  unfold expectString
  rw [readString_tok h _ e (Nat.le_refl _) hm]
  simp

theorem readPlaceholder_tok {d d' : Bytes} (h : Tok [] d d') (e : Err) :
    readPlaceholder ⟨d, e⟩ = (.ok (), ⟨d', e⟩) := by
  unfold readPlaceholder
  have := readString_tok h 0 e (by simp) (by omega)
  unfold readString at this
  rw [this]

theorem tok_length {t d d' : Bytes} (h : Tok t d d') : d'.length + 8 ≤ d.length := by
  obtain ⟨len, p, rfl, rfl, _⟩ := h
  simp only [List.length_append, List.length_map, List.length_range]
  omega

theorem toks_length {ts : List Bytes} {d d' : Bytes} (h : Toks ts d d') :
    d'.length + 8 * ts.length ≤ d.length := by
  induction ts generalizing d with
  | nil => cases h; simp
  | cons t ts ih =>
    obtain ⟨m, h1, h2⟩ := h
    have := tok_length h1
    have := ih h2
    simp only [List.length_cons]
    omega

theorem toks_cons {t : Bytes} {ts : List Bytes} {d d' : Bytes} (h : Toks (t :: ts) d d') :
    ∃ m, Tok t d m ∧ Toks ts m d' := h

/-! ### traces -/

/-- `st` hands over the headers of `xs` in order, with the contents that are there in front of the
stream, and then reaches `Q`, however much of the contents the caller reads. -/
def Tr {α : Type} (Q : Step RState Header Bool α → Prop) :
    List Seen → Step RState Header Bool α → Prop
  | [], st => Q st
  | x :: xs, st => ∃ s k, st = .yield (hdrSeen x) s k ∧ s.rem = x.2 ∧
    s.stream.data.take x.2 = x.1.contents ∧
    (x.1.contents.length = x.2 ∨ s.stream.term = .eof) ∧ ∀ s', Consume s s' → Tr Q xs (k true s')

theorem Tr.append {α : Type} {Q : Step RState Header Bool α → Prop} {xs ys : List Seen}
    {st : Step RState Header Bool α} (h : Tr (Tr Q ys) xs st) : Tr Q (xs ++ ys) st := by
  induction xs generalizing st with
  | nil => exact h
  | cons e es ih =>
    obtain ⟨s, k, rfl, h1, h2, h3, h⟩ := h
    exact ⟨s, k, rfl, h1, h2, h3, fun s' hc => ih (h s' hc)⟩

section
variable {β γ : Type} {Q : Step RState Header Bool β → Prop}

theorem tr_rd {α : Type} {m : M Stream α} {d d' : Bytes} {t : Err} {a : α} {r l : Nat} {xs : List Seen}
    {g : α → RCoro γ} {f : γ → RState → Step RState Header Bool β}
    (h : m ⟨d, t⟩ = (.ok a, ⟨d', t⟩)) (hg : Tr Q xs (((g a).run ⟨⟨d', t⟩, r, l⟩).bind f)) :
    Tr Q xs (((rd m >>= g).run ⟨⟨d, t⟩, r, l⟩).bind f) := by
  rw [Coro.run_bind, Step.bind_assoc, rd_bind r l _ h]
  exact hg

/-- the goroutine has ended in `io.EOF` with nothing left -/
def IsEof (st : Step RState Header Bool β) : Prop :=
  ∃ r l, st = .done (.err .eof) ⟨⟨[], .eof⟩, r, l⟩

theorem tr_rd_eof {α : Type} {m : M Stream α} {d : Bytes} {r l : Nat}
    {g : α → RCoro γ} {f : γ → RState → Step RState Header Bool β}
    (h : m ⟨d, .eof⟩ = (.err .eof, ⟨[], .eof⟩)) :
    Tr IsEof [] (((rd m >>= g).run ⟨⟨d, .eof⟩, r, l⟩).bind f) := by
  have e : ((rd m).run ⟨⟨d, .eof⟩, r, l⟩ : Step RState Header Bool α) =
      .done (m ⟨d, .eof⟩).1 ⟨(m ⟨d, .eof⟩).2, r, l⟩ := rfl
  rw [Coro.run_bind, Step.bind_assoc, e, h]
  exact ⟨r, l, rfl⟩

theorem tr_str {t d d' : Bytes} {max : Nat} {e : Err} {r l : Nat} {xs : List Seen}
    {g : Bytes → RCoro γ} {f : γ → RState → Step RState Header Bool β}
    (h : Tok t d d') (hl : t.length ≤ max) (hm : max < 2 ^ 63)
    (hg : Tr Q xs (((g t).run ⟨⟨d', e⟩, r, l⟩).bind f)) :
    Tr Q xs (((rd (readString max) >>= g).run ⟨⟨d, e⟩, r, l⟩).bind f) :=
  tr_rd (readString_tok h max e hl hm) hg

theorem tr_expect {t d d' : Bytes} {e : Err} {r l : Nat} {xs : List Seen}
    {g : Unit → RCoro γ} {f : γ → RState → Step RState Header Bool β}
    (h : Tok t d d') (hm : t.length < 2 ^ 63)
    (hg : Tr Q xs (((g ()).run ⟨⟨d', e⟩, r, l⟩).bind f)) :
    Tr Q xs (((rd (expectString t) >>= g).run ⟨⟨d, e⟩, r, l⟩).bind f) :=
  tr_rd (expectString_tok h e hm) hg

theorem tr_cut {d : Bytes} {max : Nat} {r l : Nat}
    {g : Bytes → RCoro γ} {f : γ → RState → Step RState Header Bool β}
    (h : CutTok max d) (hm : max < 2 ^ 63) :
    Tr IsEof [] (((rd (readString max) >>= g).run ⟨⟨d, .eof⟩, r, l⟩).bind f) :=
  tr_rd_eof (readString_cut h hm)

variable {f : Unit → RState → Step RState Header Bool β}

/-- The length of a file, the header, and what comes after the caller asks for the next header. -/
theorem tr_contents (p : Bytes) (ex : Bool) (n : Nat) (c : Bytes) (t : Err) (r l : Nat) (hn : n < 2 ^ 63)
    (xs : List Seen) (ht : (c.take n).length = n ∨ t = .eof)
    (hk : ∀ s', Consume ⟨⟨c, t⟩, n, n⟩ s' →
      Tr Q xs (((closeContent.run s').bind
        (fun _ s => (rd (readString tokenLenMax) >>= expectClose).run s)).bind f)) :
    Tr Q ((⟨p, b!"regular", ex, [], c.take n⟩, n) :: xs)
      (((parseContents p ex b!"contents").run ⟨⟨putUint64 n ++ c, t⟩, r, l⟩).bind f) := by
  unfold parseContents
  rw [if_neg (by simp), Coro.run_bind, Step.bind_assoc]
  rw [rd_bind r l _ (readUint64_append _ _ t n (isLE64_put _ (by omega)))]
  have h1 : ¬ n > 2 ^ 63 - 1 := by omega
  rw [if_neg h1]
  exact ⟨⟨⟨c, t⟩, n, n⟩, _, rfl, rfl, rfl, ht, hk⟩

theorem compl_contents (p : Bytes) (ex : Bool) (c m' d' : Bytes) (t : Err) (r l : Nat)
    (hc : c.length < 2 ^ 63) (xs : List Seen) (htok : Tok b!")" m' d')
    (hf : ∀ r l, Tr Q xs (f () ⟨⟨d', t⟩, r, l⟩)) :
    Tr Q ((⟨p, b!"regular", ex, [], c⟩, c.length) :: xs)
      (((parseContents p ex b!"contents").run ⟨⟨str c ++ m', t⟩, r, l⟩).bind f) := by
  rw [str_eq, packet, List.append_assoc, List.append_assoc]
  have := tr_contents (f := f) (Q := Q) p ex c.length (c ++ (pad c.length ++ m')) t r l hc xs (.inl (by simp)) ?_
  · rw [List.take_left] at this; exact this
  · intro s' hcons
    obtain ⟨r', hcl⟩ := closeContent_str c _ t s' hcons
    rw [hcl]
    refine tr_str (r := r') (l := c.length) htok (by simp [tokenLenMax]) (by simp [tokenLenMax]) ?_
    exact hf r' c.length

/-- the contents are cut off -/
theorem cut_contents (p : Bytes) (ex : Bool) (n : Nat) (c : Bytes) (r l : Nat)
    (hn : n < 2 ^ 63) (hc : c.length < n ∨ (c.length = n ∧ n % 8 ≠ 0)) :
    Tr IsEof [(⟨p, b!"regular", ex, [], c⟩, n)]
      (((parseContents p ex b!"contents").run ⟨⟨putUint64 n ++ c, .eof⟩, r, l⟩).bind f) := by
  have := tr_contents (f := f) (Q := IsEof) p ex n c .eof r l hn [] (.inr rfl) ?_
  · rw [List.take_of_length_le (by omega)] at this; exact this
  · intro s' hcons
    rw [closeContent_consume hcons]
    have e : closeContent.run ⟨⟨c, .eof⟩, n, n⟩ = .done (bytesReaderClose n n ⟨c, .eof⟩).1
      ⟨(bytesReaderClose n n ⟨c, .eof⟩).2, n - min n c.length, n⟩ := rfl
    have e2 : bytesReaderClose n n ⟨c, .eof⟩ = readPadding n ⟨[], .eof⟩ := by
      unfold bytesReaderClose
      rw [if_neg (by simp)]
      simp only []
      rw [List.drop_of_length_le (by omega)]
    rw [e, e2]
    by_cases h8 : n % 8 = 0
    · have e3 : readPadding n ⟨[], .eof⟩ = (.ok (), ⟨[], .eof⟩) := by
        unfold readPadding; rw [if_pos h8]; rfl
      rw [e3]
      exact tr_cut (r := _) (l := n) (d := []) (.inl rfl) (by simp [tokenLenMax])
    · have e3 : readPadding n ⟨[], .eof⟩ = (.err .eof, ⟨[], .eof⟩) := by
        unfold readPadding; rw [if_neg h8, M.bind_apply]
        unfold readFull
        rw [if_neg (by simp; omega)]
        rfl
      rw [e3]
      exact ⟨_, _, rfl⟩

/-- the token after the contents is cut off -/
theorem cut_close (p : Bytes) (ex : Bool) (c m' : Bytes) (r l : Nat)
    (hc : c.length < 2 ^ 63) (htok : CutTok 32 m') :
    Tr IsEof [(⟨p, b!"regular", ex, [], c⟩, c.length)]
      (((parseContents p ex b!"contents").run ⟨⟨str c ++ m', .eof⟩, r, l⟩).bind f) := by
  rw [str_eq, packet, List.append_assoc, List.append_assoc]
  have := tr_contents (f := f) (Q := IsEof) p ex c.length (c ++ (pad c.length ++ m')) .eof r l hc [] (.inr rfl) ?_
  · rw [List.take_left] at this; exact this
  · intro s' hcons
    obtain ⟨r', hcl⟩ := closeContent_str c _ .eof s' hcons
    rw [hcl]
    exact tr_cut (r := r') (l := c.length) htok (by simp [tokenLenMax])

/-! ### completeness -/

theorem rel_le (N : Nat) :
    (∀ {p d : Bytes} {es : List Entry} {d' : Bytes}, d.length ≤ N → RelNode p d es d' → d'.length ≤ d.length) ∧
    (∀ {p d : Bytes} {es : List Entry} {d' : Bytes}, d.length ≤ N → RelEntries p d es d' →
      d'.length ≤ d.length) := by
  induction N with
  | zero =>
    constructor
    · intro p d es d' hN h
      cases h with
      | regular h | executable h | symlink h | directory h | nothing h =>
        have := toks_length h; simp at this; omega
    · intro p d es d' hN h
      cases h with
      | close h | unknown h => have := tok_length h; omega
      | entry h | lastEntry h => have := toks_length h; simp at this; omega
  | succ N ih =>
    constructor
    · intro p d es d' hN h
      cases h with
      | regular h hm hc htok =>
        have := toks_length h
        have := tok_length htok
        subst hm
        simp only [List.length_append] at *
        omega
      | executable h hm hc htok =>
        have := toks_length h
        have := tok_length htok
        subst hm
        simp only [List.length_append] at *
        omega
      | symlink h hl => have := toks_length h; omega
      | directory h hes =>
        have := toks_length h
        simp at this
        have := ih.2 (by omega) hes
        omega
      | nothing h => have := toks_length h; omega
    · intro p d es d' hN h
      cases h with
      | close h => have := tok_length h; omega
      | unknown h h1 h2 hl hes =>
        have := tok_length h; have := ih.2 (by omega) hes; omega
      | entry h h47 h0 hl hn hc hne hes =>
        have := toks_length h
        simp at this
        have := ih.1 (by omega) hn
        have := tok_length hc
        have := ih.2 (by omega) hes
        omega
      | lastEntry h hn hc =>
        have := toks_length h
        simp at this
        have := ih.1 (by omega) hn
        have := tok_length hc
        omega

theorem relNode_le {p d : Bytes} {es : List Entry} {d' : Bytes} (h : RelNode p d es d') :
    d'.length ≤ d.length := (rel_le d.length).1 (Nat.le_refl _) h

/-- from the type on -/
theorem tr_node {p : Bytes} {fuel : Nat} {ty d m1 m2 m3 : Bytes} {t : Err} {r l : Nat} {xs : List Seen}
    (h1 : Tok b!"(" d m1) (h2 : Tok b!"type" m1 m2) (h3 : Tok ty m2 m3) (hl : ty.length ≤ 32)
    (hg : Tr Q xs (((if ty = b!"regular" then parseRegular p
      else if ty = b!"symlink" then parseSymlink p
      else if ty = b!"directory" then do
        setContent 0
        let next ← Coro.yield ⟨p, typeDirectory, [], 0, false⟩
        if !next then pure () else parseEntries fuel p
      else expectClose ty : RCoro Unit).run ⟨⟨m3, t⟩, r, l⟩).bind f)) :
    Tr Q xs (((parseNode (fuel + 1) p).run ⟨⟨d, t⟩, r, l⟩).bind f) := by
  unfold parseNode
  refine tr_expect h1 (by simp) ?_
  refine tr_expect h2 (by simp) ?_
  exact tr_str h3 hl (by simp [tokenLenMax]) hg

theorem tr_regular {p d m : Bytes} {x : List Bytes} {t : Err} {r l : Nat} {xs : List Seen}
    (hx : x = [] ∨ x = [b!"executable", []]) (h : Toks (x ++ [b!"contents"]) d m)
    (hg : Tr Q xs (((parseContents p (x != []) b!"contents").run ⟨⟨m, t⟩, r, l⟩).bind f)) :
    Tr Q xs (((parseRegular p).run ⟨⟨d, t⟩, r, l⟩).bind f) := by
  unfold parseRegular
  rcases hx with rfl | rfl
  · obtain ⟨m1, h1, h2⟩ := h
    cases h2
    refine tr_str h1 (by simp) (by simp) ?_
    rw [if_neg (by decide)]
    exact hg
  · obtain ⟨m1, h1, m2, h2, m3, h3, h4⟩ := h
    cases h4
    refine tr_str h1 (by simp) (by simp) ?_
    rw [if_pos rfl]
    refine tr_rd (readPlaceholder_tok h2 t) ?_
    exact tr_str h3 (by simp [tokenLenMax]) (by simp [tokenLenMax]) hg

/-- from the name of an entry on -/
theorem tr_entry {p n : Bytes} {fuel : Nat} {d m : Bytes} {t : Err} {r l : Nat} {xs : List Seen}
    (h : Toks [b!"entry", b!"(", b!"name", n, b!"node"] d m) (h47 : (47 : UInt8) ∉ n) (h0 : (0 : UInt8) ∉ n)
    (hl : n.length ≤ 255)
    (hg : Tr Q xs (((parseNode fuel (pathJoin p n)).run ⟨⟨m, t⟩, r, l⟩).bind (fun _ s =>
      (((rd (expectString b!")") >>= fun _ =>
        if n = b!")" then pure () else parseEntries fuel p : RCoro Unit).run s).bind f)))) :
    Tr Q xs (((parseEntries (fuel + 1) p).run ⟨⟨d, t⟩, r, l⟩).bind f) := by
  obtain ⟨m1, h1, m2, h2, m3, h3, m4, h4, m5, h5, h6⟩ := h
  cases h6
  unfold parseEntries
  refine tr_str h1 (by simp [tokenLenMax]) (by simp [tokenLenMax]) ?_
  rw [if_pos rfl]
  refine tr_expect h2 (by simp) ?_
  refine tr_expect h3 (by simp) ?_
  refine tr_str h4 (by simpa [nameLenMax] using hl) (by simp [nameLenMax]) ?_
  have hv : isValidNodeName n = true := (isValidNodeName_iff n).2 ⟨h47, h0⟩
  rw [if_neg (by simp [hv])]
  refine tr_expect h5 (by simp) ?_
  rw [Coro.run_bind, Step.bind_assoc]
  exact hg

theorem tr_unknown {p d m u : Bytes} {fuel : Nat} {t : Err} {r l : Nat} {xs : List Seen}
    (h : Tok u d m) (h1 : u ≠ b!"entry") (h2 : u ≠ b!")") (hl : u.length ≤ 32)
    (hg : Tr Q xs (((parseEntries fuel p).run ⟨⟨m, t⟩, r, l⟩).bind f)) :
    Tr Q xs (((parseEntries (fuel + 1) p).run ⟨⟨d, t⟩, r, l⟩).bind f) := by
  conv => arg 3; unfold parseEntries
  refine tr_str h (by simpa [tokenLenMax] using hl) (by simp [tokenLenMax]) ?_
  rw [if_neg h1, if_neg h2]
  exact hg

theorem tr_symlink {p d m tg : Bytes} {t : Err} {r l : Nat} {xs : List Seen}
    (h : Toks [b!"target", tg] d m) (hl : tg.length ≤ 4095)
    (hg : Tr Q xs (((rd (readString tokenLenMax) >>= expectClose).run ⟨⟨m, t⟩, 0, 0⟩).bind f)) :
    Tr Q ((⟨p, b!"symlink", false, tg, []⟩, 0) :: xs) (((parseSymlink p).run ⟨⟨d, t⟩, r, l⟩).bind f) := by
  obtain ⟨m1, h1, m2, h2, h3⟩ := h
  cases h3
  unfold parseSymlink
  refine tr_expect h1 (by simp) ?_
  refine tr_str h2 (by simpa [pathLenMax] using hl) (by simp [pathLenMax]) ?_
  refine ⟨⟨⟨m, t⟩, 0, 0⟩, _, rfl, rfl, rfl, .inl rfl, ?_⟩
  intro s' hcons
  have e := consume_rem_zero hcons rfl
  subst e
  exact hg

theorem tr_directory {p d m : Bytes} {fuel : Nat} {t : Err} {r l : Nat} {xs : List Seen}
    (h : Toks [b!"(", b!"type", b!"directory"] d m)
    (hg : Tr Q xs (((parseEntries fuel p).run ⟨⟨m, t⟩, 0, 0⟩).bind f)) :
    Tr Q ((⟨p, b!"directory", false, [], []⟩, 0) :: xs)
      (((parseNode (fuel + 1) p).run ⟨⟨d, t⟩, r, l⟩).bind f) := by
  obtain ⟨m1, h1, m2, h2, m3, h3, h4⟩ := h
  cases h4
  refine tr_node h1 h2 h3 (by simp) ?_
  rw [if_neg (by decide), if_neg (by decide), if_pos rfl]
  refine ⟨⟨⟨m, t⟩, 0, 0⟩, _, rfl, rfl, rfl, .inl rfl, ?_⟩
  intro s' hcons
  have e := consume_rem_zero hcons rfl
  subst e
  exact hg

mutual
theorem compl_node {p d : Bytes} {es : List Entry} {d' : Bytes} (h : RelNode p d es d') (fuel : Nat)
    (t : Err) (r l : Nat) (hfuel : d.length < fuel) (xs : List Seen)
    (f : Unit → RState → Step RState Header Bool β)
    (hf : ∀ r l, Tr Q xs (f () ⟨⟨d', t⟩, r, l⟩)) :
    Tr Q (es.map full ++ xs) (((parseNode fuel p).run ⟨⟨d, t⟩, r, l⟩).bind f) := by
  obtain ⟨fuel, rfl⟩ : ∃ k, fuel = k + 1 := ⟨fuel - 1, by omega⟩
  cases h with
  | regular h hm hc htok =>
    obtain ⟨m1, h1, m2, h2, m3, h3, h4⟩ := h
    subst hm
    refine tr_node h1 h2 h3 (by simp) ?_
    rw [if_pos rfl]
    refine tr_regular (x := []) (.inl rfl) h4 ?_
    exact compl_contents p false _ _ _ t r l hc xs htok hf
  | executable h hm hc htok =>
    obtain ⟨m1, h1, m2, h2, m3, h3, h4⟩ := h
    subst hm
    refine tr_node h1 h2 h3 (by simp) ?_
    rw [if_pos rfl]
    refine tr_regular (x := [b!"executable", []]) (.inr rfl) h4 ?_
    exact compl_contents p true _ _ _ t r l hc xs htok hf
  | symlink h hl =>
    obtain ⟨m1, h1, m2, h2, m3, h3, m4, h4, m5, h5, m6, h6, h7⟩ := h
    cases h7
    refine tr_node h1 h2 h3 (by simp) ?_
    rw [if_neg (by decide), if_pos rfl]
    refine tr_symlink (tg := _) ⟨m4, h4, m5, h5, rfl⟩ hl ?_
    exact tr_str h6 (by simp [tokenLenMax]) (by simp [tokenLenMax]) (hf 0 0)
  | directory h hes =>
    refine tr_directory h ?_
    have := toks_length h
    exact compl_entries hes fuel t 0 0 (by simp at this; omega) xs f hf
  | nothing h =>
    obtain ⟨m1, h1, m2, h2, m3, h3, h4⟩ := h
    cases h4
    refine tr_node h1 h2 h3 (by simp) ?_
    exact hf r l
theorem compl_entries {p d : Bytes} {es : List Entry} {d' : Bytes} (h : RelEntries p d es d') (fuel : Nat)
    (t : Err) (r l : Nat) (hfuel : d.length < fuel) (xs : List Seen)
    (f : Unit → RState → Step RState Header Bool β)
    (hf : ∀ r l, Tr Q xs (f () ⟨⟨d', t⟩, r, l⟩)) :
    Tr Q (es.map full ++ xs) (((parseEntries fuel p).run ⟨⟨d, t⟩, r, l⟩).bind f) := by
  obtain ⟨fuel, rfl⟩ : ∃ k, fuel = k + 1 := ⟨fuel - 1, by omega⟩
  cases h with
  | close h =>
    unfold parseEntries
    refine tr_str h (by simp [tokenLenMax]) (by simp [tokenLenMax]) ?_
    exact hf r l
  | unknown h h1 h2 hl hes =>
    have := tok_length h
    refine tr_unknown h h1 h2 hl ?_
    exact compl_entries hes fuel t r l (by omega) xs f hf
  | entry h h47 h0 hl hn hc hne hes =>
    have l1 := toks_length h
    have l2 := tok_length hc
    have l3 := relNode_le hn
    simp at l1
    refine tr_entry h h47 h0 hl ?_
    rw [List.map_append, List.append_assoc]
    refine compl_node hn fuel t r l (by omega) _ _ ?_
    intro r' l'
    refine tr_expect hc (by simp) ?_
    rw [if_neg hne]
    exact compl_entries hes fuel t r' l' (by omega) xs f hf
  | lastEntry h hn hc =>
    have l1 := toks_length h
    simp at l1
    refine tr_entry h (by decide) (by decide) (by simp) ?_
    refine compl_node hn fuel t r l (by omega) _ _ ?_
    intro r' l'
    refine tr_expect hc (by simp) ?_
    exact hf r' l'
end

mutual
theorem cut_node {p d : Bytes} {xs : List Seen} (h : CutNode p d xs) (fuel : Nat)
    (r l : Nat) (hfuel : d.length < fuel) (f : Unit → RState → Step RState Header Bool β) :
    Tr IsEof xs (((parseNode fuel p).run ⟨⟨d, .eof⟩, r, l⟩).bind f) := by
  obtain ⟨fuel, rfl⟩ : ∃ k, fuel = k + 1 := ⟨fuel - 1, by omega⟩
  cases h with
  | type h hc =>
    obtain ⟨m1, h1, m2, h2, h3⟩ := h
    cases h3
    unfold parseNode
    refine tr_expect h1 (by simp) ?_
    refine tr_expect h2 (by simp) ?_
    exact tr_cut hc (by simp [tokenLenMax])
  | regular h hc =>
    obtain ⟨m1, h1, m2, h2, m3, h3, h4⟩ := h
    cases h4
    refine tr_node h1 h2 h3 (by simp) ?_
    rw [if_pos rfl]
    exact tr_cut hc (by simp)
  | executable h hc =>
    obtain ⟨m1, h1, m2, h2, m3, h3, m4, h4, m5, h5, h6⟩ := h
    cases h6
    refine tr_node h1 h2 h3 (by simp) ?_
    rw [if_pos rfl]
    unfold parseRegular
    refine tr_str h4 (by simp) (by simp) ?_
    rw [if_pos rfl]
    refine tr_rd (readPlaceholder_tok h5 _) ?_
    exact tr_cut hc (by simp [tokenLenMax])
  | length hx h =>
    rw [List.append_assoc] at h
    obtain ⟨m1, h1, m2, h2, m3, h3, h4⟩ := h
    refine tr_node h1 h2 h3 (by simp) ?_
    rw [if_pos rfl]
    refine tr_regular hx h4 ?_
    unfold parseContents
    rw [if_neg (by simp)]
    exact tr_rd_eof rfl
  | contents hx h hm hn hc =>
    rw [List.append_assoc] at h
    obtain ⟨m1, h1, m2, h2, m3, h3, h4⟩ := h
    rw [le8_eq] at hm
    subst hm
    refine tr_node h1 h2 h3 (by simp) ?_
    rw [if_pos rfl]
    refine tr_regular hx h4 ?_
    exact cut_contents p _ _ _ r l hn hc
  | close hx h hm hc htok =>
    rw [List.append_assoc] at h
    obtain ⟨m1, h1, m2, h2, m3, h3, h4⟩ := h
    subst hm
    refine tr_node h1 h2 h3 (by simp) ?_
    rw [if_pos rfl]
    refine tr_regular hx h4 ?_
    exact cut_close p _ _ _ r l hc htok
  | target h hc =>
    obtain ⟨m1, h1, m2, h2, m3, h3, m4, h4, h5⟩ := h
    cases h5
    refine tr_node h1 h2 h3 (by simp) ?_
    rw [if_neg (by decide), if_pos rfl]
    unfold parseSymlink
    refine tr_expect h4 (by simp) ?_
    exact tr_cut hc (by simp [pathLenMax])
  | symlink h hl hc =>
    obtain ⟨m1, h1, m2, h2, m3, h3, m4, h4, m5, h5, h6⟩ := h
    cases h6
    refine tr_node h1 h2 h3 (by simp) ?_
    rw [if_neg (by decide), if_pos rfl]
    refine tr_symlink ⟨m4, h4, _, h5, rfl⟩ hl ?_
    exact tr_cut hc (by simp [tokenLenMax])
  | directory h hes =>
    refine tr_directory h ?_
    have := toks_length h
    exact cut_entries hes fuel 0 0 (by simp at this; omega) f
theorem cut_entries {p d : Bytes} {xs : List Seen} (h : CutEntries p d xs) (fuel : Nat)
    (r l : Nat) (hfuel : d.length < fuel) (f : Unit → RState → Step RState Header Bool β) :
    Tr IsEof xs (((parseEntries fuel p).run ⟨⟨d, .eof⟩, r, l⟩).bind f) := by
  obtain ⟨fuel, rfl⟩ : ∃ k, fuel = k + 1 := ⟨fuel - 1, by omega⟩
  cases h with
  | token hc =>
    unfold parseEntries
    exact tr_cut hc (by simp [tokenLenMax])
  | unknown h h1 h2 hl hes =>
    have := tok_length h
    refine tr_unknown h h1 h2 hl ?_
    exact cut_entries hes fuel r l (by omega) f
  | name h hc =>
    obtain ⟨m1, h1, m2, h2, m3, h3, h4⟩ := h
    cases h4
    unfold parseEntries
    refine tr_str h1 (by simp [tokenLenMax]) (by simp [tokenLenMax]) ?_
    rw [if_pos rfl]
    refine tr_expect h2 (by simp) ?_
    refine tr_expect h3 (by simp) ?_
    exact tr_cut hc (by simp [nameLenMax])
  | node h h47 h0 hl hn =>
    have l1 := toks_length h
    simp at l1
    refine tr_entry h h47 h0 hl ?_
    exact cut_node hn fuel r l (by omega) _
  | entry h h47 h0 hl hn hc hne hes =>
    have l1 := toks_length h
    have l2 := tok_length hc
    have l3 := relNode_le hn
    simp at l1
    refine tr_entry h h47 h0 hl ?_
    refine compl_node hn fuel .eof r l (by omega) _ _ ?_
    intro r' l'
    refine tr_expect hc (by simp) ?_
    rw [if_neg hne]
    exact cut_entries hes fuel r' l' (by omega) f
end

end

/-! ### sessions -/

theorem seenReads_spec (x : Nat) (c : Bytes) (ks : List Nat) (r : Reader)
    (hrem : r.st.rem = x) (hc : r.st.stream.data.take x = c)
    (ht : c.length = x ∨ r.st.stream.term = .eof) :
    ∃ s', Consume r.st s' ∧ r.reads ks = (seenReads x c ks, { r with st := s' }) := by
  induction ks generalizing r x c with
  | nil => exact ⟨_, Consume.refl _, rfl⟩
  | cons k ks ih =>
    unfold Reader.reads seenReads
    have hd : r.st.stream.data.take (min k x) = c.take k := by
      rw [← hc, List.take_take]
    by_cases h0 : x = 0 ∨ (c = [] ∧ k ≠ 0)
    · have e : r.read k = (.err .eof, r) := by
        unfold Reader.read
        split
        · rfl
        · rename_i hr
          simp only []
          rcases h0 with h0 | ⟨h0, hk⟩
          · exact absurd (hrem.trans h0) hr
          · rw [hrem, hd, h0, if_pos (by simp [hk])]
            rcases ht with ht | ht
            · subst h0
              simp at ht
              exact absurd (hrem.trans ht.symm) hr
            · rw [ht]
      obtain ⟨s', h1, h2⟩ := ih x c r hrem hc ht
      refine ⟨s', h1, ?_⟩
      rw [e, if_pos h0]
      simp only []
      rw [h2]
    · rw [if_neg h0]
      have hx : ¬ x = 0 := fun h => h0 (.inl h)
      have hl : (c.take k).length ≤ x := by
        rw [← hc, List.take_take, List.length_take]; omega
      have hl2 : (c.take k).length ≤ r.st.stream.data.length := by
        rw [← hd, List.length_take]; omega
      have e : r.read k = (.ok (c.take k), { r with st := ⟨⟨r.st.stream.data.drop (c.take k).length,
          r.st.stream.term⟩, r.st.rem - (c.take k).length, r.st.len⟩ }) := by
        unfold Reader.read
        rw [if_neg (by rw [hrem]; exact hx)]
        simp only []
        rw [hrem, hd, if_neg]
        rintro ⟨h1, h2⟩
        rcases List.take_eq_nil_iff.1 h1 with h | h
        · exact h2 h
        · exact h0 (.inr ⟨h, h2⟩)
      have hcons : Consume r.st ⟨⟨r.st.stream.data.drop (c.take k).length,
          r.st.stream.term⟩, r.st.rem - (c.take k).length, r.st.len⟩ :=
        ⟨(c.take k).length, by rw [hrem]; exact hl, hl2, rfl⟩
      obtain ⟨s', h1, h2⟩ := ih (x - (c.take k).length) (c.drop k)
        { r with st := ⟨⟨r.st.stream.data.drop (c.take k).length,
          r.st.stream.term⟩, r.st.rem - (c.take k).length, r.st.len⟩ }
        (by simp only []; rw [hrem]) (by
          simp only []
          have e1 : (r.st.stream.data.drop (c.take k).length).take (x - (c.take k).length)
              = c.drop (c.take k).length := by
            rw [← List.drop_take, hc]
          rw [e1, List.length_take]
          by_cases hkc : k ≤ c.length
          · rw [Nat.min_eq_left hkc]
          · rw [Nat.min_eq_right (by omega), List.drop_of_length_le (by omega),
              List.drop_of_length_le (by omega)])
        (by
          rcases ht with ht | ht
          · left; simp only [List.length_drop, List.length_take]; omega
          · exact .inr ht)
      refine ⟨s', hcons.trans h1, ?_⟩
      rw [e]
      simp only []
      rw [h2]

/-- each path is in order with the one before -/
def OrdFrom : Bytes → List Seen → Prop
  | _, [] => True
  | prev, x :: xs => pathIsLexicographicallyOrdered prev x.1.path = true ∧ OrdFrom x.1.path xs

theorem inOrder_iff (xs : List Seen) : InOrder (xs.map fun x => x.1.path) ↔ OrdFrom [] xs := by
  have key : ∀ (x : Seen) (xs : List Seen), InOrder ((x :: xs).map fun x => x.1.path) ↔ OrdFrom x.1.path xs := by
    intro x xs
    induction xs generalizing x with
    | nil => simp [InOrder, OrdFrom]
    | cons y ys ih =>
      have e : InOrder ((x :: y :: ys).map fun x => x.1.path) ↔
        (x.1.path ≤ y.1.path ∨ splitByte x.1.path 47 ≤ splitByte y.1.path 47) ∧
          InOrder ((y :: ys).map fun x => x.1.path) := Iff.rfl
      rw [e, ih y, ← ordered_iff]
      rfl
  cases xs with
  | nil => simp [InOrder, OrdFrom]
  | cons x xs =>
    rw [key]
    have e : OrdFrom [] (x :: xs) ↔ pathIsLexicographicallyOrdered [] x.1.path = true ∧ OrdFrom x.1.path xs :=
      Iff.rfl
    rw [e, ordered_iff]
    exact ⟨fun h => ⟨.inl (List.nil_le _), h⟩, And.right⟩

/-- The results of a session on a goroutine that runs through `xs`. -/
theorem tr_session {Q : Step RState Header Bool Unit → Prop} (xs : List Seen)
    (plan : List (List Nat)) (r : Reader) (st : Step RState Header Bool Unit)
    (herr : r.err = none) (hcl : r.closed = false) (hres : r.resume = some st) (hrun : Tr Q xs st)
    (hord : OrdFrom r.prev xs) (hlen : plan.length = xs.length) :
    (r.session plan).1 = List.zipWith (fun x ks => (.ok (hdrSeen x), seenReads x.2 x.1.contents ks)) xs plan ∧
    (r.session plan).2.err = none ∧ (r.session plan).2.closed = false ∧
    ∃ st', (r.session plan).2.resume = some st' ∧ Q st' := by
  induction plan generalizing r xs st with
  | nil =>
    cases xs with
    | nil => exact ⟨rfl, herr, hcl, st, hres, hrun⟩
    | cons x xs => simp at hlen
  | cons ks plan ih =>
    cases xs with
    | nil => simp at hlen
    | cons x xs =>
      obtain ⟨s, k, rfl, h1, h2, h3, hk⟩ := hrun
      obtain ⟨ho, ho'⟩ := hord
      have hnext : r.next = (.ok (hdrSeen x), { r with st := s, phase := .waiting k, prev := x.1.path }) := by
        unfold Reader.next
        rw [herr]
        simp only []
        rw [if_neg (by simp [hcl]), hres]
        have ho' : pathIsLexicographicallyOrdered r.prev (hdrSeen x).path = true := ho
        simp only [Reader.receive]
        rw [if_pos ho', ← herr]
        rfl
      obtain ⟨s', hc, hreads⟩ := seenReads_spec x.2 x.1.contents ks
        { r with st := s, phase := .waiting k, prev := x.1.path } h1 h2 h3
      have := ih xs { r with st := s', phase := .waiting k, prev := x.1.path }
        (k true s') herr hcl rfl (hk _ hc) ho' (by simpa using hlen)
      unfold Reader.session
      rw [hnext]
      simp only []
      rw [hreads]
      simp only [List.zipWith_cons_cons]
      exact ⟨by rw [this.1], this.2⟩

theorem reads_consume (r : Reader) (ks : List Nat) :
    ∃ s', Consume r.st s' ∧ (r.reads ks).2 = { r with st := s' } := by
  induction ks generalizing r with
  | nil => exact ⟨_, Consume.refl _, rfl⟩
  | cons k ks ih =>
    obtain ⟨s1, h1, e1⟩ := read_consume r k
    obtain ⟨s2, h2, e2⟩ := ih (r.read k).2
    refine ⟨s2, ?_, ?_⟩
    · rw [e1] at h2; exact h1.trans h2
    · unfold Reader.reads
      simp only [e2]
      rw [e1]

/-- headers in order -/
def OrdHdr : Bytes → List Header → Prop
  | _, [] => True
  | prev, h :: hs => pathIsLexicographicallyOrdered prev h.path = true ∧ OrdHdr h.path hs

theorem ordHdr_seen (prev : Bytes) (xs : List Seen) : OrdHdr prev (xs.map hdrSeen) ↔ OrdFrom prev xs := by
  induction xs generalizing prev with
  | nil => exact Iff.rfl
  | cons x xs ih => exact and_congr Iff.rfl (ih _)

theorem session_sound' {R : List (Header × Bytes) → Bytes → Prop} {C : List (Header × Bytes) → Prop}
    (plan : List (List Nat)) (r r' : Reader) (acc : List (Header × Bytes)) (hds : List Header)
    (st : Step RState Header Bool Unit)
    (herr : r.err = none) (hcl : r.closed = false) (hres : r.resume = some st) (hp : Parses R C acc st)
    (hheads : (r.session plan).1.map Prod.fst = hds.map Call.ok)
    (hnext : (r.session plan).2.next = (.err .eof, r')) :
    ∃ cs : List (Header × Bytes), cs.map Prod.fst = hds ∧ OrdHdr r.prev hds ∧
      (R (acc ++ cs) r'.st.stream.data ∨
        (r'.st.stream.data = [] ∧ r'.st.stream.term = .eof ∧ C (acc ++ cs))) := by
  induction plan generalizing r acc hds st with
  | nil =>
    cases hds with
    | cons h hds => simp [Reader.session] at hheads
    | nil =>
      refine ⟨[], rfl, trivial, ?_⟩
      simp only [Reader.session] at hnext
      have e : r.next = r.receive st := by
        unfold Reader.next
        rw [herr]
        simp only []
        rw [if_neg (by simp [hcl]), hres]
      rw [e] at hnext
      rw [List.append_nil]
      cases st with
      | done res s =>
        rcases res with _ | e' | _
        · simp [Reader.receive] at hnext
          subst hnext
          exact .inl hp
        · simp [Reader.receive] at hnext
          obtain ⟨rfl, rfl⟩ := hnext
          exact .inr hp
        · simp [Reader.receive] at hnext
      | yield h' s k =>
        rw [receive_yield] at hnext
        split at hnext <;> simp at hnext
  | cons ks plan ih =>
    unfold Reader.session at hheads hnext
    rcases hn : r.next with ⟨res, r1⟩
    rw [hn] at hheads hnext
    simp only [List.map_cons] at hheads hnext
    cases hds with
    | nil => simp at hheads
    | cons h0 hds =>
      simp only [List.map_cons, List.cons.injEq] at hheads
      obtain ⟨rfl, hheads⟩ := hheads
      obtain ⟨_, _, s, k, hs, ho, e⟩ := next_ok hn
      rw [hres] at hs
      cases hs
      subst e
      obtain ⟨s', hc, e⟩ := reads_consume { r with st := s, phase := .waiting k, prev := h0.path } ks
      rw [e] at hheads hnext
      simp only [] at hc
      obtain ⟨cs, h1, h2, h3⟩ := ih { r with st := s', phase := .waiting k, prev := h0.path }
        (acc ++ [(h0, s.stream.data.take s.rem)]) hds (k true s') herr hcl rfl (hp s' hc) hheads hnext
      refine ⟨(h0, s.stream.data.take s.rem) :: cs, by simp [h1], ⟨ho, h2⟩, ?_⟩
      simpa using h3

/-! ### opening -/

theorem newReader_iff (s : Stream) (r : Reader) (s' : Stream) :
    newReader s = (.ok r, s') ↔ Tok b!"nix-archive-1" s.data s'.data ∧ s'.term = s.term ∧
      r = ⟨⟨s', 0, 0⟩, .start, none, [], false⟩ := by
  constructor
  · intro h
    have h6 := (newReader_facts h).2.2.2.2.2
    unfold newReader at h
    have ht := fun a => tok_expectString (e := narVersionMagic1) (s := s) (a := a)
    rcases he : expectString narVersionMagic1 s with ⟨_ | _ | _, s1⟩
    · rw [he] at h ht
      simp at h
      obtain ⟨rfl, rfl⟩ := h
      exact ⟨ht () rfl, h6, rfl⟩
    · rw [he] at h; simp at h
    · rw [he] at h; simp at h
  · rintro ⟨h1, h2, rfl⟩
    have := expectString_tok h1 s.term (by simp)
    unfold newReader
    have e : expectString narVersionMagic1 s = (.ok (), s') := by
      have e1 : (⟨s.data, s.term⟩ : Stream) = s := rfl
      rw [e1] at this
      rw [show narVersionMagic1 = b!"nix-archive-1" from rfl, this, ← h2]
    rw [e]

end Verif.Nar
