import Verif.Spec.Frag
import Verif.Lemmas.Wire

namespace Verif.Wire

structure ReadSpec (r : FReader) (k : Nat) (d : Bytes) (e : Option Err) (r' : FReader) : Prop where
  data : r.chunks.flatten = d ++ r'.chunks.flatten
  len : d.length ≤ k
  term : r'.term = r.term
  eager : r'.eager = r.eager
  err : ∀ t, e = some t → t = r.term ∧ r'.chunks = []
  eager_err : ∀ t, e = some t → d ≠ [] → r.eager = true
  dec : e = none → 0 < k → r'.fuel < r.fuel

theorem FReader.read_spec (r : FReader) (k : Nat) :
    ReadSpec r k (r.read k).1.1 (r.read k).1.2 (r.read k).2 := by
  rcases r with ⟨chunks, term, eager⟩
  cases chunks with
  | nil => constructor <;> simp [FReader.read]
  | cons c cs =>
    unfold FReader.read
    simp only []
    split
    · rename_i h
      split
      · rename_i h2
        simp at h2
        constructor <;> simp [h, h2]
      · constructor <;> simp [h, FReader.fuel]
        intro; omega
    · rename_i h
      constructor <;> simp [FReader.fuel]
      · rw [← List.append_assoc, List.take_append_drop]
      · omega
      · omega

theorem FReader.readLoop_spec (fuel : Nat) (r : FReader) (k : Nat) (acc : Bytes)
    (hf : r.fuel < fuel) (ha : acc.length ≤ k) :
    ∃ d e r', FReader.readLoop fuel r k acc = ((acc ++ d, e), r') ∧
      r.chunks.flatten = d ++ r'.chunks.flatten ∧ acc.length + d.length ≤ k ∧
      r'.term = r.term ∧ r'.eager = r.eager ∧
      (acc.length + d.length < k → e = some r.term ∧ r'.chunks = []) := by
  induction fuel generalizing r acc with
  | zero => omega
  | succ fuel ih =>
    unfold FReader.readLoop
    split
    · rename_i hlt
      have hs := FReader.read_spec r (k - acc.length)
      rcases hr : r.read (k - acc.length) with ⟨⟨d, e⟩, r'⟩
      rw [hr] at hs
      have hs : ReadSpec r (k - acc.length) d e r' := hs
      cases e with
      | some t =>
        obtain ⟨h1, h2⟩ := hs.err t rfl
        exact ⟨d, some t, r', rfl, hs.data, by have := hs.len; omega, hs.term, hs.eager,
          fun _ => ⟨by rw [h1], h2⟩⟩
      | none =>
        have hd := hs.dec rfl (by omega)
        have hl := hs.len
        obtain ⟨d2, e2, r2, h1, h2, h3, h4, h5, h6⟩ := ih r' (acc ++ d) (by omega) (by simp; omega)
        refine ⟨d ++ d2, e2, r2, ?_, ?_, ?_, by rw [h4, hs.term], by rw [h5, hs.eager], ?_⟩
        · simp only [h1, List.append_assoc]
        · rw [hs.data, h2, List.append_assoc]
        · simp at h3 ⊢; omega
        · intro h; rw [← hs.term]; apply h6; simp at h ⊢; omega
    · exact ⟨[], none, r, by simp, by simp, by simpa using ha, rfl, rfl, by simp; omega⟩

/-- `io.ReadFull` does not depend on fragmentation. -/
theorem FReader.readFull_abs (k : Nat) (r : FReader) :
    (FReader.readFull k r).1 = (Wire.readFull k r.abs).1 ∧
      (FReader.readFull k r).2.abs = (Wire.readFull k r.abs).2 ∧
      (FReader.readFull k r).2.eager = r.eager := by
  obtain ⟨d, e, r', h1, h2, h3, h4, h5, h6⟩ :=
    FReader.readLoop_spec (r.fuel + 1) r k [] (by omega) (by simp)
  simp at h1 h3 h6
  unfold FReader.readFull Wire.readFull FReader.abs
  rw [h1]
  simp only [h2]
  by_cases hd : k ≤ d.length
  · have hk : d.length = k := by omega
    rw [if_pos hd, if_pos (by simp; omega)]
    simp [← hk, h4, h5]
  · obtain ⟨he, hc⟩ := h6 (by omega)
    rw [if_neg hd, he, if_neg (by simp [hc]; omega)]
    simp [hc, h4, h5]

/-- Simulation of a computation on fragmented readers by one on streams. -/
def Sim {α : Type} (m : M FReader α) (m' : M Stream α) : Prop :=
  ∀ r : FReader, (m r).1 = (m' r.abs).1 ∧ (m r).2.abs = (m' r.abs).2

theorem Sim.pure {α : Type} (a : α) : Sim (Pure.pure a) (Pure.pure a) := fun _ => ⟨rfl, rfl⟩

theorem Sim.fail {α : Type} (e : Err) : Sim (M.fail e : M FReader α) (M.fail e) :=
  fun _ => ⟨rfl, rfl⟩

theorem Sim.panic {α : Type} : Sim (M.panic : M FReader α) M.panic := fun _ => ⟨rfl, rfl⟩

theorem Sim.bind {α β : Type} {m : M FReader α} {m' : M Stream α} {f : α → M FReader β}
    {f' : α → M Stream β} (h : Sim m m') (hf : ∀ a, Sim (f a) (f' a)) :
    Sim (m >>= f) (m' >>= f') := by
  intro r
  obtain ⟨h1, h2⟩ := h r
  rcases hm : m r with ⟨x, r'⟩
  rcases hm' : m' r.abs with ⟨x', s'⟩
  rw [hm, hm'] at h1 h2
  simp only at h1 h2
  subst h1 h2
  cases x with
  | ok a => rw [M.bind_ok hm, M.bind_ok hm']; exact hf a r'
  | err e => rw [M.bind_err hm, M.bind_err hm']; exact ⟨rfl, rfl⟩
  | panic => rw [M.bind_panic hm, M.bind_panic hm']; exact ⟨rfl, rfl⟩

theorem Sim.readFull (k : Nat) : Sim (FReader.readFull k) (Wire.readFull k) := by
  intro r
  obtain ⟨h1, h2, _⟩ := FReader.readFull_abs k r
  exact ⟨h1, h2⟩

theorem Sim.readUint64 : Sim FReader.readUint64 Wire.readUint64 :=
  Sim.bind (Sim.readFull 8) fun _ => Sim.pure _

theorem Sim.readBool : Sim FReader.readBool Wire.readBool := by
  apply Sim.bind Sim.readUint64
  intro n
  split
  · exact Sim.fail _
  · exact Sim.pure _

theorem Sim.readPadding (n : Nat) : Sim (FReader.readPadding n) (Wire.readPadding n) := by
  unfold FReader.readPadding Wire.readPadding
  split
  · exact Sim.pure _
  · apply Sim.bind (Sim.readFull _)
    intro b
    split
    · exact Sim.pure _
    · exact Sim.fail _

/-- One `Read` on a `BytesReader`. -/
structure BRead (br : BytesReader) (k : Nat) (d : Bytes) (e : Option Err) (br' : BytesReader) : Prop where
  data : br.r.chunks.flatten = d ++ br'.r.chunks.flatten
  len : d.length ≤ k
  rem : d.length + br'.rem = br.rem
  cl : br'.contentLength = br.contentLength
  term : br'.r.term = br.r.term
  eager : br'.r.eager = br.r.eager
  err : ∀ t, e = some t → (t = .eof ∧ d = [] ∧ br.rem = 0) ∨ (t = br.r.term ∧ br'.r.chunks = [])
  dec : e = none → 0 < k → br'.r.fuel < br.r.fuel

theorem BytesReader.read_spec (br : BytesReader) (k : Nat) :
    BRead br k (br.read k).1.1 (br.read k).1.2 (br.read k).2 := by
  unfold BytesReader.read
  split
  · rename_i h; constructor <;> simp [h]
  · rename_i h
    have hs := FReader.read_spec br.r (min k br.rem)
    rcases hr : br.r.read (min k br.rem) with ⟨⟨d, e⟩, r'⟩
    rw [hr] at hs
    have hs : ReadSpec br.r (min k br.rem) d e r' := hs
    have hl := hs.len
    constructor
    · exact hs.data
    · simp; omega
    · simp; omega
    · rfl
    · exact hs.term
    · exact hs.eager
    · intro t ht; exact .inr (hs.err t ht)
    · intro he hk; exact hs.dec he (by omega)

theorem BytesReader.readLoop_spec (fuel : Nat) (br : BytesReader) (k : Nat) (acc : Bytes)
    (hf : br.r.fuel < fuel) (ha : acc.length ≤ k) (hrem : acc.length + br.rem = k) :
    ∃ d e br', BytesReader.readLoop fuel br k acc = ((acc ++ d, e), br') ∧
      br.r.chunks.flatten = d ++ br'.r.chunks.flatten ∧ acc.length + d.length ≤ k ∧
      br'.r.term = br.r.term ∧ br'.r.eager = br.r.eager ∧ br'.contentLength = br.contentLength ∧
      d.length + br'.rem = br.rem ∧
      (acc.length + d.length < k → e = some br.r.term ∧ br'.r.chunks = []) := by
  induction fuel generalizing br acc with
  | zero => omega
  | succ fuel ih =>
    unfold BytesReader.readLoop
    split
    · rename_i hlt
      have hs := BytesReader.read_spec br (k - acc.length)
      rcases hr : br.read (k - acc.length) with ⟨⟨d, e⟩, br'⟩
      rw [hr] at hs
      have hs : BRead br (k - acc.length) d e br' := hs
      cases e with
      | some t =>
        rcases hs.err t rfl with ⟨h1, h2, h3⟩ | ⟨h1, h2⟩
        · omega
        · exact ⟨d, some t, br', rfl, hs.data, by have := hs.len; omega, hs.term, hs.eager, hs.cl,
            hs.rem, fun _ => ⟨by rw [h1], h2⟩⟩
      | none =>
        have hd := hs.dec rfl (by omega)
        have hl := hs.len
        have hre := hs.rem
        obtain ⟨d2, e2, r2, h1, h2, h3, h4, h5, h6, h7, h8⟩ :=
          ih br' (acc ++ d) (by omega) (by simp; omega) (by simp; omega)
        refine ⟨d ++ d2, e2, r2, ?_, ?_, ?_, by rw [h4, hs.term], by rw [h5, hs.eager],
          by rw [h6, hs.cl], by simp; omega, ?_⟩
        · simp only [h1, List.append_assoc]
        · rw [hs.data, h2, List.append_assoc]
        · simp at h3 ⊢; omega
        · intro h; rw [← hs.term]; apply h8; simp at h ⊢; omega
    · exact ⟨[], none, br, by simp, by simp, by simpa using ha, rfl, rfl, rfl, by simp, by simp; omega⟩

/-- The end of the content does not come together with an error other than `io.EOF`. -/
def BytesReader.Calm (br : BytesReader) : Prop :=
  br.r.Fair ∨ br.r.chunks.flatten.length ≠ br.rem ∨ br.rem = 0

theorem BytesReader.drain_spec (fuel : Nat) (br : BytesReader) (hf : br.r.fuel < fuel)
    (hfair : br.Calm) :
    ∃ e br', BytesReader.drain fuel br = (e, br') ∧
      br'.contentLength = br.contentLength ∧ br'.r.term = br.r.term ∧ br'.r.eager = br.r.eager ∧
      br'.r.chunks.flatten = br.r.chunks.flatten.drop br.rem ∧
      e = (if br.r.chunks.flatten.length < br.rem ∧ br.r.term ≠ .eof then some br.r.term else none) := by
  induction fuel generalizing br with
  | zero => omega
  | succ fuel ih =>
    unfold BytesReader.drain
    have hs := BytesReader.read_spec br 1024
    rcases hr : br.read 1024 with ⟨⟨d, e⟩, br'⟩
    rw [hr] at hs
    have hs : BRead br 1024 d e br' := hs
    have hdata := hs.data
    have hrem := hs.rem
    cases e with
    | none =>
      have hd := hs.dec rfl (by omega)
      obtain ⟨e2, r2, h1, h2, h3, h4, h5, h6⟩ := ih br' (by omega)
        (by
          have hl := congrArg List.length hdata
          rw [List.length_append] at hl
          rcases hfair with h | h | h
          · left; intro h'; rw [hs.term]; exact h (by rw [← hs.eager]; exact h')
          · right; left; omega
          · right; right; omega)
      refine ⟨e2, r2, h1, by rw [h2, hs.cl], by rw [h3, hs.term], by rw [h4, hs.eager], ?_, ?_⟩
      · rw [h5, hdata, ← hrem, ← List.drop_drop, List.drop_left]
      · rw [h6, hs.term, hdata, ← hrem]
        simp [Nat.add_lt_add_iff_left]
    | some t =>
      rcases hs.err t rfl with ⟨h1, h2, h3⟩ | ⟨h1, h2⟩
      · subst h1 h2
        refine ⟨none, br', by simp, hs.cl, hs.term, hs.eager, ?_, ?_⟩
        · rw [h3, List.drop_zero]; simpa using hdata.symm
        · rw [if_neg (by omega)]
      · subst h1
        rw [h2] at hdata
        simp at hdata
        by_cases ht : br.r.term = .eof
        · refine ⟨none, br', by simp [ht], hs.cl, hs.term, hs.eager, ?_, ?_⟩
          · rw [h2, hdata]; simp; omega
          · rw [if_neg (by simp [ht])]
        · refine ⟨some br.r.term, br', by simp [ht], hs.cl, hs.term, hs.eager, ?_, ?_⟩
          · rw [h2, hdata]; simp; omega
          · rw [if_pos]
            refine ⟨?_, ht⟩
            -- a non-EOF error only comes from a reader that had no data left
            unfold BytesReader.read at hr
            split at hr
            · simp at hr; exact absurd hr.1.2.symm ht
            · rename_i hne
              have hsp := FReader.read_spec br.r (min 1024 br.rem)
              rcases hrr : br.r.read (min 1024 br.rem) with ⟨⟨dd, ee⟩, rr⟩
              rw [hrr] at hr hsp
              simp at hr
              have hsp : ReadSpec br.r (min 1024 br.rem) dd ee rr := hsp
              obtain ⟨⟨rfl, rfl⟩, _⟩ := hr
              by_cases hdd : dd = []
              · rw [hdata, hdd]; simp; omega
              · rcases hfair with h | h | h
                · exact absurd (h (hsp.eager_err _ rfl hdd)) ht
                · rw [hdata] at h ⊢; omega
                · exact absurd h hne

/-- `Close` of a `BytesReader` does not depend on fragmentation. -/
theorem BytesReader.close_abs (br : BytesReader) (hfair : br.Calm) :
    br.close.1 = (bytesReaderClose br.rem br.contentLength br.r.abs).1 ∧
      br.close.2.abs = (bytesReaderClose br.rem br.contentLength br.r.abs).2 := by
  obtain ⟨e, br', h1, h2, h3, h4, h5, h6⟩ := BytesReader.drain_spec (br.r.fuel + 1) br (by omega) hfair
  have hcl : br.close = match (e, br') with
      | (some e, br') => (.err e, br'.r)
      | (none, br') => FReader.readPadding br'.contentLength br'.r := by
    rw [← h1]; rfl
  rw [hcl]
  by_cases hc : br.r.chunks.flatten.length < br.rem ∧ br.r.term ≠ .eof
  · rw [if_pos hc] at h6
    have hb : bytesReaderClose br.rem br.contentLength br.r.abs = (.err br.r.term, ⟨[], br.r.term⟩) :=
      if_pos hc
    rw [hb]
    subst h6
    refine ⟨rfl, ?_⟩
    simp only [FReader.abs, h5, h3]
    rw [List.drop_eq_nil_of_le (by omega)]
  · rw [if_neg hc] at h6
    have hb : bytesReaderClose br.rem br.contentLength br.r.abs
        = readPadding br.contentLength ⟨br.r.abs.data.drop br.rem, br.r.abs.term⟩ := if_neg hc
    rw [hb]
    subst h6
    have := Sim.readPadding br'.contentLength br'.r
    have habs : br'.r.abs = ⟨br.r.abs.data.drop br.rem, br.r.abs.term⟩ := by
      simp only [FReader.abs, h5, h3]
    rw [habs, h2] at this
    rw [← h2] at this
    simp only [h2] at this ⊢
    exact this

/-- A content that is complete but whose end comes together with an error: the drain reports the error or not. -/
theorem BytesReader.drain_loud (fuel : Nat) (br : BytesReader) (hf : br.r.fuel < fuel) (hn : ¬ br.Calm) :
    ∃ e br', BytesReader.drain fuel br = (e, br') ∧
      br'.contentLength = br.contentLength ∧ br'.r.term = br.r.term ∧ br'.r.chunks.flatten = [] ∧
      (e = none ∨ e = some br.r.term) := by
  induction fuel generalizing br with
  | zero => omega
  | succ fuel ih =>
    unfold BytesReader.drain
    have hs := BytesReader.read_spec br 1024
    rcases hr : br.read 1024 with ⟨⟨d, e⟩, br'⟩
    rw [hr] at hs
    have hs : BRead br 1024 d e br' := hs
    have hdata := congrArg List.length hs.data
    rw [List.length_append] at hdata
    have hrem := hs.rem
    simp only [BytesReader.Calm, not_or] at hn
    obtain ⟨n1, n2, n3⟩ := hn
    have n2 : br.r.chunks.flatten.length = br.rem := by omega
    cases e with
    | none =>
      have hd := hs.dec rfl (by omega)
      by_cases hb : br'.Calm
      · obtain ⟨e2, r2, h1, h2, h3, h4, h5, h6⟩ := BytesReader.drain_spec fuel br' (by omega) hb
        refine ⟨e2, r2, h1, by rw [h2, hs.cl], by rw [h3, hs.term], ?_, ?_⟩
        · rw [h5]; exact List.drop_eq_nil_of_le (by omega)
        · left; rw [h6, if_neg]; omega
      · obtain ⟨e2, r2, h1, h2, h3, h4, h5⟩ := ih br' (by omega) hb
        exact ⟨e2, r2, h1, by rw [h2, hs.cl], by rw [h3, hs.term], h4, by rw [hs.term] at h5; exact h5⟩
    | some t =>
      rcases hs.err t rfl with ⟨_, _, h0⟩ | ⟨h1, h2⟩
      · exact absurd h0 n3
      · subst h1
        simp only []
        split
        · exact ⟨none, br', rfl, hs.cl, hs.term, by rw [h2]; rfl, .inl rfl⟩
        · exact ⟨some _, br', rfl, hs.cl, hs.term, by rw [h2]; rfl, .inr rfl⟩

/-- `Close` of a `BytesReader` on any reader: what is left does not depend on fragmentation; the result does in one case only. -/
theorem BytesReader.close_any (br : BytesReader) :
    br.close.2.abs = (bytesReaderClose br.rem br.contentLength br.r.abs).2 ∧
      (br.close.1 = (bytesReaderClose br.rem br.contentLength br.r.abs).1 ∨
        br.close.1 = .err br.r.term ∧ bytesReaderClose br.rem br.contentLength br.r.abs = (.ok (), ⟨[], br.r.term⟩) ∧
        br.r.term ≠ .eof ∧ br.r.eager = true ∧ br.r.chunks.flatten.length = br.rem ∧ 0 < br.rem ∧ br.contentLength % 8 = 0) := by
  by_cases hc : br.Calm
  · exact ⟨(close_abs br hc).2, .inl (close_abs br hc).1⟩
  · obtain ⟨e, br', h1, h2, h3, h4, h5⟩ := BytesReader.drain_loud (br.r.fuel + 1) br (by omega) hc
    simp only [BytesReader.Calm, not_or, FReader.Fair, Classical.not_imp] at hc
    obtain ⟨⟨n0, n1⟩, n2, n3⟩ := hc
    have n2 : br.r.chunks.flatten.length = br.rem := by omega
    have hcl : br.close = match (e, br') with
        | (some e, br') => (.err e, br'.r)
        | (none, br') => FReader.readPadding br'.contentLength br'.r := by
      rw [← h1]; rfl
    have hb : bytesReaderClose br.rem br.contentLength br.r.abs
        = Wire.readPadding br.contentLength ⟨[], br.r.term⟩ := by
      unfold bytesReaderClose
      rw [if_neg (by rintro ⟨h, _⟩; simp only [FReader.abs] at h; omega)]
      congr 2
      exact List.drop_eq_nil_of_le (by simp only [FReader.abs]; omega)
    have habs : br'.r.abs = ⟨[], br.r.term⟩ := by simp only [FReader.abs, h4, h3]
    rw [hcl, hb]
    rcases h5 with rfl | rfl
    · have := Sim.readPadding br'.contentLength br'.r
      rw [habs] at this
      simp only [h2] at this ⊢
      exact ⟨this.2, .inl this.1⟩
    · by_cases h8 : br.contentLength % 8 = 0
      · have hp : Wire.readPadding br.contentLength ⟨[], br.r.term⟩ = (.ok (), ⟨[], br.r.term⟩) := by
          unfold Wire.readPadding; rw [if_pos h8]; rfl
        rw [hp]
        exact ⟨habs, .inr ⟨rfl, rfl, n1, n0, n2, by omega, h8⟩⟩
      · have hp : Wire.readPadding br.contentLength ⟨[], br.r.term⟩ = (.err br.r.term, ⟨[], br.r.term⟩) := by
          unfold Wire.readPadding
          rw [if_neg h8]
          apply M.bind_err
          unfold Wire.readFull
          rw [if_neg (by simp; omega)]
          simp [shortErr]
        rw [hp]
        exact ⟨habs, .inl rfl⟩

theorem Sim.readContent (n : Nat) (hn : n < 2 ^ 63) :
    Sim (FReader.readContent n) (Wire.readContent n) := by
  intro r
  obtain ⟨d, e, br', h1, h2, h3, h4, h5, h6, h7, h8⟩ :=
    BytesReader.readLoop_spec (r.fuel + 1) (newBytesReader r n) n []
      (by simp [newBytesReader]) (by simp) (by simp [newBytesReader, limitOf, hn])
  have hnr : (newBytesReader r n).r = r := rfl
  have hnrem : (newBytesReader r n).rem = n := by simp [newBytesReader, limitOf, hn]
  have hncl : (newBytesReader r n).contentLength = n := rfl
  rw [hnr] at h2 h4 h5 h8
  rw [hnrem] at h7
  rw [hncl] at h6
  simp at h1 h3 h8
  have hfair' : br'.Calm := by
    by_cases hd : d.length < n
    · obtain ⟨_, hc⟩ := h8 hd
      right; left
      rw [hc]
      simp
      omega
    · right; right; omega
  obtain ⟨c1, c2⟩ := BytesReader.close_abs br' hfair'
  unfold FReader.readContent Wire.readContent Wire.readFull
  rw [h1]
  simp only []
  by_cases hd : n ≤ d.length
  · have hdn : d.length = n := by omega
    rw [if_pos hd, if_pos (by simp [FReader.abs, h2]; omega)]
    refine ⟨?_, ?_⟩
    · simp [FReader.abs, h2, ← hdn]
    · simp only []
      rw [c2, h6]
      have e1 : br'.rem = n - min n r.abs.data.length := by
        simp [FReader.abs, h2]; omega
      have e2 : br'.r.abs = ⟨r.abs.data.drop n, r.abs.term⟩ := by
        simp [FReader.abs, h2, ← hdn, h4]
      rw [e1, e2]
  · obtain ⟨he, hc⟩ := h8 (by omega)
    rw [if_neg hd, he, if_neg (by simp [FReader.abs, h2, hc]; omega)]
    refine ⟨?_, ?_⟩
    · simp [FReader.abs, h2, hc]
    · simp only []
      rw [c2, h6]
      have e1 : br'.rem = n - min n r.abs.data.length := by
        simp [FReader.abs, h2, hc]; omega
      have e2 : br'.r.abs = ⟨[], r.abs.term⟩ := by
        simp [FReader.abs, hc, h4]
      rw [e1, e2]

theorem Sim.readBytesFull (max : Nat) : Sim (FReader.readBytesFull max) (Wire.readBytesFull max) := by
  apply Sim.bind Sim.readUint64
  intro n
  split
  · exact Sim.fail _
  split
  · exact Sim.panic
  · exact Sim.readContent n (by omega)

end Verif.Wire
