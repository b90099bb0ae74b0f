import Verif.Spec.WireCalls
import Verif.Lemmas.WireFrag

/-!
# Properties of `pkg/wire` (C13 - C20)
-/

namespace Verif.Props
open Verif Verif.Wire Verif.Spec

/-- C13: what `WriteUint64` appends is the 8-byte little-endian form of `n`, and `ReadUint64`
reads exactly it back. -/
theorem C13_uint64 (n : Nat) (hn : n < 2 ^ 64) (out : Bytes) :
    ∃ p, writeUint64 n ⟨out, none⟩ = (.ok (), ⟨out ++ p, none⟩) ∧ IsLE64 p n ∧
      ∀ rest t, readUint64 ⟨p ++ rest, t⟩ = (.ok n, ⟨rest, t⟩) :=
  ⟨putUint64 n, rfl, isLE64_put n hn, fun rest t => readUint64_append _ rest t n (isLE64_put n hn)⟩

/-- C13: booleans. -/
theorem C13_bool (v : Bool) (out : Bytes) :
    ∃ p, writeBool v ⟨out, none⟩ = (.ok (), ⟨out ++ p, none⟩) ∧ IsLE64 p (if v then 1 else 0) ∧
      ∀ rest t, readBool ⟨p ++ rest, t⟩ = (.ok v, ⟨rest, t⟩) := by
  have hlt : (if v then 1 else 0) < 2 ^ 64 := by cases v <;> decide
  refine ⟨putUint64 (if v then 1 else 0), by cases v <;> rfl, isLE64_put _ hlt, ?_⟩
  intro rest t
  unfold readBool
  rw [M.bind_ok (readUint64_append _ rest t _ (isLE64_put _ hlt))]
  cases v <;> rfl

/-- C13: `ReadBool` rejects every other value; `ReadUint64` fails on fewer than 8 bytes, with
`EOF` exactly when there is none. -/
theorem C13_bool_rejects (p rest : Bytes) (t : Err) (n : Nat) (hp : IsLE64 p n) (h0 : n ≠ 0)
    (h1 : n ≠ 1) : ∃ e, readBool ⟨p ++ rest, t⟩ = (.err e, ⟨rest, t⟩) := by
  unfold readBool
  rw [M.bind_ok (readUint64_append _ rest t _ hp), if_pos ⟨h0, h1⟩]
  exact ⟨_, rfl⟩

theorem C13_short (d : Bytes) (h : d.length < 8) :
    readUint64 ⟨d, .eof⟩ = (.err (if d = [] then .eof else .unexpectedEOF), ⟨[], .eof⟩) := by
  have : readFull 8 ⟨d, .eof⟩ = (.err (if d = [] then .eof else .unexpectedEOF), ⟨[], .eof⟩) := by
    unfold readFull shortErr
    rw [if_neg (by simp; omega)]
    cases d <;> simp
  unfold readUint64
  rw [M.bind_err this]

example : IsLE64 [0x39, 0x30, 0, 0, 0, 0, 0, 0] 12345 := by unfold IsLE64; decide

/-- C14: the output of `WriteBytes` (and `WriteString`) is the bytes packet of `b`; reading it back
with a sufficient limit returns `b` and leaves exactly what follows. -/
theorem C14_bytes (b : Bytes) (hb : b.length < 2 ^ 63) (out : Bytes) :
    ∃ p, writeBytes b ⟨out, none⟩ = (.ok (), ⟨out ++ p, none⟩) ∧
      writeString b ⟨out, none⟩ = (.ok (), ⟨out ++ p, none⟩) ∧ IsPacket p b ∧
      p.length = 8 + (b.length + 7) / 8 * 8 ∧
      ∀ rest t max, b.length ≤ max →
        readBytesFull max ⟨p ++ rest, t⟩ = (.ok b, ⟨rest, t⟩) ∧
        readString max ⟨p ++ rest, t⟩ = (.ok b, ⟨rest, t⟩) := by
  refine ⟨packet b, (emits_writeBytes b _).1 rfl, (emits_writeString b _).1 rfl,
    isPacket_packet b (by omega), ?_, ?_⟩
  · simp [packet, putUint64_length, pad]; omega
  · intro rest t max hm
    exact ⟨readBytesFull_append b rest t max hm hb, readBytesFull_append b rest t max hm hb⟩

example : ∃ p, IsPacket p b!"hello" ∧ p.length = 16 ∧
    readBytesFull 5 ⟨p ++ b!"tail", .eof⟩ = (.ok b!"hello", ⟨b!"tail", .eof⟩) :=
  ⟨packet b!"hello", isPacket_packet _ (by decide), by decide, by decide⟩

/-- C15: never more than `max` bytes are returned, whatever the stream. -/
theorem C15_limit (max : Nat) (s s' : Stream) (b : Bytes) (h : readBytesFull max s = (.ok b, s')) :
    b.length ≤ max := by
  unfold readBytesFull at h
  rw [M.bind_eq_ok] at h
  obtain ⟨n, s1, _, h⟩ := h
  split at h
  · simp at h
  split at h
  · simp at h
  · unfold readContent readFull at h
    split at h
    rename_i r s2 hr
    split at hr
    · rename_i hle
      simp at hr h
      obtain ⟨rfl, rfl⟩ := hr
      obtain ⟨h, _⟩ := h
      simp at h
      rw [← h]
      simp; omega
    · simp at hr h
      obtain ⟨rfl, rfl⟩ := hr
      simp at h

/-- C15: an announced length above the limit is an error after exactly the length field. -/
theorem C15_limit_error (max n : Nat) (p rest : Bytes) (t : Err) (hp : IsLE64 p n) (hn : max < n) :
    ∃ e, readBytesFull max ⟨p ++ rest, t⟩ = (.err e, ⟨rest, t⟩) := by
  unfold readBytesFull
  rw [M.bind_ok (readUint64_append _ rest t _ hp), if_pos hn]
  exact ⟨_, rfl⟩

/-- C16 is false for `ReadBytesFull`: its deferred `Close` drops the error, so a packet with
non-zero padding, and one whose padding is missing, is accepted. -/
theorem C16_readBytesFull_refuted :
    (∃ s : Stream, s.data.length = 16 ∧ (∀ p, IsPacket p b!"a" → s.data ≠ p) ∧
      (readBytesFull 10 s).1 = .ok b!"a") ∧
    (∃ s : Stream, s.data.length = 9 ∧ (readBytesFull 10 s).1 = .ok b!"a") := by
  refine ⟨⟨⟨[1, 0, 0, 0, 0, 0, 0, 0, 97, 1, 2, 3, 4, 5, 6, 7], .eof⟩, rfl, ?_, by decide⟩,
    ⟨⟨[1, 0, 0, 0, 0, 0, 0, 0, 97], .eof⟩, rfl, by decide⟩⟩
  intro p hp h
  rw [isPacket_unique hp] at h
  exact absurd h (by decide)

/-- C16, the part that holds: `Close` of the content reader, after any number `k` of content bytes
read, succeeds exactly when the content is followed by its zero padding, and then stands after it. -/
theorem C16_close_partial (c tail : Bytes) (t : Err) (k : Nat) :
    (∀ s', bytesReaderClose (c.length - k) c.length ⟨c.drop k ++ tail, t⟩ = (.ok (), s') ↔
      ∃ pad rest, tail = pad ++ rest ∧ (∀ x ∈ pad, x = 0) ∧ pad.length < 8 ∧
        (c.length + pad.length) % 8 = 0 ∧ s' = ⟨rest, t⟩) ∧
    bytesReaderClose (c.length - k) c.length ⟨c.drop k ++ tail, t⟩ ≠ (.panic, ⟨tail, t⟩) := by
  have hred : bytesReaderClose (c.length - k) c.length ⟨c.drop k ++ tail, t⟩
      = readPadding c.length ⟨tail, t⟩ := by
    unfold bytesReaderClose
    rw [if_neg (by simp; omega)]
    simp only []
    rw [List.drop_left' (by simp)]
  rw [hred]
  constructor
  · intro s'
    constructor
    · intro h
      unfold readPadding at h
      split at h
      · rename_i h8
        simp at h
        exact ⟨[], tail, by simp, by simp, by simp, by simpa using h8, h.symm⟩
      · rename_i h8
        rw [M.bind_eq_ok] at h
        obtain ⟨buf, s1, h1, h2⟩ := h
        unfold readFull at h1
        split at h1
        · rename_i hle
          simp at h1
          obtain ⟨rfl, rfl⟩ := h1
          split at h2
          · rename_i hz
            simp at h2 hle
            refine ⟨tail.take (8 - c.length % 8), tail.drop (8 - c.length % 8), by simp, ?_, ?_, ?_, h2.symm⟩
            · intro x hx
              have := List.all_eq_true.mp hz x hx
              simpa using this
            · simp; omega
            · simp; omega
          · simp at h2
        · simp at h1
    · rintro ⟨pd, rest, rfl, hz, h8, hm, rfl⟩
      have e : pd = pad c.length := by
        rw [List.eq_replicate_iff.mpr ⟨rfl, hz⟩]
        unfold pad
        congr 1
        omega
      rw [e]
      exact readPadding_append _ _ _
  · unfold readPadding
    split
    · simp
    · rw [M.bind_apply]
      unfold readFull
      split
      · rename_i h; split at h
        · simp at h; obtain ⟨rfl, rfl⟩ := h; split <;> simp
        · simp at h
      · simp
      · rename_i h; split at h <;> simp at h

example : bytesReaderClose 1 3 ⟨b!"c" ++ [0, 0, 0, 0, 0, 9, 9], .eof⟩ = (.ok (), ⟨[9, 9], .eof⟩) ∧
    (bytesReaderClose 1 3 ⟨b!"c" ++ [0, 0, 0, 0, 1, 9, 9], .eof⟩).1.isOk = false := by decide

/-- A content that is cut off is not noticed by `Close` when the announced length is a multiple of
eight (there is no padding to read): part of why truncated archives go unnoticed (C29). -/
theorem C16_close_truncated_content :
    bytesReaderClose 8 8 ⟨[1, 2, 3], .eof⟩ = (.ok (), ⟨[], .eof⟩) := by decide

theorem readPadding_rest (n : Nat) (s : Stream) : (readPadding n s).2 = { s with data := s.data.drop ((8 - n % 8) % 8) } := by
  unfold readPadding
  split
  · rename_i h
    rw [h]
    rfl
  · rename_i h
    have : (8 - n % 8) % 8 = 8 - n % 8 := by omega
    rw [this]
    rw [M.bind_apply]
    by_cases hl : 8 - n % 8 ≤ s.data.length
    · have hr : readFull (8 - n % 8) s = (.ok (s.data.take (8 - n % 8)), { s with data := s.data.drop (8 - n % 8) }) := by
        unfold readFull; rw [if_pos hl]
      rw [hr]
      simp only []
      split <;> rfl
    · have hr : readFull (8 - n % 8) s = (.err (shortErr s.data.length s.term), { s with data := [] }) := by
        unfold readFull; rw [if_neg hl]
      rw [hr]
      simp only []
      rw [List.drop_of_length_le (by omega)]

/-- C16 for `ReadBytesFull`, exactly: it succeeds when the length field is there, within the limit, and followed by
that many bytes. What comes after the content is not looked at: as many bytes as the padding should have are
skipped, or as many as there are. -/
theorem C16_exact (max : Nat) (s s' : Stream) (c : Bytes) :
    readBytesFull max s = (.ok c, s') ↔
      ∃ p tail, IsLE64 p c.length ∧ s.data = p ++ c ++ tail ∧ c.length ≤ max ∧ c.length < 2 ^ 63 ∧
        s' = ⟨tail.drop ((8 - c.length % 8) % 8), s.term⟩ := by
  constructor
  · intro h
    unfold readBytesFull at h
    rw [M.bind_eq_ok] at h
    obtain ⟨n, s1, h1, h⟩ := h
    unfold readUint64 at h1
    rw [M.bind_eq_ok] at h1
    obtain ⟨b, s2, h2, h1⟩ := h1
    unfold readFull at h2
    split at h2
    case isFalse => simp at h2
    rename_i hl
    cases h2
    cases h1
    split at h
    · simp at h
    split at h
    · simp at h
    rename_i hm h63
    unfold readContent readFull at h
    generalize hn : getUint64 (s.data.take 8) = n at *
    simp only [] at h
    split at h
    · rename_i hl2
      cases h
      simp only [List.length_drop] at hl2
      refine ⟨s.data.take 8, (s.data.drop 8).drop n, ?_, ?_, ?_, ?_, ?_⟩
      · rw [List.length_take, List.length_drop, Nat.min_eq_left hl2, ← hn]
        exact ⟨by simp; omega, (getUint64_eq _).symm⟩
      · rw [List.append_assoc, List.take_append_drop, List.take_append_drop]
      · rw [List.length_take, List.length_drop]; omega
      · rw [List.length_take, List.length_drop]; omega
      · rw [List.length_take, List.length_drop, Nat.min_eq_left hl2]
        unfold bytesReaderClose
        rw [if_neg (by simp)]
        rw [readPadding_rest]
        simp
    · cases h
  · rintro ⟨p, tail, hp, hd, hm, h63, rfl⟩
    unfold readBytesFull
    have : s = ⟨p ++ (c ++ tail), s.term⟩ := by rw [← List.append_assoc, ← hd]
    rw [this, M.bind_ok (readUint64_append _ (c ++ tail) s.term _ hp), if_neg (by omega), if_neg (by omega)]
    unfold readContent readFull
    simp only [List.length_append]
    rw [if_pos (by omega)]
    simp only [List.take_left, List.drop_left]
    unfold bytesReaderClose
    rw [if_neg (by simp)]
    rw [readPadding_rest]
    simp
example : readBytesFull 10 ⟨[1, 0, 0, 0, 0, 0, 0, 0, 97, 1, 2, 3], .eof⟩ = (.ok b!"a", ⟨[], .eof⟩) :=
  (C16_exact 10 _ _ _).2 ⟨[1, 0, 0, 0, 0, 0, 0, 0], [1, 2, 3], ⟨rfl, rfl⟩, rfl, by decide, by decide, rfl⟩

theorem reads_spec (ks : List Nat) (br : BytesReader) :
    ∃ m, m + (reads br ks).2.rem = br.rem ∧
      (reads br ks).2.contentLength = br.contentLength ∧
      (reads br ks).2.r.term = br.r.term ∧ (reads br ks).2.r.eager = br.r.eager ∧
      ((reads br ks).1.map (·.1)).flatten.length = m ∧
      br.r.chunks.flatten = ((reads br ks).1.map (·.1)).flatten ++ (reads br ks).2.r.chunks.flatten ∧
      ((∃ x ∈ (reads br ks).1, x.2 ≠ none) →
        (reads br ks).2.rem = 0 ∨ (reads br ks).2.r.chunks.flatten = []) := by
  induction ks generalizing br with
  | nil => exact ⟨0, by simp [reads], rfl, rfl, rfl, rfl, by simp [reads], by simp [reads]⟩
  | cons k ks ih =>
    have hs := BytesReader.read_spec br k
    rcases hr : br.read k with ⟨⟨d, e⟩, br'⟩
    rw [hr] at hs
    have hs : BRead br k d e br' := hs
    obtain ⟨m, h1, h2, h3, h4, h5, h6, h7⟩ := ih br'
    have hrd : reads br (k :: ks) = ((d, e) :: (reads br' ks).1, (reads br' ks).2) := by
      simp [reads, hr]
    rw [hrd]
    have hrem := hs.rem
    refine ⟨d.length + m, by simp only; omega, by rw [h2, hs.cl], by rw [h3, hs.term],
      by rw [h4, hs.eager], by simp [h5], by simp [hs.data, h6], ?_⟩
    rintro ⟨x, hx, hxe⟩
    simp only [List.mem_cons] at hx
    rcases hx with rfl | hx
    · cases e with
      | none => simp at hxe
      | some t =>
        rcases hs.err t rfl with ⟨_, _, h0⟩ | ⟨_, hc⟩
        · left; simp only; omega
        · right
          rw [hc] at h6
          simp only [List.flatten_nil] at h6
          exact (List.append_eq_nil_iff.mp h6.symm).2
    · exact h7 ⟨x, hx, hxe⟩

/-- C17: whatever the fragmentation of the underlying reader and whatever the sizes of the `Read`
calls, the data returned is a prefix of the content `c`; it is all of it once a `Read` reports an
error; and `Close` then checks the padding and leaves the underlying reader exactly after
the packet. `Close` succeeds, unless the reader delivers its last data together with an error other
than `io.EOF` and nothing follows the packet. -/
theorem C17_bytes_reader (r : FReader) (c tail : Bytes) (hc : c.length < 2 ^ 63)
    (hdata : r.chunks.flatten = c ++ tail) (ks : List Nat) :
    let out := (reads (newBytesReader r c.length) ks).1
    let br := (reads (newBytesReader r c.length) ks).2
    (out.map (·.1)).flatten <+: c ∧
    ((∃ x ∈ out, x.2 ≠ none) → (out.map (·.1)).flatten = c) ∧
    (∀ pad rest, tail = pad ++ rest → (∀ x ∈ pad, x = 0) → pad.length < 8 →
      (c.length + pad.length) % 8 = 0 →
        br.close.2.chunks.flatten = rest ∧ br.close.2.term = r.term ∧
        (r.Fair ∨ tail ≠ [] → br.close.1 = .ok ())) := by
  obtain ⟨m, h1, h2, h3, h4, h5, h6, h7⟩ := reads_spec ks (newBytesReader r c.length)
  have hrem : (newBytesReader r c.length).rem = c.length := by simp [newBytesReader, limitOf, hc]
  have hr : (newBytesReader r c.length).r = r := rfl
  have hcl : (newBytesReader r c.length).contentLength = c.length := rfl
  simp only []
  generalize (reads (newBytesReader r c.length) ks).1 = out at *
  generalize (reads (newBytesReader r c.length) ks).2 = br at *
  rw [hrem] at h1
  rw [hr] at h3 h4 h6
  rw [hcl] at h2
  rw [hdata] at h6
  generalize hD : (out.map (·.1)).flatten = D at *
  have hpre : D = c.take m := by
    have := congrArg (List.take m) h6
    rw [List.take_append_of_le_length (by omega), List.take_left' h5] at this
    exact this.symm
  have hdrop : br.r.chunks.flatten = c.drop m ++ tail := by
    have := congrArg (List.drop m) h6
    rw [List.drop_append_of_le_length (by omega), List.drop_left' h5] at this
    exact this.symm
  refine ⟨by rw [hpre]; exact List.take_prefix _ _, ?_, ?_⟩
  · intro hx
    rw [hpre]
    apply List.take_of_length_le
    rcases h7 hx with h | h
    · omega
    · rw [hdrop] at h
      simp at h
      omega
  · rintro pd rest rfl hz h8 hm
    obtain ⟨c2, c1⟩ := BytesReader.close_any br
    have hrem' : br.rem = c.length - m := by omega
    have habs : br.r.abs = ⟨c.drop m ++ (pd ++ rest), r.term⟩ := by
      simp [FReader.abs, hdrop, h3]
    rw [habs, hrem', h2] at c1 c2
    have := ((C16_close_partial c (pd ++ rest) r.term m).1 ⟨rest, r.term⟩).mpr
      ⟨pd, rest, rfl, hz, h8, hm, rfl⟩
    rw [this] at c1 c2
    refine ⟨congrArg Stream.data c2, congrArg Stream.term c2, ?_⟩
    intro hf
    rcases c1 with c1 | ⟨_, _, g1, g2, g3, _⟩
    · exact c1
    · exfalso
      rcases hf with hf | hf
      · rw [h3] at g1
        rw [h4] at g2
        exact g1 (hf g2)
      · apply hf
        have := congrArg List.length hdrop
        rw [g3] at this
        simp only [List.length_append, List.length_drop] at this
        apply List.eq_nil_of_length_eq_zero
        simp only [List.length_append]
        omega

/-- C17: reading the whole content (`io.ReadFull` with a buffer of the content's size) succeeds. -/
theorem C17_read_all (r : FReader) (c tail : Bytes) (hc : c.length < 2 ^ 63)
    (hdata : r.chunks.flatten = c ++ tail) :
    (FReader.readContent c.length r).1 = .ok c := by
  have := (Sim.readContent c.length hc r).1
  rw [this]
  unfold readContent
  have habs : r.abs = ⟨c ++ tail, r.term⟩ := by simp [FReader.abs, hdata]
  rw [habs, readFull_append c tail _ _ rfl]

/-- C17: the exception is real: the eight bytes of the content are there and nothing has to follow, but `Close` returns the error that came with them. -/
theorem C17_close_refuted : ∃ (r : FReader) (c : Bytes), r.chunks.flatten = c ∧ c.length % 8 = 0 ∧
    (newBytesReader r c.length).close.1 = .err .io :=
  ⟨⟨[b!"12345678"], .io, true⟩, b!"12345678", by decide, by decide, by decide⟩

/-- a reader in five pieces, one of them empty -/
example : (reads (newBytesReader ⟨[b!"he", [], b!"l", b!"lo", [0, 0, 0, 9]], .eof, true⟩ 5) [1, 1, 7, 7, 7, 7]).1
    = [(b!"h", none), (b!"e", none), ([], none), (b!"l", none), (b!"lo", none), ([], some .eof)] := by
  decide

/-! ### C18 -/

theorem runSteps_cons {S : Type} (step : S → WOp → Bool × S) (s : S) (op : WOp) (ops : List WOp) :
    runSteps step s (op :: ops) =
      ((step s op).1 :: (runSteps step (step s op).2 ops).1, (runSteps step (step s op).2 ops).2) :=
  rfl

/-- C18: on a sink that does not fail, every history of `Write` and `Close` calls on a
`BytesWriter` for `n` bytes has exactly the outcomes of the specification, and the output is the
length, the accepted content and, once closed, the zero padding. -/
theorem C18_bytes_writer (n : Nat) (hn : n < 2 ^ 64) (out : Bytes) (ops : List WOp)
    (hops : ∀ p, WOp.write p ∈ ops → n + p.length < 2 ^ 64) :
    ∃ bw w, newBytesWriter n ⟨out, none⟩ = (.ok bw, w) ∧
      (runSteps modelStep (bw, w) ops).1 = (runSteps (specStep n) ([], false) ops).1 ∧
      ∃ len pad, IsLE64 len n ∧ (∀ x ∈ pad, x = 0) ∧ pad.length < 8 ∧ (n + pad.length) % 8 = 0 ∧
        (runSteps modelStep (bw, w) ops).2.2.out =
          out ++ len ++ (runSteps (specStep n) ([], false) ops).2.1 ++
            (if (runSteps (specStep n) ([], false) ops).2.2 then pad else []) := by
  refine ⟨⟨0, n, false⟩, ⟨out ++ putUint64 n, none⟩, rfl, ?_⟩
  have main : ∀ (ops : List WOp) (acc : Bytes) (closed : Bool),
      (∀ p, WOp.write p ∈ ops → n + p.length < 2 ^ 64) → acc.length ≤ n →
      (closed = true → acc.length = n) →
      let M := runSteps modelStep (⟨acc.length, n, closed⟩,
        ⟨out ++ putUint64 n ++ acc ++ (if closed then pad n else []), none⟩) ops
      let S := runSteps (specStep n) (acc, closed) ops
      M.1 = S.1 ∧ M.2.2.out = out ++ putUint64 n ++ S.2.1 ++ (if S.2.2 then pad n else []) := by
    intro ops
    induction ops with
    | nil => intro acc closed _ _ _; exact ⟨rfl, rfl⟩
    | cons op ops ih =>
      intro acc closed hops hacc hcl
      have hops' : ∀ p, WOp.write p ∈ ops → n + p.length < 2 ^ 64 := fun p hp => hops p (by simp [hp])
      cases op with
      | write p =>
        have hp := hops p (by simp)
        have hmod : (acc.length + p.length) % 2 ^ 64 = acc.length + p.length := by omega
        by_cases hle : acc.length + p.length ≤ n
        · have hs : specStep n (acc, closed) (.write p) = (true, (acc ++ p, closed)) := by
            simp [specStep, hle]
          have hm : modelStep (⟨acc.length, n, closed⟩,
              ⟨out ++ putUint64 n ++ acc ++ (if closed then pad n else []), none⟩) (.write p) =
              (true, (⟨(acc ++ p).length, n, closed⟩,
                ⟨out ++ putUint64 n ++ (acc ++ p) ++ (if closed then pad n else []), none⟩)) := by
            unfold modelStep BytesWriter.write Sink.write
            simp only [hmod]
            rw [if_neg (by omega)]
            cases closed with
            | false => simp [hmod]
            | true =>
              have hp0 : p = [] := by
                have := hcl rfl
                exact List.length_eq_zero_iff.mp (by omega)
              subst hp0
              simp only [List.length_nil, Nat.add_zero] at hmod
              simp [hmod]
          have := ih (acc ++ p) closed hops' (by simpa using hle) (by
            intro h; have := hcl h; simp; omega)
          rw [runSteps_cons, runSteps_cons, hs, hm]
          exact ⟨congrArg _ this.1, this.2⟩
        · have hs : specStep n (acc, closed) (.write p) = (false, (acc, closed)) := by
            simp [specStep, hle]
          have hm : modelStep (⟨acc.length, n, closed⟩,
              ⟨out ++ putUint64 n ++ acc ++ (if closed then pad n else []), none⟩) (.write p) =
              (false, (⟨acc.length, n, closed⟩,
                ⟨out ++ putUint64 n ++ acc ++ (if closed then pad n else []), none⟩)) := by
            unfold modelStep BytesWriter.write
            simp only [hmod]
            rw [if_pos (by omega)]
            rfl
          have := ih acc closed hops' hacc hcl
          rw [runSteps_cons, runSteps_cons, hs, hm]
          exact ⟨congrArg _ this.1, this.2⟩
      | close =>
        cases closed with
        | true =>
          have hs : specStep n (acc, true) .close = (true, (acc, true)) := by simp [specStep]
          have hm : modelStep (⟨acc.length, n, true⟩,
              ⟨out ++ putUint64 n ++ acc ++ (if true then pad n else []), none⟩) .close =
              (true, (⟨acc.length, n, true⟩,
                ⟨out ++ putUint64 n ++ acc ++ (if true then pad n else []), none⟩)) := by
            simp [modelStep, BytesWriter.close]
          have := ih acc true hops' hacc hcl
          rw [runSteps_cons, runSteps_cons, hs, hm]
          exact ⟨congrArg _ this.1, this.2⟩
        | false =>
          by_cases he : acc.length = n
          · have hs : specStep n (acc, false) .close = (true, (acc, true)) := by simp [specStep, he]
            have hm : modelStep (⟨acc.length, n, false⟩,
                ⟨out ++ putUint64 n ++ acc ++ (if false then pad n else []), none⟩) .close =
                (true, (⟨acc.length, n, true⟩,
                  ⟨out ++ putUint64 n ++ acc ++ (if true then pad n else []), none⟩)) := by
              unfold modelStep BytesWriter.close
              have := (emits_writePadding n ⟨out ++ putUint64 n ++ acc ++ [], none⟩).1 rfl
              simp [he] at this ⊢
              rw [this]
              simp
            have := ih acc true hops' hacc (fun _ => he)
            rw [runSteps_cons, runSteps_cons, hs, hm]
            exact ⟨congrArg _ this.1, this.2⟩
          · have hs : specStep n (acc, false) .close = (false, (acc, false)) := by simp [specStep, he]
            have hm : modelStep (⟨acc.length, n, false⟩,
                ⟨out ++ putUint64 n ++ acc ++ (if false then pad n else []), none⟩) .close =
                (false, (⟨acc.length, n, false⟩,
                  ⟨out ++ putUint64 n ++ acc ++ (if false then pad n else []), none⟩)) := by
              simp [modelStep, BytesWriter.close, he]
            have := ih acc false hops' hacc hcl
            rw [runSteps_cons, runSteps_cons, hs, hm]
            exact ⟨congrArg _ this.1, this.2⟩
  have := main ops [] false hops (by simp) (by simp)
  simp only [List.append_nil, List.length_nil, Bool.false_eq_true, if_false] at this
  exact ⟨this.1, putUint64 n, pad n, isLE64_put n (by omega), by simp [pad], (pad_length n).2,
    (pad_length n).1, this.2⟩

/-- The specification closes successfully with exactly the packet of what was accepted. -/
theorem C18_closed_is_packet (n : Nat) (len acc pad : Bytes) (hl : IsLE64 len n)
    (hz : ∀ x ∈ pad, x = 0) (h8 : pad.length < 8) (hm : (n + pad.length) % 8 = 0)
    (hacc : acc.length = n) : IsPacket (len ++ acc ++ pad) acc :=
  ⟨len, pad, rfl, hacc ▸ hl, hz, h8, hacc ▸ hm⟩

/-- In the specification (hence in the code) a closed writer holds exactly `n` bytes. -/
theorem C18_spec_closed (n : Nat) (ops : List WOp) :
    let S := (runSteps (specStep n) ([], false) ops).2
    S.1.length ≤ n ∧ (S.2 = true → S.1.length = n) := by
  have main : ∀ (ops : List WOp) (acc : Bytes) (closed : Bool), acc.length ≤ n →
      (closed = true → acc.length = n) →
      let S := (runSteps (specStep n) (acc, closed) ops).2
      S.1.length ≤ n ∧ (S.2 = true → S.1.length = n) := by
    intro ops
    induction ops with
    | nil => intro acc closed h1 h2; exact ⟨h1, h2⟩
    | cons op ops ih =>
      intro acc closed h1 h2
      cases op with
      | write p =>
        by_cases hle : acc.length + p.length ≤ n
        · have := ih (acc ++ p) closed (by simpa using hle) (by
            intro h; have := h2 h; simp; omega)
          simpa [runSteps, specStep, hle] using this
        · have := ih acc closed h1 h2
          simpa [runSteps, specStep, hle] using this
      | close =>
        cases closed with
        | true => have := ih acc true h1 h2; simpa [runSteps, specStep] using this
        | false =>
          by_cases he : acc.length = n
          · have := ih acc true h1 (fun _ => he); simpa [runSteps, specStep, he] using this
          · have := ih acc false h1 h2; simpa [runSteps, specStep, he] using this
  exact main ops [] false (by simp) (by simp)

/-- State invariant of a `BytesWriter` on an arbitrary sink. -/
structure BWInv (n : Nat) (out : Bytes) (st : BytesWriter × Sink) : Prop where
  ex : ∃ acc q, st.2.out = out ++ putUint64 n ++ acc ++ q ∧ acc.length = st.1.bytesWritten ∧
    st.1.bytesWritten ≤ n ∧ st.1.totalLength = n ∧ q <+: pad n ∧
    (q ≠ [] → st.1.bytesWritten = n ∧ (st.1.paddingWritten = true ∨ st.2.budget = some 0))

theorem bwInv_step (n : Nat) (hn : n < 2 ^ 64) (out : Bytes) (st : BytesWriter × Sink)
    (h : BWInv n out st) (op : WOp) (hop : ∀ p, op = .write p → n + p.length < 2 ^ 64) :
    BWInv n out (modelStep st op).2 := by
  obtain ⟨⟨bwn, tot, pw⟩, ⟨so, bud⟩⟩ := st
  obtain ⟨acc, q, h1, h2, h3, h4, h5, h6⟩ := h.ex
  simp only at h1 h2 h3 h4 h5 h6
  subst h4 h1 h2
  cases op with
  | write p =>
    have hp := hop p rfl
    unfold modelStep BytesWriter.write
    simp only
    by_cases hgt : (acc.length + p.length) % 2 ^ 64 > tot
    · rw [if_pos hgt]; exact ⟨acc, q, rfl, rfl, h3, rfl, h5, h6⟩
    rw [if_neg hgt]
    have hle : acc.length + p.length ≤ tot := by omega
    -- when padding bytes are already out, only the empty write gets here
    by_cases hq : q = []
    · subst hq
      unfold Sink.write
      cases bud with
      | none =>
        refine ⟨acc ++ p, [], ?_, ?_, ?_, rfl, List.nil_prefix, by simp⟩
        · simp
        · simp; omega
        · simp; omega
      | some k =>
        simp only
        split
        · refine ⟨acc ++ p, [], ?_, ?_, ?_, rfl, List.nil_prefix, by simp⟩
          · simp
          · simp; omega
          · simp; omega
        · refine ⟨acc ++ p.take k, [], ?_, ?_, ?_, rfl, List.nil_prefix, by simp⟩
          · simp
          · simp; omega
          · simp; omega
    · have hp0 : p = [] := List.length_eq_zero_iff.mp (by have := (h6 hq).1; omega)
      subst hp0
      unfold Sink.write
      have hb : acc.length % 2 ^ 64 = acc.length := by omega
      cases bud with
      | none =>
        exact ⟨acc, q, by simp, by simp only [List.length_nil, Nat.add_zero, hb], by simp [hb, h3],
          rfl, h5, by simpa [hb] using h6⟩
      | some k =>
        exact ⟨acc, q, by simp, by simp [hb], by simp [hb, h3], rfl, h5, by simpa [hb] using h6⟩
  | close =>
    unfold modelStep BytesWriter.close
    simp only
    cases pw with
    | true => exact ⟨acc, q, rfl, rfl, h3, rfl, h5, h6⟩
    | false =>
      rw [if_neg (by simp)]
      by_cases he : acc.length = tot
      · rw [if_neg (by simp [he])]
        subst he
        cases bud with
        | none =>
          have hq : q = [] := Decidable.byContradiction fun hq => by
            have := (h6 hq).2; simp at this
          subst hq
          rw [(emits_writePadding acc.length _).1 rfl]
          exact ⟨acc, pad acc.length, by simp, rfl, by simp, rfl, List.prefix_rfl, by simp⟩
        | some k =>
          have := (emits_writePadding acc.length ⟨out ++ putUint64 acc.length ++ acc ++ q, some k⟩).2 k rfl
          by_cases hq : q = []
          · subst hq
            split at this
            · rw [this]
              exact ⟨acc, pad acc.length, by simp, rfl, by simp, rfl, List.prefix_rfl, by simp⟩
            · rw [this]
              exact ⟨acc, (pad acc.length).take k, by simp, rfl, by simp, rfl,
                List.take_prefix _ _, by simp⟩
          · have hk : k = 0 := by have := (h6 hq).2; simpa using this
            subst hk
            have hpl : ¬ (pad acc.length).length ≤ 0 := by
              intro h
              have h0 := List.length_eq_zero_iff.mp (Nat.le_zero.mp h)
              rw [h0] at h5
              exact hq (List.prefix_nil.mp h5)
            rw [if_neg hpl] at this
            rw [this]
            exact ⟨acc, q, by simp, rfl, by simp, rfl, h5, by simp⟩
      · rw [if_pos (by simpa using he)]
        exact ⟨acc, q, rfl, rfl, h3, rfl, h5, h6⟩

/-- C18/C20: also when the sink fails at an arbitrary position, after every history what reached it
is a prefix of a correct packet with `n` content bytes. -/
theorem C18_prefix_of_packet (n : Nat) (hn : n < 2 ^ 64) (w : Sink) (ops : List WOp)
    (hops : ∀ p, WOp.write p ∈ ops → n + p.length < 2 ^ 64) :
    ∃ w', (newBytesWriter n w).2 = w' ∧
      (∃ p c q, IsPacket p c ∧ c.length = n ∧ q <+: p ∧ w'.out = w.out ++ q) ∧
      ∀ bw, (newBytesWriter n w).1 = .ok bw →
        ∃ p c q, IsPacket p c ∧ c.length = n ∧ q <+: p ∧
          (runSteps modelStep (bw, w') ops).2.2.out = w.out ++ q := by
  have hle := isLE64_put n (by omega)
  have hpk : ∀ c : Bytes, c.length = n → IsPacket (putUint64 n ++ c ++ pad n) c := by
    intro c hc
    have := isPacket_packet c (by omega)
    unfold packet at this; rw [hc] at this; exact this
  have fill : ∀ (acc q : Bytes), acc.length ≤ n → q <+: pad n → (q ≠ [] → acc.length = n) →
      ∃ p c r, IsPacket p c ∧ c.length = n ∧ r <+: p ∧ putUint64 n ++ acc ++ q = r := by
    intro acc q h1 h2 h3
    by_cases hq : q = []
    · subst hq
      refine ⟨_, acc ++ List.replicate (n - acc.length) 0, _, hpk _ (by simp; omega), by simp; omega, ?_, rfl⟩
      simp only [List.append_nil, List.append_assoc]
      exact ⟨List.replicate (n - acc.length) 0 ++ pad n, by simp⟩
    · refine ⟨_, acc, _, hpk _ (h3 hq), h3 hq, ?_, rfl⟩
      obtain ⟨t, ht⟩ := h2
      exact ⟨t, by rw [← ht]; simp⟩
  have hnew : ∃ q, q <+: putUint64 n ∧ (newBytesWriter n w).2.out = w.out ++ q ∧
      ∀ bw, (newBytesWriter n w).1 = .ok bw → bw = ⟨0, n, false⟩ ∧ q = putUint64 n := by
    unfold newBytesWriter
    rw [M.bind_apply]
    have em := emits_writeAll (putUint64 n) w
    unfold writeUint64
    cases hb : w.budget with
    | none =>
      rw [em.1 hb]
      exact ⟨putUint64 n, List.prefix_rfl, rfl, by intro bw h; simp at h; exact ⟨h.symm, rfl⟩⟩
    | some k =>
      have := em.2 k hb
      split at this
      · rw [this]
        exact ⟨putUint64 n, List.prefix_rfl, rfl, by intro bw h; simp at h; exact ⟨h.symm, rfl⟩⟩
      · rw [this]
        exact ⟨(putUint64 n).take k, List.take_prefix _ _, rfl, by simp⟩
  obtain ⟨q, hq, hout, hbw⟩ := hnew
  refine ⟨_, rfl, ?_, ?_⟩
  · obtain ⟨t, ht⟩ := hq
    refine ⟨_, List.replicate n 0, q, hpk _ (by simp), by simp, ?_, hout⟩
    rw [← ht]
    exact ⟨t ++ List.replicate n 0 ++ pad n, by simp⟩
  · intro bw h
    obtain ⟨rfl, rfl⟩ := hbw bw h
    have inv : ∀ (ops : List WOp) (st : BytesWriter × Sink), BWInv n w.out st →
        (∀ p, WOp.write p ∈ ops → n + p.length < 2 ^ 64) →
        BWInv n w.out (runSteps modelStep st ops).2 := by
      intro ops
      induction ops with
      | nil => intro st h _; exact h
      | cons op ops ih =>
        intro st h hops
        rw [runSteps_cons]
        exact ih _ (bwInv_step n hn w.out st h op (by intro p hp; exact hops p (by simp [hp])))
          (fun p hp => hops p (by simp [hp]))
    have := inv ops (⟨0, n, false⟩, (newBytesWriter n w).2)
      ⟨[], [], by simp [hout], rfl, by simp, rfl, List.nil_prefix, by simp⟩ hops
    obtain ⟨acc, q', e1, e2, e3, _, e5, e6⟩ := this.ex
    obtain ⟨p, c, r, f1, f2, f3, f4⟩ := fill acc q' (by omega) e5 (fun h => by rw [e2]; exact (e6 h).1)
    exact ⟨p, c, r, f1, f2, f3, by rw [e1, ← f4]; simp⟩

/-- C18: the bound is needed. With 2^64-1 bytes announced, of which 2^63 have been written, 2^63 more are accepted: the
sum, an `uint64`, is 0 then. -/
theorem C18_overflow (p q : Bytes) (hp : p.length = 2 ^ 63) (hq : q.length = 2 ^ 63) (w : Sink) (hw : w.budget = none) :
    (runSteps modelStep (⟨0, 2 ^ 64 - 1, false⟩, w) [.write p, .write q]).1 = [true, true] ∧
    (runSteps (specStep (2 ^ 64 - 1)) ([], false) [.write p, .write q]).1 = [true, false] := by
  have hs : ∀ (p : Bytes) (w : Sink), w.budget = none → w.write p = ((p.length, none), { w with out := w.out ++ p }) := by
    intro p w hw
    unfold Sink.write
    rw [hw]
  have e1 : BytesWriter.write ⟨0, 2 ^ 64 - 1, false⟩ p w = ((p.length, none), ⟨2 ^ 63, 2 ^ 64 - 1, false⟩, { w with out := w.out ++ p }) := by
    unfold BytesWriter.write
    rw [if_neg (by simp only [hp]; decide), hs p w hw]
    simp only [hp]
  have e2 : ∀ w : Sink, w.budget = none → (BytesWriter.write ⟨2 ^ 63, 2 ^ 64 - 1, false⟩ q w).1.2 = none := by
    intro w hw
    unfold BytesWriter.write
    rw [if_neg (by simp only [hq]; decide), hs q w hw]
  constructor
  · rw [runSteps_cons, runSteps_cons]
    simp only [modelStep, e1, e2 { w with out := w.out ++ p } hw, runSteps]
    rfl
  · rw [runSteps_cons, runSteps_cons]
    simp only [specStep, List.length_nil, List.nil_append, hp, hq, Nat.zero_add, runSteps]
    rw [if_pos (by decide)]
    simp only [hp]
    rw [if_neg (by decide)]

example : ∃ p : Bytes, p.length = 2 ^ 63 := ⟨List.replicate (2 ^ 63) 0, List.length_replicate⟩

example : (runSteps (specStep 3) ([], false)
    [.write b!"ab", .close, .write b!"cd", .write b!"c", .close, .close]) =
      ([true, false, false, true, true, true], (b!"abc", true)) := by decide

/-- C19: every read function of the package returns the same result, and leaves the same data and
final error, on any two readers that deliver the same bytes in different pieces, and the final error
together with the last data or after it. `Close` of a `BytesReader` leaves the same data, and returns
the same result, except when one of the readers delivers the last byte of the content together with an
error other than `io.EOF`: then one of the two may return that error. -/
theorem C19_fragmentation (r1 r2 : FReader)
    (hd : r1.chunks.flatten = r2.chunks.flatten) (ht : r1.term = r2.term) :
    ((FReader.readUint64 r1).1 = (FReader.readUint64 r2).1 ∧
      (FReader.readUint64 r1).2.abs = (FReader.readUint64 r2).2.abs) ∧
    ((FReader.readBool r1).1 = (FReader.readBool r2).1 ∧
      (FReader.readBool r1).2.abs = (FReader.readBool r2).2.abs) ∧
    (∀ max, (FReader.readBytesFull max r1).1 = (FReader.readBytesFull max r2).1 ∧
      (FReader.readBytesFull max r1).2.abs = (FReader.readBytesFull max r2).2.abs) ∧
    (∀ n rem, (BytesReader.close ⟨n, rem, r1⟩).2.abs = (BytesReader.close ⟨n, rem, r2⟩).2.abs ∧
      ((BytesReader.close ⟨n, rem, r1⟩).1 = (BytesReader.close ⟨n, rem, r2⟩).1 ∨
        ¬ (r1.Fair ∧ r2.Fair) ∧ r1.chunks.flatten.length = rem ∧ 0 < rem ∧ n % 8 = 0 ∧
        ((BytesReader.close ⟨n, rem, r1⟩).1 = .err r1.term ∧ (BytesReader.close ⟨n, rem, r2⟩).1 = .ok () ∨
          (BytesReader.close ⟨n, rem, r1⟩).1 = .ok () ∧ (BytesReader.close ⟨n, rem, r2⟩).1 = .err r1.term))) := by
  have habs : r1.abs = r2.abs := by simp [FReader.abs, hd, ht]
  have key : ∀ {α : Type} {m : M FReader α} {m' : M Stream α}, Sim m m' →
      (m r1).1 = (m r2).1 ∧ (m r1).2.abs = (m r2).2.abs := by
    intro α m m' hs
    obtain ⟨a1, a2⟩ := hs r1
    obtain ⟨b1, b2⟩ := hs r2
    rw [a1, a2, b1, b2, habs]
    exact ⟨rfl, rfl⟩
  refine ⟨key Sim.readUint64, key Sim.readBool,
    fun max => key (Sim.readBytesFull max), ?_⟩
  intro n rem
  obtain ⟨a2, a1⟩ := BytesReader.close_any ⟨n, rem, r1⟩
  obtain ⟨b2, b1⟩ := BytesReader.close_any ⟨n, rem, r2⟩
  simp only [← habs, ← ht, ← hd] at a1 a2 b1 b2
  refine ⟨by rw [a2, b2], ?_⟩
  rcases a1 with a1 | ⟨a1, a3, a4, a5, a6, a7, a8⟩ <;> rcases b1 with b1 | ⟨b1, b3, b4, b5, b6, b7, b8⟩
  · left; rw [a1, b1]
  · right
    refine ⟨fun h => b4 (ht ▸ h.2 b5), b6, b7, b8, .inr ⟨by rw [a1, b3], b1⟩⟩
  · right
    refine ⟨fun h => a4 (h.1 a5), a6, a7, a8, .inl ⟨a1, by rw [b1, a3]⟩⟩
  · left; rw [a1, b1]

/-- C19: the exception is real. -/
theorem C19_close_refuted : ∃ (r1 r2 : FReader), r1.chunks.flatten = r2.chunks.flatten ∧ r1.term = r2.term ∧
    (newBytesReader r1 8).close.1 = .err .io ∧ (newBytesReader r2 8).close.1 = .ok () :=
  ⟨⟨[b!"12345678"], .io, true⟩, ⟨[b!"12345678"], .io, false⟩, by decide, by decide, by decide, by decide⟩

/-- C19: the abstract stream functions used in the rest of the model give the same results. -/
theorem C19_stream (r : FReader) :
    (FReader.readUint64 r).1 = (readUint64 ⟨r.chunks.flatten, r.term⟩).1 ∧
    (FReader.readBool r).1 = (readBool ⟨r.chunks.flatten, r.term⟩).1 ∧
    ∀ max, (FReader.readBytesFull max r).1 = (readBytesFull max ⟨r.chunks.flatten, r.term⟩).1 :=
  ⟨(Sim.readUint64 r).1, (Sim.readBool r).1, fun max => (Sim.readBytesFull max r).1⟩

example : (⟨[[1], [], [0, 0, 0], [0, 0, 0, 0, 7]], .eof, true⟩ : FReader).Fair ∧
    (FReader.readBool ⟨[[1], [], [0, 0, 0], [0, 0, 0, 0, 7]], .eof, true⟩).1 = .ok true := by
  constructor
  · intro _; rfl
  · decide

/-- C20 for the wire writers: a sink that accepts `k` bytes and then fails makes the function
report an error exactly when the output is longer than `k`, and holds a prefix of the correct
output. -/
theorem C20_wire_sink_failure (out : Bytes) (k : Nat) :
    (∀ n, n < 2 ^ 64 → ∃ p, IsLE64 p n ∧
      writeUint64 n ⟨out, some k⟩ =
        if p.length ≤ k then (.ok (), ⟨out ++ p, some (k - p.length)⟩)
        else (.err .io, ⟨out ++ p.take k, some 0⟩)) ∧
    (∀ b, b.length < 2 ^ 64 → ∃ p, IsPacket p b ∧
      (writeBytes b ⟨out, some k⟩ =
        if p.length ≤ k then (.ok (), ⟨out ++ p, some (k - p.length)⟩)
        else (.err .io, ⟨out ++ p.take k, some 0⟩)) ∧
      writeString b ⟨out, some k⟩ = writeBytes b ⟨out, some k⟩) := by
  constructor
  · intro n hn
    refine ⟨putUint64 n, isLE64_put n hn, ?_⟩
    have := (emits_writeAll (putUint64 n) ⟨out, some k⟩).2 k rfl
    unfold writeUint64
    split <;> simp_all
  · intro b hb
    refine ⟨packet b, isPacket_packet b hb, ?_, rfl⟩
    have := (emits_writeBytes b ⟨out, some k⟩).2 k rfl
    split <;> simp_all

end Verif.Props
