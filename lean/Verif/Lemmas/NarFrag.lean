import Verif.Lemmas.WireFrag
import Verif.Model.NarFrag

/-! # The reader on a fragmented stream simulates the reader on the stream -/

namespace Verif.Nar
open Verif.GoLib Verif.Wire

/-- What the shared state stands for in the stream model. -/
def babs (b : BytesReader) : RState := ⟨b.r.abs, b.rem, b.contentLength⟩

/-- One goroutine does what the other does. -/
inductive SimStep {α : Type} : Step BytesReader Header Bool α → Step RState Header Bool α → Prop
  | done (x : Res α) (b : BytesReader) : SimStep (.done x b) (.done x (babs b))
  | yield (h : Header) (b : BytesReader)
      (k : Bool → BytesReader → Step BytesReader Header Bool α)
      (k' : Bool → RState → Step RState Header Bool α)
      (hk : ∀ i b', SimStep (k i b') (k' i (babs b'))) :
      SimStep (.yield h b k) (.yield h (babs b) k')

/-- One coroutine does what the other does, from every state. -/
def SimC {α : Type} (m : FCoro α) (m' : RCoro α) : Prop :=
  ∀ b : BytesReader, SimStep (m.run b) (m'.run (babs b))

theorem SimStep.bind {α β : Type} {st : Step BytesReader Header Bool α} {st' : Step RState Header Bool α}
    {f : α → BytesReader → Step BytesReader Header Bool β} {f' : α → RState → Step RState Header Bool β}
    (h : SimStep st st') (hf : ∀ a b, SimStep (f a b) (f' a (babs b))) :
    SimStep (st.bind f) (st'.bind f') := by
  induction h with
  | done x b =>
    cases x with
    | ok a => exact hf a b
    | err e => exact .done _ _
    | panic => exact .done _ _
  | yield h b k k' _ ih => exact .yield h b _ _ fun i b' => ih i b'

theorem SimC.bind {α β : Type} {m : FCoro α} {m' : RCoro α} {f : α → FCoro β} {f' : α → RCoro β}
    (h : SimC m m') (hf : ∀ a, SimC (f a) (f' a)) : SimC (m >>= f) (m' >>= f') :=
  fun b => (h b).bind fun a b' => hf a b'

theorem SimC.pure {α : Type} (a : α) : SimC (Pure.pure a) (Pure.pure a) := fun b => .done _ b

theorem SimC.fail {α : Type} (e : Err) : SimC (Coro.fail e : FCoro α) (Coro.fail e) :=
  fun b => .done _ b

theorem SimC.yield (h : Header) : SimC (Coro.yield h) (Coro.yield h) :=
  fun b => .yield h b _ _ fun _ b' => .done _ b'

theorem SimC.rd {α : Type} {m : M FReader α} {m' : M Stream α} (h : Sim m m') : SimC (frd m) (rd m') := by
  intro b
  obtain ⟨h1, h2⟩ := h b.r
  have e : (Nar.rd m').run (babs b) = .done (m b.r).1 (babs { b with r := (m b.r).2 }) := by
    simp only [Nar.rd, Coro.lift, babs, h1, h2]
  rw [e]
  exact .done _ _

theorem SimC.setContent (n : Nat) (hn : n < 2 ^ 63) : SimC (fsetContent n) (setContent n) := by
  intro b
  have e : (Nar.setContent n).run (babs b) = .done (.ok ()) (babs (newBytesReader b.r n)) := by
    simp [Nar.setContent, babs, newBytesReader, limitOf, hn]
  rw [e]
  exact .done _ _

/-- What a drained `BytesReader` has left. -/
theorem drain_rem (fuel : Nat) (br : BytesReader) (hf : br.r.fuel < fuel) :
    (BytesReader.drain fuel br).2.rem = br.rem - min br.rem br.r.chunks.flatten.length := by
  induction fuel generalizing br with
  | zero => omega
  | succ fuel ih =>
    unfold BytesReader.drain
    have hs := BytesReader.read_spec br 1024
    rcases hr : br.read 1024 with ⟨⟨d, e⟩, br'⟩
    rw [hr] at hs
    have hs : BRead br 1024 d e br' := hs
    have hdata := congrArg List.length hs.data
    rw [List.length_append] at hdata
    have hrem := hs.rem
    cases e with
    | none =>
      have hd := hs.dec rfl (by omega)
      have := ih br' (by omega)
      simp only []
      omega
    | some t =>
      have key : br'.rem = br.rem - min br.rem br.r.chunks.flatten.length := by
        rcases hs.err t rfl with ⟨h1, h2, h3⟩ | ⟨h1, h2⟩
        · omega
        · rw [h2, List.flatten_nil, List.length_nil] at hdata; omega
      simp only []
      split <;> exact key

theorem readString_empty (n : Nat) (t : Err) : readString n ⟨[], t⟩ = (.err t, ⟨[], t⟩) := by
  unfold readString Wire.readBytesFull Wire.readUint64
  apply M.bind_err
  apply M.bind_err
  unfold Wire.readFull
  rw [if_neg (by simp)]
  simp [shortErr]

/-- Closing the contents and reading the next token; closing alone does not do, it may report an error early. -/
theorem SimC.closeThen {α : Type} (n : Nat) {f : Bytes → FCoro α} {f' : Bytes → RCoro α} (hf : ∀ a, SimC (f a) (f' a)) :
    SimC (fcloseContent >>= fun _ => frd (FReader.readBytesFull n) >>= f)
      (closeContent >>= fun _ => Nar.rd (readString n) >>= f') := by
  intro b
  obtain ⟨h2, h1⟩ := BytesReader.close_any b
  have hrest : SimC (frd (FReader.readBytesFull n) >>= f) (Nar.rd (readString n) >>= f') :=
    SimC.bind (SimC.rd (Sim.readBytesFull n)) hf
  have hrem := drain_rem (b.r.fuel + 1) b (Nat.lt_succ_self _)
  rcases h1 with h1 | ⟨h1, h3, h4, h5, h6, h7, h8⟩
  · have e : Nar.closeContent.run (babs b) = .done b.close.1
        (babs ⟨b.contentLength, (BytesReader.drain (b.r.fuel + 1) b).2.rem, b.close.2⟩) := by
      simp only [Nar.closeContent, babs, h1, h2, hrem]
      rfl
    have hs : SimStep (fcloseContent.run b) (Nar.closeContent.run (babs b)) := by
      rw [e]; exact .done _ _
    exact hs.bind fun a b' => hrest b'
  · have e : Nar.closeContent.run (babs b) = .done (.ok ())
        ⟨⟨[], b.r.term⟩, b.rem - min b.rem b.r.chunks.flatten.length, b.contentLength⟩ := by
      simp only [Nar.closeContent, babs, h3]
      rfl
    have e2 : ((Nar.closeContent >>= fun _ => Nar.rd (readString n) >>= f') : RCoro α).run (babs b) =
        .done (.err b.r.term) (babs ⟨b.contentLength, (BytesReader.drain (b.r.fuel + 1) b).2.rem, b.close.2⟩) := by
      have hb : babs ⟨b.contentLength, (BytesReader.drain (b.r.fuel + 1) b).2.rem, b.close.2⟩ =
          ⟨⟨[], b.r.term⟩, b.rem - min b.rem b.r.chunks.flatten.length, b.contentLength⟩ := by
        simp only [babs, h2, h3, hrem]
      rw [hb]
      show Step.bind (Nar.closeContent.run (babs b)) _ = _
      rw [e]
      show Step.bind ((Nar.rd (readString n)).run _) _ = _
      simp only [Nar.rd, Coro.lift, readString_empty]
      rfl
    rw [e2]
    have e3 : ((fcloseContent >>= fun _ => frd (FReader.readBytesFull n) >>= f) : FCoro α).run b =
        .done (.err b.r.term) ⟨b.contentLength, (BytesReader.drain (b.r.fuel + 1) b).2.rem, b.close.2⟩ := by
      show Step.bind (fcloseContent.run b) _ = _
      simp only [fcloseContent, h1]
      rfl
    rw [e3]
    exact .done _ _

theorem SimC.expectClose (tok : Bytes) : SimC (fexpectClose tok) (expectClose tok) := by
  unfold fexpectClose Nar.expectClose
  split
  · exact SimC.pure _
  · exact SimC.fail _

theorem Sim.readString (n : Nat) : Sim (FReader.readBytesFull n) (readString n) := Sim.readBytesFull n

theorem Sim.expectString (e : Bytes) : Sim (fexpectString e) (expectString e) := by
  intro r
  obtain ⟨h1, h2⟩ := Sim.readString e.length r
  unfold fexpectString Nar.expectString
  rcases hm : FReader.readBytesFull e.length r with ⟨x, r'⟩
  rcases hm' : Wire.readString e.length r.abs with ⟨x', s'⟩
  rw [hm] at h1 h2
  rw [hm'] at h1 h2
  simp only at h1 h2
  subst h1 h2
  cases x with
  | ok t => simp only []; split <;> exact ⟨rfl, rfl⟩
  | err er => exact ⟨rfl, rfl⟩
  | panic => exact ⟨rfl, rfl⟩

theorem Sim.readPlaceholder : Sim freadPlaceholder readPlaceholder := by
  intro r
  obtain ⟨h1, h2⟩ := Sim.readBytesFull 0 r
  unfold freadPlaceholder Nar.readPlaceholder
  rcases hm : FReader.readBytesFull 0 r with ⟨x, r'⟩
  rcases hm' : Wire.readBytesFull 0 r.abs with ⟨x', s'⟩
  rw [hm] at h1 h2
  rw [hm'] at h1 h2
  simp only at h1 h2
  subst h1 h2
  cases x <;> exact ⟨rfl, rfl⟩

theorem SimC.parseContents (p : Bytes) (ex : Bool) (tok : Bytes) :
    SimC (fparseContents p ex tok) (parseContents p ex tok) := by
  unfold fparseContents Nar.parseContents
  split
  · exact SimC.fail _
  · refine SimC.bind (SimC.rd Sim.readUint64) fun n => ?_
    split
    · exact SimC.fail _
    · refine SimC.bind (SimC.setContent n (by omega)) fun _ => ?_
      refine SimC.bind (SimC.yield _) fun nx => ?_
      split
      · exact SimC.pure _
      · exact SimC.closeThen _ fun tok => SimC.expectClose tok

theorem SimC.parseRegular (p : Bytes) : SimC (fparseRegular p) (parseRegular p) := by
  unfold fparseRegular Nar.parseRegular
  refine SimC.bind (SimC.rd (Sim.readString _)) fun tok => ?_
  split
  · refine SimC.bind (SimC.rd Sim.readPlaceholder) fun _ => ?_
    exact SimC.bind (SimC.rd (Sim.readString _)) fun tok => SimC.parseContents p true tok
  · exact SimC.parseContents p false tok

theorem SimC.parseSymlink (p : Bytes) : SimC (fparseSymlink p) (parseSymlink p) := by
  unfold fparseSymlink Nar.parseSymlink
  refine SimC.bind (SimC.rd (Sim.expectString _)) fun _ => ?_
  refine SimC.bind (SimC.rd (Sim.readString _)) fun tg => ?_
  refine SimC.bind (SimC.setContent 0 (by omega)) fun _ => ?_
  refine SimC.bind (SimC.yield _) fun nx => ?_
  split
  · exact SimC.pure _
  · exact SimC.bind (SimC.rd (Sim.readString _)) fun tok => SimC.expectClose tok

theorem SimC.parse (fuel : Nat) :
    (∀ p, SimC (fparseNode fuel p) (parseNode fuel p)) ∧
      ∀ p, SimC (fparseEntries fuel p) (parseEntries fuel p) := by
  induction fuel with
  | zero =>
    constructor <;> intro p <;> simp only [fparseNode, Nar.parseNode, fparseEntries, Nar.parseEntries] <;>
      exact SimC.fail _
  | succ fuel ih =>
    constructor
    · intro p
      simp only [fparseNode, Nar.parseNode]
      refine SimC.bind (SimC.rd (Sim.expectString _)) fun _ => ?_
      refine SimC.bind (SimC.rd (Sim.expectString _)) fun _ => ?_
      refine SimC.bind (SimC.rd (Sim.readString _)) fun tok => ?_
      split
      · exact SimC.parseRegular p
      split
      · exact SimC.parseSymlink p
      split
      · refine SimC.bind (SimC.setContent 0 (by omega)) fun _ => ?_
        refine SimC.bind (SimC.yield _) fun nx => ?_
        split
        · exact SimC.pure _
        · exact ih.2 p
      · exact SimC.expectClose tok
    · intro p
      simp only [fparseEntries, Nar.parseEntries]
      refine SimC.bind (SimC.rd (Sim.readString _)) fun tok => ?_
      split
      · refine SimC.bind (SimC.rd (Sim.expectString _)) fun _ => ?_
        refine SimC.bind (SimC.rd (Sim.expectString _)) fun _ => ?_
        refine SimC.bind (SimC.rd (Sim.readString _)) fun name => ?_
        split
        · exact SimC.fail _
        · refine SimC.bind (SimC.rd (Sim.expectString _)) fun _ => ?_
          refine SimC.bind (ih.1 _) fun _ => ?_
          refine SimC.bind (SimC.rd (Sim.expectString _)) fun _ => ?_
          split
          · exact SimC.pure _
          · exact ih.2 p
      split
      · exact SimC.pure _
      · exact ih.2 p

/-- The goroutines are at the same place. -/
inductive SimP : FPhase → Phase → Prop
  | start : SimP .start .start
  | waiting (k : Bool → BytesReader → Step BytesReader Header Bool Unit)
      (k' : Bool → RState → Step RState Header Bool Unit)
      (hk : ∀ i b', SimStep (k i b') (k' i (babs b'))) : SimP (.waiting k) (.waiting k')
  | finished : SimP .finished .finished
  | stuck : SimP .stuck .stuck

/-- The readers are in the same state. -/
structure SimR (f : FNarReader) (r : Reader) : Prop where
  st : r.st = babs f.st
  phase : SimP f.phase r.phase
  err : f.err = r.err
  prev : f.prev = r.prev
  closed : f.closed = r.closed

theorem simR_receive {f : FNarReader} {r : Reader} (h : SimR f r) {s : Step BytesReader Header Bool Unit}
    {s' : Step RState Header Bool Unit} (hs : SimStep s s') :
    (f.receive s).1 = (r.receive s').1 ∧ SimR (f.receive s).2 (r.receive s').2 := by
  cases hs with
  | done x b =>
    rcases x with ⟨⟨⟩⟩ | e | _
    · exact ⟨rfl, rfl, .finished, rfl, h.prev, h.closed⟩
    · exact ⟨rfl, rfl, .finished, rfl, h.prev, h.closed⟩
    · exact ⟨rfl, rfl, .finished, h.err, h.prev, h.closed⟩
  | yield hd b k k' hk =>
    simp only [FNarReader.receive, Reader.receive, h.prev]
    split
    · exact ⟨rfl, rfl, .waiting _ _ hk, h.err, rfl, h.closed⟩
    · exact ⟨rfl, rfl, .waiting _ _ hk, rfl, rfl, h.closed⟩

theorem simR_next {f : FNarReader} {r : Reader} (h : SimR f r) :
    f.next.1 = r.next.1 ∧ SimR f.next.2 r.next.2 := by
  unfold FNarReader.next Reader.next
  rw [← h.err, ← h.closed]
  cases he : f.err with
  | some e => exact ⟨rfl, h⟩
  | none =>
    simp only []
    split
    · exact ⟨rfl, h⟩
    · unfold FNarReader.resume Reader.resume
      have hp := h.phase
      have hst := h.st
      cases hfp : f.phase with
      | start =>
        rw [hfp] at hp
        cases hrp : r.phase <;> rw [hrp] at hp <;> cases hp
        simp only []
        apply simR_receive h
        rw [hst]
        exact (SimC.parse _).1 _ _
      | waiting k =>
        rw [hfp] at hp
        cases hrp : r.phase with
        | waiting k' =>
          rw [hrp] at hp
          cases hp with
          | waiting _ _ hk =>
            simp only []
            apply simR_receive h
            rw [hst]
            exact hk true _
        | _ => rw [hrp] at hp; cases hp
      | finished =>
        rw [hfp] at hp
        cases hrp : r.phase <;> rw [hrp] at hp <;> cases hp
        exact ⟨rfl, h⟩
      | stuck =>
        rw [hfp] at hp
        cases hrp : r.phase <;> rw [hrp] at hp <;> cases hp
        exact ⟨rfl, h⟩

theorem simR_close {f : FNarReader} {r : Reader} (h : SimR f r) :
    f.close.1 = r.close.1 ∧ SimR f.close.2 r.close.2 := by
  unfold FNarReader.close Reader.close
  rw [← h.err, ← h.closed]
  split
  · exact ⟨rfl, h⟩
  split
  · exact ⟨rfl, h⟩
  · have hp := h.phase
    have hst := h.st
    cases hfp : f.phase with
    | start =>
      rw [hfp] at hp
      cases hrp : r.phase <;> rw [hrp] at hp <;> cases hp
      exact ⟨rfl, h.st, .finished, rfl, h.prev, rfl⟩
    | waiting k =>
      rw [hfp] at hp
      cases hrp : r.phase with
      | waiting k' =>
        rw [hrp] at hp
        cases hp with
        | waiting _ _ hk =>
          have hs := hk false f.st
          rw [← hst] at hs
          have key : Step.state (k' false r.st) = babs (fstate (k false f.st)) := by
            generalize k false f.st = s at hs
            generalize k' false r.st = s' at hs
            cases hs <;> rfl
          exact ⟨rfl, key, .stuck, rfl, h.prev, rfl⟩
      | _ => rw [hrp] at hp; cases hp
    | finished =>
      rw [hfp] at hp
      cases hrp : r.phase <;> rw [hrp] at hp <;> cases hp
      exact ⟨rfl, h.st, .finished, rfl, h.prev, rfl⟩
    | stuck =>
      rw [hfp] at hp
      cases hrp : r.phase <;> rw [hrp] at hp <;> cases hp
      exact ⟨rfl, h.st, .stuck, rfl, h.prev, rfl⟩

/-- A `Read` that delivered `d` is a `Read` on the stream with a buffer of that size. -/
theorem simR_read {f : FNarReader} {r : Reader} (h : SimR f r) (k : Nat) :
    SimR (f.read k).2 (r.read (f.read k).1.1.length).2 ∧
    ((r.read (f.read k).1.1.length).1 = .ok (f.read k).1.1 ∨
      (r.read (f.read k).1.1.length).1 = .err .eof ∧ (f.read k).1 = ([], some .eof)) ∧
    (f.read k).1.1.length ≤ k ∧
    ∀ e, (f.read k).1.2 = some e → ((r.read (f.read k).1.1.length).2.read 1).1 = .err e ∨
      e = f.st.r.term ∧ f.st.r.eager = true ∧ (f.read k).1.1 ≠ [] ∧ (f.read k).2.st.r.chunks = [] ∧ (f.read k).2.st.rem = 0 := by
  have hs := BytesReader.read_spec f.st k
  have hfr : f.read k = ((f.st.read k).1, { f with st := (f.st.read k).2 }) := rfl
  have hzero : f.st.rem = 0 → f.st.read k = (([], some .eof), f.st) := by
    intro h0; unfold BytesReader.read; rw [if_pos h0]
  have hclean : ∀ e, (f.st.read k).1.2 = some e → (f.st.read k).1.1 ≠ [] → f.st.rem ≠ 0 →
      f.st.r.eager = true := by
    intro e he hd h0
    have hsp := FReader.read_spec f.st.r (min k f.st.rem)
    have : (f.st.read k).1 = (f.st.r.read (min k f.st.rem)).1 := by
      unfold BytesReader.read; rw [if_neg h0]
    rw [this] at he hd
    exact hsp.eager_err e he hd
  rw [hfr]
  rcases hr : f.st.read k with ⟨⟨d, e⟩, b'⟩
  rw [hr] at hs hzero hclean
  have hs : BRead f.st k d e b' := hs
  simp only []
  have hst := h.st
  have hrem : r.st.rem = f.st.rem := by rw [hst]; rfl
  have hdat : r.st.stream.data = f.st.r.chunks.flatten := by rw [hst]; rfl
  have hterm : r.st.stream.term = f.st.r.term := by rw [hst]; rfl
  have hlen : r.st.len = f.st.contentLength := by rw [hst]; rfl
  by_cases h0 : f.st.rem = 0
  · have hz := hzero h0
    simp only [Prod.mk.injEq] at hz
    obtain ⟨⟨rfl, rfl⟩, rfl⟩ := hz
    have hrd : ∀ j, r.read j = (.err .eof, r) := by
      intro j; unfold Reader.read; rw [if_pos (by omega)]
    simp only [hrd]
    refine ⟨h, .inr ⟨trivial, trivial⟩, by simp, ?_⟩
    intro e he; simp at he; rw [he]; exact .inl rfl
  · have hre := hs.rem
    have htake : r.st.stream.data.take (min d.length r.st.rem) = d := by
      rw [hdat, hs.data, Nat.min_eq_left (by omega), List.take_left]
    have hrd : r.read d.length = (.ok d, { r with st := ⟨⟨r.st.stream.data.drop d.length, r.st.stream.term⟩,
        r.st.rem - d.length, r.st.len⟩ }) := by
      unfold Reader.read
      rw [if_neg (by omega), htake]
      simp only []
      rw [if_neg]
      rintro ⟨rfl, h2⟩; exact h2 rfl
    have hst' : (⟨⟨r.st.stream.data.drop d.length, r.st.stream.term⟩, r.st.rem - d.length, r.st.len⟩ : RState)
        = babs b' := by
      simp only [babs, FReader.abs, RState.mk.injEq, Stream.mk.injEq]
      refine ⟨⟨?_, ?_⟩, ?_, ?_⟩
      · rw [hdat, hs.data, List.drop_left]
      · rw [hterm, hs.term]
      · omega
      · rw [hlen, hs.cl]
    rw [hrd]
    refine ⟨⟨hst', h.phase, h.err, h.prev, h.closed⟩, .inl rfl, hs.len, ?_⟩
    intro t ht
    subst ht
    rcases hs.err t rfl with ⟨_, _, h3⟩ | ⟨h1, h2⟩
    · exact absurd h3 h0
    · simp only [hst']
      unfold Reader.read
      simp only [babs, FReader.abs, h2]
      by_cases hb0 : b'.rem = 0
      · rw [if_pos hb0]
        have hd : d ≠ [] := by rintro rfl; simp at hre; omega
        exact .inr ⟨h1, hclean t rfl hd h0, hd, trivial, hb0⟩
      · rw [if_neg hb0]
        left
        simp [h1, hs.term]

end Verif.Nar
