import Verif.Lemmas.Pool

/-!
# C128: goroutines that use `pkg/wire` at the same time do not disturb each other
-/

namespace Verif.Props
open Verif.Pool
open Verif.Wire hiding readBool writePadding writeBytes readBytesFull

/-- Whatever the pooled buffers contain, whichever of them `Get` delivers and however the goroutines are scheduled: a
goroutine that has finished has computed what it computes alone, and its reader and writer are as if it had been alone. -/
theorem C128_alone {α : Type} {progs : Nat → Prog α} {devs : Nat → Dev} {c c' : Conf α} (hs : Start progs devs c)
    (hr : Reach c c') {i : Nat} {a : α} {d : Dev} (hi : c'.threads i = ⟨.at (.done a), d⟩) :
    (progs i).alone (devs i) = (a, d) := by
  have h := (hs.inv.reach hr).good i
  rw [hi] at h
  exact h.symm

/-- At no time do two goroutines use the same buffer, or one that is in the pool. -/
theorem C128_exclusive {α : Type} {progs : Nat → Prog α} {devs : Nat → Dev} {c c' : Conf α} (hs : Start progs devs c)
    (hr : Reach c c') :
    c'.pool.Nodup ∧ ∀ i b, (c'.threads i).pc.buf = some b →
      b ∉ c'.pool ∧ ∀ j, (c'.threads j).pc.buf = some b → j = i := by
  have h := hs.inv.reach hr
  exact ⟨h.once, fun i b hb => ⟨(h.held i b hb).2, fun j hj => h.excl j i b hj hb⟩⟩

theorem _root_.Verif.Pool.Reach.trans {α : Type} {c c1 c2 : Conf α} (h : Reach c c1) (h2 : Reach c1 c2) : Reach c c2 := by
  induction h2 with
  | refl => exact h
  | step _ hs ih => exact .step ih hs

/-- Goroutine `i` can get to a state with property `P` while nobody else moves. -/
def Can {α : Type} (i : Nat) (c : Conf α) (P : Conf α → Thread α → Prop) : Prop :=
  ∃ c', Reach c c' ∧ P c' (c'.threads i) ∧ ∀ j, j ≠ i → c'.threads j = c.threads j

theorem Can.step {α : Type} {i : Nat} {c c1 : Conf α} {P : Conf α → Thread α → Prop} (hs : Step c c1)
    (ho : ∀ j, j ≠ i → c1.threads j = c.threads j) (h : Can i c1 P) : Can i c P := by
  obtain ⟨c', h1, h2, h3⟩ := h
  exact ⟨c', (Reach.step .refl hs).trans h1, h2, fun j hj => (h3 j hj).trans (ho j hj)⟩

theorem Can.now {α : Type} {i : Nat} {c : Conf α} {P : Conf α → Thread α → Prop} (h : P c (c.threads i)) : Can i c P :=
  ⟨c, .refl, h, fun _ _ => rfl⟩

/-- A goroutine finishes when it is left alone. -/
def Ends {α : Type} (i : Nat) (c : Conf α) : Prop := Can i c fun _ t => ∃ a d, t = ⟨.at (.done a), d⟩

theorem ends_leaving {α : Type} {i b : Nat} {x : Out} {k : Out → Prog α}
    (ih : ∀ (c : Conf α) d, c.threads i = ⟨.at (k x), d⟩ → Ends i c) (c : Conf α) (d : Dev)
    (hi : c.threads i = ⟨.leaving b x k, d⟩) : Ends i c :=
  Can.step (Step.leave hi) (fun j hj => set_other _ _ _ _ hj) (ih _ d (set_same _ _ _))

theorem ends_looking {α : Type} {i b got : Nat} {o : Op} {k : Out → Prog α} {e : Option Err}
    (ih : ∀ x (c : Conf α) d, c.threads i = ⟨.at (k x), d⟩ → Ends i c) (c : Conf α) (d : Dev)
    (hi : c.threads i = ⟨.looking b o k got e, d⟩) : Ends i c :=
  Can.step (Step.look hi) (fun j hj => set_other _ _ _ _ hj) (ends_leaving (ih _) _ d (set_same _ _ _))

/-- The loop of `io.ReadFull` ends: the reader delivers only so many pieces. -/
theorem ends_reading {α : Type} {i b : Nat} {o : Op} {k : Out → Prog α}
    (ih : ∀ x (c : Conf α) d, c.threads i = ⟨.at (k x), d⟩ → Ends i c) (n : Nat) :
    ∀ (c : Conf α) (d : Dev) (got : Nat), d.r.fuel < n → c.threads i = ⟨.reading b o k got, d⟩ → Ends i c := by
  induction n with
  | zero => intro c d got hf; omega
  | succ n ihn =>
    intro c d got hf hi
    by_cases hg : got < 8 - o.off
    · have hs := FReader.read_spec d.r (8 - o.off - got)
      have hl := hs.len
      have hlen : o.off + got + (d.r.read (8 - o.off - got)).1.1.length +
          (List.replicate (8 - o.off - got - (d.r.read (8 - o.off - got)).1.1.length) (0 : UInt8)).length = 8 := by
        simp; omega
      refine Can.step (Step.read hi hg hlen) (fun j hj => set_other _ _ _ _ hj) ?_
      cases he : (d.r.read (8 - o.off - got)).1.2 with
      | none =>
        have := hs.dec he (by omega)
        exact ihn _ { d with r := (d.r.read (8 - o.off - got)).2 } _ (show (d.r.read (8 - o.off - got)).2.fuel < n by omega) (set_same _ _ _)
      | some e => exact ends_looking ih _ _ (set_same _ _ _)
    · exact Can.step (Step.full hi (by omega)) (fun j hj => set_other _ _ _ _ hj) (ends_looking ih _ d (set_same _ _ _))

theorem ends_writing {α : Type} {i b : Nat} {k : Out → Prog α}
    (ih : ∀ x (c : Conf α) d, c.threads i = ⟨.at (k x), d⟩ → Ends i c) (c : Conf α) (d : Dev) (sent : Nat) (hs : sent ≤ 8)
    (hi : c.threads i = ⟨.writing b k sent, d⟩) : Ends i c := by
  have last : ∀ (c : Conf α) d, c.threads i = ⟨.writing b k 8, d⟩ → Ends i c := fun c d hi =>
    Can.step (Step.written hi) (fun j hj => set_other _ _ _ _ hj) (ends_leaving (ih _) _ d (set_same _ _ _))
  by_cases h8 : sent = 8
  · subst h8; exact last c d hi
  · refine Can.step (Step.write hi (j := 8 - sent) (by omega)) (fun j hj => set_other _ _ _ _ hj) ?_
    cases he : (d.w.write (((c.heap b).drop sent).take (8 - sent))).1.2 with
    | none =>
      refine last _ { d with w := (d.w.write (((c.heap b).drop sent).take (8 - sent))).2 } ?_
      have : sent + (8 - sent) = 8 := by omega
      rw [this]
      exact set_same _ _ _
    | some e => exact ends_leaving (ih _) _ _ (set_same _ _ _)

theorem ends_holding {α : Type} {i b : Nat} {o : Op} {k : Out → Prog α}
    (ih : ∀ x (c : Conf α) d, c.threads i = ⟨.at (k x), d⟩ → Ends i c) (c : Conf α) (d : Dev)
    (hi : c.threads i = ⟨.holding b o k, d⟩) : Ends i c := by
  cases o with
  | writeUint64 n =>
    exact Can.step (Step.put hi) (fun j hj => set_other _ _ _ _ hj) (ends_writing ih _ d 0 (by omega) (set_same _ _ _))
  | readUint64 =>
    exact Can.step (Step.begin hi (by intro n h; cases h)) (fun j hj => set_other _ _ _ _ hj)
      (ends_reading ih (d.r.fuel + 1) _ d 0 (by omega) (set_same _ _ _))
  | readPadding m =>
    exact Can.step (Step.begin hi (by intro n h; cases h)) (fun j hj => set_other _ _ _ _ hj)
      (ends_reading ih (d.r.fuel + 1) _ d 0 (by omega) (set_same _ _ _))

theorem ends_at {α : Type} (i : Nat) (p : Prog α) : ∀ (c : Conf α) (d : Dev), c.threads i = ⟨.at p, d⟩ → Ends i c := by
  induction p with
  | done a => intro c d hi; exact Can.now ⟨a, d, hi⟩
  | own f k ih =>
    intro c d hi
    exact Can.step (Step.own hi) (fun j hj => set_other _ _ _ _ hj) (ih d _ (f d) (set_same _ _ _))
  | call o k ih =>
    intro c d hi
    cases hd : o.direct with
    | true =>
      exact Can.step (Step.skip hi hd) (fun j hj => set_other _ _ _ _ hj) (ih _ _ d (set_same _ _ _))
    | false =>
      exact Can.step (Step.new hi hd) (fun j hj => set_other _ _ _ _ hj) (ends_holding ih _ d (set_same _ _ _))

/-- No goroutine ever waits for another one: from every configuration that can be reached, each goroutine can finish while
no other one moves, wherever the others were stopped. -/
theorem C128_no_waiting {α : Type} {progs : Nat → Prog α} {devs : Nat → Dev} {c c' : Conf α} (hs : Start progs devs c)
    (hr : Reach c c') (i : Nat) :
    ∃ c'' a d, Reach c' c'' ∧ c''.threads i = ⟨.at (.done a), d⟩ ∧ ∀ j, j ≠ i → c''.threads j = c'.threads j := by
  have key : Ends i c' := by
    have hg := (hs.inv.reach hr).good i
    rcases hi : c'.threads i with ⟨pc, d⟩
    rw [hi] at hg
    cases pc with
    | «at» p => exact ends_at i p c' d hi
    | holding b o k => exact ends_holding (fun x => ends_at i (k x)) c' d hi
    | reading b o k got => exact ends_reading (fun x => ends_at i (k x)) (d.r.fuel + 1) c' d got (by omega) hi
    | looking b o k got e => exact ends_looking (fun x => ends_at i (k x)) c' d hi
    | writing b k sent => exact ends_writing (fun x => ends_at i (k x)) c' d sent hg.1 hi
    | leaving b x k => exact ends_leaving (ends_at i (k x)) c' d hi
  obtain ⟨c'', h1, ⟨a, d, h2⟩, h3⟩ := key
  exact ⟨c'', a, d, h1, h2, h3⟩

/-! ## The functions of the package as programs

Alone, the programs are the functions of `Model/Wire`. -/

/-- Draining a packet does not change its announced length. -/
theorem drain_contentLength : ∀ f (b : BytesReader), (BytesReader.drain f b).2.contentLength = b.contentLength := by
  intro f
  induction f with
  | zero => intro b; rfl
  | succ f ih =>
    intro b
    unfold BytesReader.drain
    have : (b.read 1024).2.contentLength = b.contentLength := by
      unfold BytesReader.read
      split
      · rfl
      · rfl
    rcases hr : b.read 1024 with ⟨⟨x, e⟩, b'⟩
    rw [hr] at this
    cases e with
    | none => exact (ih b').trans this
    | some e => simp only []; split <;> exact this

/-- `BytesReader.Close`, built from the calls that use the pool, is alone the function of Model/Wire: with its result, also
the error of the reader, and what it leaves. -/
theorem C128_close {α : Type} (d : Dev) (br : FReader → BytesReader) (hbr : ∀ r, (br r).r = r) (k : Res Unit → Prog α) :
    (closeReader br k).alone d =
      (k (BytesReader.close (br d.r)).1).alone { d with r := (BytesReader.close (br d.r)).2 } := by
  have hclose : BytesReader.close (br d.r) = (match BytesReader.drain ((br d.r).r.fuel + 1) (br d.r) with
    | (some e, br') => (.err e, br'.r)
    | (none, br') => FReader.readPadding br'.contentLength br'.r) := rfl
  rw [hbr] at hclose
  have hcl := drain_contentLength (d.r.fuel + 1) (br d.r)
  rcases hd : BytesReader.drain (d.r.fuel + 1) (br d.r) with ⟨e, br'⟩
  rw [hd] at hclose hcl
  cases e with
  | some e => simp only [closeReader, Prog.alone, hd, hclose]
  | none =>
    have hcl : br'.contentLength = (br d.r).contentLength := hcl
    simp only [closeReader, Prog.alone, Op.alone, hd, hclose]
    rw [← hcl]

/-- `ReadBool`, `WriteBytes` (and `WriteString`), `ReadBytesFull` (and `ReadString`) built from the calls that use the pool
compute, alone, what the models of these functions compute; so C128_alone is about them too. -/
theorem C128_functions {α : Type} (d : Dev) :
    (∀ k : Res Bool → Prog α, (readBool k).alone d =
      (k (FReader.readBool d.r).1).alone { d with r := (FReader.readBool d.r).2 }) ∧
    (∀ (buf : Bytes) (k : Res Unit → Prog α), (writeBytes buf k).alone d =
      (k (Wire.writeBytes buf d.w).1).alone { d with w := (Wire.writeBytes buf d.w).2 }) ∧
    (∀ (maxBytes : Nat) (k : Res Bytes → Prog α), (readBytesFull maxBytes k).alone d =
      (k (FReader.readBytesFull maxBytes d.r).1).alone { d with r := (FReader.readBytesFull maxBytes d.r).2 }) := by
  refine ⟨fun k => ?_, fun buf k => ?_, fun maxBytes k => ?_⟩
  · have hb : FReader.readBool d.r = (FReader.readUint64 >>= fun n =>
        if n ≠ 0 ∧ n ≠ 1 then M.fail (.msg "invalid value for boolean") else pure (n == 1)) d.r := rfl
    rcases hx : FReader.readUint64 d.r with ⟨x, r'⟩
    cases x with
    | ok n =>
      rw [hb, M.bind_ok hx]
      simp only [readBool, Prog.alone, Op.alone, hx]
      split <;> rfl
    | err e => rw [hb, M.bind_err hx]; simp only [readBool, Prog.alone, Op.alone, hx]
    | panic => rw [hb, M.bind_panic hx]; simp only [readBool, Prog.alone, Op.alone, hx]
  · have hb : Wire.writeBytes buf d.w = (Wire.writeUint64 buf.length >>= fun _ => writeAll buf >>= fun _ =>
        Wire.writePadding buf.length) d.w := rfl
    rcases hx : Wire.writeUint64 buf.length d.w with ⟨x, w'⟩
    cases x with
    | err e => rw [hb, M.bind_err hx]; simp only [writeBytes, Prog.alone, Op.alone, hx]
    | panic => rw [hb, M.bind_panic hx]; simp only [writeBytes, Prog.alone, Op.alone, hx]
    | ok u =>
      rw [hb, M.bind_ok hx]
      simp only [writeBytes, Prog.alone, Op.alone, hx, writeOwn]
      rcases hy : writeAll buf w' with ⟨y, w''⟩
      cases y with
      | err e => rw [M.bind_err hy]
      | panic => rw [M.bind_panic hy]
      | ok u =>
        rw [M.bind_ok hy]
        simp only [writePadding, Wire.writePadding]
        split
        · simp only [writeOwn, Prog.alone]
        · rfl
  · have hb : FReader.readBytesFull maxBytes d.r = (FReader.readUint64 >>= fun n =>
        if n > maxBytes then M.fail (.msg "content length exceeds maximum")
        else if 2 ^ 63 ≤ n then M.panic
        else FReader.readContent n) d.r := rfl
    rcases hx : FReader.readUint64 d.r with ⟨x, r'⟩
    cases x with
    | err e => rw [hb, M.bind_err hx]; simp only [readBytesFull, Prog.alone, Op.alone, hx]
    | panic => rw [hb, M.bind_panic hx]; simp only [readBytesFull, Prog.alone, Op.alone, hx]
    | ok n =>
      rw [hb, M.bind_ok hx]
      simp only [readBytesFull, Prog.alone, Op.alone, hx]
      split
      · rfl
      · split
        · rfl
        · simp only [Prog.alone, closeReader, FReader.readContent]
          rcases hl : BytesReader.readLoop (r'.fuel + 1) (newBytesReader r' n) n [] with ⟨⟨dd, e⟩, br⟩
          have hclose : BytesReader.close br = (match BytesReader.drain (br.r.fuel + 1) br with
            | (some e, br') => (.err e, br'.r)
            | (none, br') => FReader.readPadding br'.contentLength br'.r) := rfl
          simp only []
          have hc : ∀ f (b : BytesReader), (BytesReader.drain f b).2.contentLength = b.contentLength := by
            intro f
            induction f with
            | zero => intro b; rfl
            | succ f ih =>
              intro b
              unfold BytesReader.drain
              have : (b.read 1024).2.contentLength = b.contentLength := by
                unfold BytesReader.read
                split
                · rfl
                · rfl
              rcases hr : b.read 1024 with ⟨⟨x, e⟩, b'⟩
              rw [hr] at this
              cases e with
              | none => exact (ih b').trans this
              | some e => simp only []; split <;> exact this
          have hcl := hc (br.r.fuel + 1) br
          rcases hd : BytesReader.drain (br.r.fuel + 1) br with ⟨e2, br2⟩
          rw [hd] at hcl hclose
          have heta : ({ br with r := br.r } : BytesReader) = br := rfl
          simp only [heta, hd]
          have hcl : br2.contentLength = br.contentLength := hcl
          cases e2 with
          | some e2 =>
            simp only [hclose]
            split
            · rfl
            · cases e <;> rfl
          | none =>
            simp only [Prog.alone, Op.alone, hclose]
            rw [← hcl]
            split
            · rfl
            · cases e <;> rfl

/-! ## A case -/

/-- Goroutine 0 reads a number that arrives in two pieces, goroutine 1 writes the string "hi", the others do nothing. -/
def sampleProgs : Nat → Prog (Res Nat)
  | 0 => .call .readUint64 fun
    | .num r => .done r
    | .unit _ => .done .panic
  | 1 => writeBytes b!"hi" fun
    | .ok () => .done (.ok 0)
    | .err e => .done (.err e)
    | .panic => .done .panic
  | _ => .done (.ok 7)

def sampleDevs : Nat → Dev := fun _ => ⟨⟨[[5, 1, 0], [], [0, 0, 0, 0, 0, 9]], .eof, false⟩, ⟨[], none⟩⟩

/-- The pool holds two used buffers with old contents. -/
def sampleConf : Conf (Res Nat) where
  threads i := ⟨.at (sampleProgs i), sampleDevs i⟩
  heap b := if b = 0 then [1, 2, 3, 4, 5, 6, 7, 8] else [255, 255, 255, 255, 255, 255, 255, 255]
  pool := [0, 1]
  fresh := 2

theorem sampleStart : Start sampleProgs sampleDevs sampleConf where
  threads _ := rfl
  once := by decide
  allocated := by decide
  eight b _ := by simp only [sampleConf]; split <;> rfl

/-- Goroutine 0 is stopped in the middle of its read into buffer 0, goroutine 1 runs to its end; then goroutine 0 goes on,
and gets what it gets alone. -/
example : ∃ c1 c2 : Conf (Res Nat), Reach sampleConf c1 ∧ (c1.threads 0).pc.buf = some 0 ∧
    (∃ d, c1.threads 1 = ⟨.at (.done (.ok 0)), d⟩ ∧ d.w.out = [2, 0, 0, 0, 0, 0, 0, 0, 104, 105, 0, 0, 0, 0, 0, 0]) ∧
    Reach c1 c2 ∧ ∃ d, c2.threads 0 = ⟨.at (.done (.ok (5 + 256))), d⟩ := by
  have h1 : Reach sampleConf _ := .step .refl (Step.get (i := 0) (b := 0) rfl rfl (by decide))
  have h2 : Reach sampleConf _ := .step h1 (Step.begin (set_same _ _ _) (by intro n h; cases h))
  have h3 : Reach sampleConf _ := .step h2 (Step.read (junk := [66, 66, 66, 66, 66]) (set_same _ _ _) (by decide) (by decide))
  obtain ⟨c1, a1, d1, hr1, hd1, ho1⟩ := C128_no_waiting sampleStart h3 1
  have hall := h3.trans hr1
  have e1 := C128_alone sampleStart hall hd1
  have v1 : (sampleProgs 1).alone (sampleDevs 1) = (.ok 0, ⟨⟨[[5, 1, 0], [], [0, 0, 0, 0, 0, 9]], .eof, false⟩,
    ⟨[2, 0, 0, 0, 0, 0, 0, 0, 104, 105, 0, 0, 0, 0, 0, 0], none⟩⟩) := by decide +kernel
  rw [v1] at e1
  cases e1
  obtain ⟨c2, a2, d2, hr2, hd2, _⟩ := C128_no_waiting sampleStart hall 0
  have e2 := C128_alone sampleStart (hall.trans hr2) hd2
  have v2 : ((sampleProgs 0).alone (sampleDevs 0)).1 = .ok (5 + 256) := by decide +kernel
  rw [e2] at v2
  refine ⟨c1, c2, hall, ?_, ⟨_, hd1, rfl⟩, hr2, d2, ?_⟩
  · rw [ho1 0 (by decide)]
    rfl
  · rw [hd2]
    exact congrArg (fun x => (⟨.at (.done x), d2⟩ : Thread (Res Nat))) v2

end Verif.Props
