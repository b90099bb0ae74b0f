import Verif.Spec.Pool
import Verif.Lemmas.WireFrag

namespace Verif.Pool
open Verif.Wire

/-- What a call returns when `io.ReadFull` delivered `d` and ended with `e`. -/
def Op.seen (o : Op) (d : Bytes) (e : Option Err) : Out :=
  let err : Err := match e with
    | some e => shortErr d.length e
    | none => .io
  match o with
  | .readUint64 => if 8 - o.off ≤ d.length then .num (.ok (getUint64 d)) else .num (.err err)
  | _ =>
    if 8 - o.off ≤ d.length then
      if d.all (· == 0) then .unit (.ok ()) else .unit (.err (.msg "invalid padding"))
    else .unit (.err err)

theorem off_lt (o : Op) : o.off < 8 := by cases o <;> simp [Op.off]; omega

/-- The result of `io.ReadFull` from that of its loop. -/
def full (k : Nat) (X : (Bytes × Option Err) × FReader) : Res Bytes × FReader :=
  if k ≤ X.1.1.length then (.ok X.1.1, X.2)
  else match X.1.2 with
    | some e => (.err (shortErr X.1.1.length e), X.2)
    | none => (.err .io, X.2)

theorem readFull_full (k : Nat) (r : FReader) :
    FReader.readFull k r = full k (FReader.readLoop (r.fuel + 1) r k []) := by
  unfold FReader.readFull full
  rfl

theorem seen_num {r : FReader} (w : Sink) (X : (Bytes × Option Err) × FReader) (hf : FReader.readFull 8 r = full 8 X) :
    (Out.num (FReader.readUint64 r).1, (⟨(FReader.readUint64 r).2, w⟩ : Dev)) =
      (Op.readUint64.seen X.1.1 X.1.2, ⟨X.2, w⟩) := by
  have hb : FReader.readUint64 r = (FReader.readFull 8 >>= fun b => pure (getUint64 b)) r := rfl
  rcases X with ⟨⟨x, e⟩, r'⟩
  simp only [full] at hf
  simp only [Op.seen, Op.off, hb, Nat.sub_zero]
  split at hf
  · rename_i hl
    rw [M.bind_ok hf]
    simp [hl]
  · rename_i hl
    cases e with
    | none => rw [M.bind_err hf]; simp [hl]
    | some e => rw [M.bind_err hf]; simp [hl]

theorem seen_unit {r : FReader} (w : Sink) (n : Nat) (hn : ¬ n % 8 = 0) (X : (Bytes × Option Err) × FReader)
    (hf : FReader.readFull (8 - n % 8) r = full (8 - n % 8) X) :
    (Out.unit (FReader.readPadding n r).1, (⟨(FReader.readPadding n r).2, w⟩ : Dev)) =
      ((Op.readPadding n).seen X.1.1 X.1.2, ⟨X.2, w⟩) := by
  have hb : FReader.readPadding n r = (FReader.readFull (8 - n % 8) >>= fun b =>
      if b.all (· == 0) then pure () else M.fail (.msg "invalid padding")) r := by
    unfold FReader.readPadding
    rw [if_neg hn]
  rcases X with ⟨⟨x, e⟩, r'⟩
  simp only [full] at hf
  simp only [Op.seen, Op.off, hb]
  split at hf
  · rename_i hl
    rw [M.bind_ok hf]
    simp only [hl, if_true]
    by_cases hz : x.all (· == 0) = true
    · simp only [hz, if_true]; rfl
    · simp only [hz]; rfl
  · rename_i hl
    cases e with
    | none => rw [M.bind_err hf]; simp [hl]
    | some e => rw [M.bind_err hf]; simp [hl]

/-- A reading call alone is the loop of `io.ReadFull`, then the evaluation. -/
theorem alone_read (o : Op) (ho : ∀ n, o ≠ .writeUint64 n) (hd : o.direct = false) (d : Dev) :
    o.alone d = (o.seen (FReader.readLoop (d.r.fuel + 1) d.r (8 - o.off) []).1.1
        (FReader.readLoop (d.r.fuel + 1) d.r (8 - o.off) []).1.2,
      { d with r := (FReader.readLoop (d.r.fuel + 1) d.r (8 - o.off) []).2 }) := by
  cases o with
  | writeUint64 n => exact absurd rfl (ho n)
  | readUint64 => exact seen_num d.w _ (readFull_full 8 d.r)
  | readPadding n =>
    simp only [Op.direct, decide_eq_false_iff_not] at hd
    exact seen_unit d.w n hd _ (readFull_full _ d.r)

theorem alone_direct (o : Op) (hd : o.direct = true) (d : Dev) : o.alone d = (.unit (.ok ()), d) := by
  cases o with
  | readUint64 => simp [Op.direct] at hd
  | writeUint64 n => simp [Op.direct] at hd
  | readPadding n =>
    simp only [Op.direct, decide_eq_true_eq] at hd
    simp only [Op.alone, FReader.readPadding, if_pos hd]
    rfl

/-- More rounds than the reader can deliver pieces do not matter. -/
theorem readLoop_mono (n m : Nat) (r : FReader) (k : Nat) (acc : Bytes) (hn : r.fuel < n) (hm : r.fuel < m) :
    FReader.readLoop n r k acc = FReader.readLoop m r k acc := by
  induction n generalizing m r acc with
  | zero => omega
  | succ n ih =>
    cases m with
    | zero => omega
    | succ m =>
      unfold FReader.readLoop
      split
      · rename_i hlt
        have hs := FReader.read_spec r (k - acc.length)
        rcases hr : r.read (k - acc.length) with ⟨⟨d, e⟩, r'⟩
        rw [hr] at hs
        cases e with
        | some e => rfl
        | none =>
          have := hs.dec rfl (by omega)
          simp only [] at this
          exact ih m r' (acc ++ d) (by omega) (by omega)
      · rfl

/-- One round of the loop of `io.ReadFull`; the bound stays sufficient. -/
theorem readLoop_step (r : FReader) (k : Nat) (acc : Bytes) (h : acc.length < k) :
    FReader.readLoop (r.fuel + 1) r k acc =
      match (r.read (k - acc.length)).1.2 with
      | none => FReader.readLoop ((r.read (k - acc.length)).2.fuel + 1) (r.read (k - acc.length)).2 k
          (acc ++ (r.read (k - acc.length)).1.1)
      | some e => ((acc ++ (r.read (k - acc.length)).1.1, some e), (r.read (k - acc.length)).2) := by
  have hs := FReader.read_spec r (k - acc.length)
  rw [FReader.readLoop, if_pos h]
  rcases hr : r.read (k - acc.length) with ⟨⟨d, e⟩, r'⟩
  rw [hr] at hs
  cases e with
  | some e => rfl
  | none =>
    have := hs.dec rfl (by omega)
    replace this : r'.fuel < r.fuel := this
    exact readLoop_mono r.fuel (r'.fuel + 1) r' k (acc ++ d) this (by omega)

theorem readLoop_full (r : FReader) (k : Nat) (acc : Bytes) (h : k ≤ acc.length) :
    FReader.readLoop (r.fuel + 1) r k acc = ((acc, none), r) := by
  simp only [FReader.readLoop, if_neg (Nat.not_lt.2 h)]

/-! ## Pieces of a write -/

theorem write_append (w : Sink) (p q : Bytes) :
    writeAll (p ++ q) w = match (w.write p).1.2 with
      | none => writeAll q (w.write p).2
      | some e => (.err e, (w.write p).2) := by
  rcases w with ⟨out, budget⟩
  cases budget with
  | none => simp [writeAll, Sink.write]
  | some n =>
    simp only [writeAll, Sink.write]
    by_cases h : p.length ≤ n
    · simp only [h, if_true]
      by_cases h2 : q.length ≤ n - p.length
      · have : (p ++ q).length ≤ n := by simp; omega
        simp only [this, h2, if_true]
        simp; omega
      · have : ¬ (p ++ q).length ≤ n := by simp; omega
        simp only [this, h2, if_false]
        simp only [List.take_append, List.append_assoc, List.take_of_length_le h]
    · have : ¬ (p ++ q).length ≤ n := by simp; omega
      simp only [this, h, if_false]
      simp only [List.take_append, show n - p.length = 0 by omega]
      simp

theorem writeAll_nil (w : Sink) : writeAll [] w = (.ok (), w) := by
  rcases w with ⟨out, budget⟩
  cases budget <;> simp [writeAll, Sink.write]

/-! ## The invariant -/

/-- What is left for a goroutine to do leads to `res`, as far as its own devices and its own buffer say. -/
def Good {α : Type} (heap : Nat → Bytes) (t : Thread α) (res : α × Dev) : Prop :=
  match t.pc with
  | .at p => p.alone t.dev = res
  | .holding _ o k => o.direct = false ∧ (k (o.alone t.dev).1).alone (o.alone t.dev).2 = res
  | .reading b o k got =>
    got ≤ 8 - o.off ∧
    (k (o.seen (FReader.readLoop (t.dev.r.fuel + 1) t.dev.r (8 - o.off) (((heap b).drop o.off).take got)).1.1
        (FReader.readLoop (t.dev.r.fuel + 1) t.dev.r (8 - o.off) (((heap b).drop o.off).take got)).1.2)).alone
      { t.dev with
        r := (FReader.readLoop (t.dev.r.fuel + 1) t.dev.r (8 - o.off) (((heap b).drop o.off).take got)).2 } = res
  | .looking b o k got e =>
    got ≤ 8 - o.off ∧ (k (o.seen (((heap b).drop o.off).take got) e)).alone t.dev = res
  | .writing b k sent =>
    sent ≤ 8 ∧ (k (.unit (writeAll ((heap b).drop sent) t.dev.w).1)).alone
      { t.dev with w := (writeAll ((heap b).drop sent) t.dev.w).2 } = res
  | .leaving _ x k => (k x).alone t.dev = res

theorem Good.frame {α : Type} {heap heap' : Nat → Bytes} {t : Thread α} {res : α × Dev} (h : Good heap t res)
    (hb : ∀ b, t.pc.buf = some b → heap' b = heap b) : Good heap' t res := by
  rcases t with ⟨pc, d⟩
  cases pc <;> simp only [Good, PC.buf] at * <;> first | exact h | (rw [hb _ rfl]; exact h)

structure Inv {α : Type} (res : Nat → α × Dev) (c : Conf α) : Prop where
  once : c.pool.Nodup
  allocated : ∀ b ∈ c.pool, b < c.fresh
  eight : ∀ b, b < c.fresh → (c.heap b).length = 8
  held : ∀ i b, (c.threads i).pc.buf = some b → b < c.fresh ∧ b ∉ c.pool
  excl : ∀ i j b, (c.threads i).pc.buf = some b → (c.threads j).pc.buf = some b → i = j
  good : ∀ i, Good c.heap (c.threads i) (res i)

theorem set_same {β : Type} (f : Nat → β) (i : Nat) (x : β) : set f i x i = x := by simp [set]
theorem set_other {β : Type} (f : Nat → β) (i j : Nat) (x : β) (h : j ≠ i) : set f i x j = f j := by simp [set, h]

/-- A step of goroutine `i` that keeps its buffer (or returns without one). -/
theorem Inv.keep {α : Type} {res : Nat → α × Dev} {c : Conf α} (h : Inv res c) (i : Nat) (pc : PC α) (d : Dev)
    (heap : Nat → Bytes) (hbuf : pc.buf = (c.threads i).pc.buf)
    (hheap : ∀ b, (c.threads i).pc.buf ≠ some b → heap b = c.heap b)
    (hlen : ∀ b, (c.threads i).pc.buf = some b → (heap b).length = 8)
    (hg : Good heap ⟨pc, d⟩ (res i)) :
    Inv res { c.goto i pc d with heap := heap } := by
  have hb : ∀ j, (set c.threads i ⟨pc, d⟩ j).pc.buf = (c.threads j).pc.buf := by
    intro j
    by_cases hj : j = i
    · subst hj; rw [set_same]; exact hbuf
    · rw [set_other _ _ _ _ hj]
  refine ⟨h.once, h.allocated, ?_, ?_, ?_, ?_⟩
  · intro b hlt
    by_cases he : (c.threads i).pc.buf = some b
    · exact hlen b he
    · exact (congrArg List.length (hheap b he)).trans (h.eight b hlt)
  · intro j b hj
    exact h.held j b ((hb j).symm.trans hj)
  · intro j k b hj hk
    exact h.excl j k b ((hb j).symm.trans hj) ((hb k).symm.trans hk)
  · intro j
    show Good heap (set c.threads i ⟨pc, d⟩ j) (res j)
    by_cases hj : j = i
    · subst hj; rw [set_same]; exact hg
    · rw [set_other _ _ _ _ hj]
      refine (h.good j).frame fun b he => hheap b fun h2 => hj (h.excl j i b he h2)

theorem result_seen (o : Op) (buf : Bytes) (got : Nat) (e : Option Err) (hl : buf.length = 8) (hg : got ≤ 8 - o.off) :
    o.result buf got e = o.seen ((buf.drop o.off).take got) e := by
  have ho := off_lt o
  have hlen : ((buf.drop o.off).take got).length = got := by simp; omega
  unfold Op.result Op.seen
  simp only [hlen]
  by_cases h : 8 - o.off ≤ got
  · have hb : (buf.drop o.off).take got = buf.drop o.off := List.take_of_length_le (by simp; omega)
    cases o with
    | readUint64 =>
      simp only [h, if_true, hb]
      simp [Op.off]
    | readPadding n => simp only [h, if_true, hb]
    | writeUint64 n => simp only [h, if_true, hb]
  · simp only [h, if_false]
    cases o <;> rfl

/-- A goroutine takes a buffer that is not held by anyone. -/
theorem Inv.take {α : Type} {res : Nat → α × Dev} {c : Conf α} (h : Inv res c) (i : Nat) (o : Op)
    (k : Out → Prog α) (d : Dev) (b : Nat) (heap : Nat → Bytes) (pool : List Nat) (fresh : Nat)
    (hi : c.threads i = ⟨.at (.call o k), d⟩) (hd : o.direct = false)
    (hfree : ∀ j, (c.threads j).pc.buf ≠ some b)
    (honce : pool.Nodup) (hsub : ∀ x ∈ pool, x ∈ c.pool ∧ x ≠ b) (hfr : c.fresh ≤ fresh) (hbf : b < fresh)
    (hheap : ∀ x, x ≠ b → heap x = c.heap x) (hlen : ∀ x, x < fresh → (heap x).length = 8) :
    Inv res { threads := set c.threads i ⟨.holding b o k, d⟩, heap := heap, pool := pool, fresh := fresh } := by
  have hin : (c.threads i).pc.buf = none := by rw [hi]; rfl
  have hcases : ∀ j x, (set c.threads i ⟨.holding b o k, d⟩ j).pc.buf = some x →
      (j = i ∧ x = b) ∨ (j ≠ i ∧ (c.threads j).pc.buf = some x) := by
    intro j x hj
    by_cases h1 : j = i
    · subst h1; rw [set_same] at hj; simp only [PC.buf, Option.some.injEq] at hj; exact .inl ⟨rfl, hj.symm⟩
    · rw [set_other _ _ _ _ h1] at hj; exact .inr ⟨h1, hj⟩
  refine ⟨honce, ?_, hlen, ?_, ?_, ?_⟩
  · intro x hx
    exact Nat.lt_of_lt_of_le (h.allocated x (hsub x hx).1) hfr
  · intro j x hj
    rcases hcases j x hj with ⟨_, rfl⟩ | ⟨_, h2⟩
    · exact ⟨hbf, fun hx => (hsub _ hx).2 rfl⟩
    · exact ⟨Nat.lt_of_lt_of_le (h.held j x h2).1 hfr, fun hx => (h.held j x h2).2 (hsub x hx).1⟩
  · intro j l x hj hl
    rcases hcases j x hj with ⟨h1, h2⟩ | ⟨_, h2⟩ <;> rcases hcases l x hl with ⟨h3, h4⟩ | ⟨_, h4⟩
    · rw [h1, h3]
    · exact absurd (h2 ▸ h4) (hfree l)
    · exact absurd (h4 ▸ h2) (hfree j)
    · exact h.excl j l x h2 h4
  · intro j
    show Good heap (set c.threads i ⟨.holding b o k, d⟩ j) (res j)
    by_cases h1 : j = i
    · subst h1
      rw [set_same]
      have := h.good j
      rw [hi] at this
      exact ⟨hd, this⟩
    · rw [set_other _ _ _ _ h1]
      exact (h.good j).frame fun x hx => hheap x fun he => hfree j (he ▸ hx)

/-- Every step of every goroutine keeps the invariant. -/
theorem Inv.step {α : Type} {res : Nat → α × Dev} {c c' : Conf α} (h : Inv res c) (hs : Step c c') : Inv res c' := by
  cases hs with
  | @own i f k d hi =>
    have hg := h.good i
    rw [hi] at hg
    exact h.keep i _ _ c.heap (by rw [hi]; rfl) (fun _ _ => rfl) (by rw [hi]; simp [PC.buf]) hg
  | @skip i o k d hi hd =>
    have hg := h.good i
    rw [hi] at hg
    refine h.keep i _ _ c.heap (by rw [hi]; rfl) (fun _ _ => rfl) (by rw [hi]; simp [PC.buf]) ?_
    simp only [Good, Prog.alone, alone_direct o hd] at hg ⊢
    exact hg
  | @get i o k d b hi hd hb =>
    refine h.take i o k d b c.heap (c.pool.erase b) c.fresh hi hd (fun j hj => (h.held j b hj).2 hb)
      (h.once.erase b) ?_ (Nat.le_refl _) (h.allocated b hb) (fun _ _ => rfl) h.eight
    intro x hx
    have := (h.once.mem_erase_iff).1 hx
    exact ⟨this.2, this.1⟩
  | @new i o k d hi hd =>
    refine h.take i o k d c.fresh _ c.pool (c.fresh + 1) hi hd
      (fun j hj => Nat.lt_irrefl _ (h.held j _ hj).1) h.once ?_ (Nat.le_succ _) (Nat.lt_succ_self _)
      (fun x hx => set_other _ _ _ _ hx) ?_
    · intro x hx
      exact ⟨hx, Nat.ne_of_lt (h.allocated x hx)⟩
    · intro x hx
      by_cases he : x = c.fresh
      · subst he; rw [set_same]; simp
      · rw [set_other _ _ _ _ he]; exact h.eight x (by omega)
  | @begin i o k d b hi ho =>
    have hg := h.good i
    rw [hi] at hg
    refine h.keep i _ _ c.heap (by rw [hi]; rfl) (fun _ _ => rfl)
      (fun x hx => h.eight x (h.held i x hx).1) ?_
    obtain ⟨hd, hg⟩ := hg
    rw [alone_read o ho hd] at hg
    exact ⟨Nat.zero_le _, by simpa using hg⟩
  | @put i n k d b hi =>
    have hg := h.good i
    have hbuf : (c.threads i).pc.buf = some b := by rw [hi]; rfl
    rw [hi] at hg
    refine h.keep i _ _ _ (by rw [hi]; rfl) ?_ ?_ ?_
    · intro x hx
      exact set_other _ _ _ _ fun he => hx (he ▸ hbuf)
    · intro x hx
      rw [hbuf] at hx
      cases hx
      rw [set_same]; rfl
    · simp only [Good, set_same, List.drop_zero]
      exact ⟨by omega, hg.2⟩
  | @read i o k d b got junk hi hlt hj =>
    have hg := h.good i
    have hbuf : (c.threads i).pc.buf = some b := by rw [hi]; rfl
    have h8 := h.eight b (h.held i b hbuf).1
    rw [hi] at hg
    obtain ⟨_, hg⟩ := hg
    have ho := off_lt o
    have hacc : (((c.heap b).drop o.off).take got).length = got := by simp; omega
    have hstep := readLoop_step d.r (8 - o.off) (((c.heap b).drop o.off).take got) (by rw [hacc]; exact hlt)
    rw [hacc] at hstep
    have hnew : ((((c.heap b).take (o.off + got) ++ (d.r.read (8 - o.off - got)).1.1 ++ junk).drop o.off).take
        (got + (d.r.read (8 - o.off - got)).1.1.length)) =
        ((c.heap b).drop o.off).take got ++ (d.r.read (8 - o.off - got)).1.1 := by
      have h1 : ((c.heap b).take (o.off + got)).drop o.off = ((c.heap b).drop o.off).take got := by
        rw [List.drop_take]; congr 1; omega
      have h2 : o.off ≤ ((c.heap b).take (o.off + got)).length := by simp; omega
      rw [List.append_assoc, List.drop_append_of_le_length h2, h1, ← List.append_assoc]
      exact List.take_left' (by rw [List.length_append, hacc])
    refine h.keep i _ _ _ ?_ ?_ ?_ ?_
    · rw [hi]
      cases (d.r.read (8 - o.off - got)).1.2 <;> rfl
    · intro x hx
      exact set_other _ _ _ _ fun he => hx (he ▸ hbuf)
    · intro x hx
      rw [hbuf] at hx
      cases hx
      rw [set_same]
      simp; omega
    · simp only [] at hg
      rw [hstep] at hg
      cases he : (d.r.read (8 - o.off - got)).1.2 with
      | none =>
        rw [he] at hg
        simp only [Good, set_same, hnew]
        exact ⟨by omega, hg⟩
      | some e =>
        rw [he] at hg
        simp only [Good, set_same, hnew]
        exact ⟨by omega, hg⟩
  | @full i o k d b got hi hfull =>
    have hg := h.good i
    have hbuf : (c.threads i).pc.buf = some b := by rw [hi]; rfl
    have h8 := h.eight b (h.held i b hbuf).1
    have ho := off_lt o
    rw [hi] at hg
    obtain ⟨hle, hg⟩ := hg
    refine h.keep i _ _ c.heap (by rw [hi]; rfl) (fun _ _ => rfl)
      (fun x hx => h.eight x (h.held i x hx).1) ?_
    rw [readLoop_full _ _ _ (by simp; omega)] at hg
    exact ⟨hle, hg⟩
  | @look i o k d b got e hi =>
    have hg := h.good i
    have hbuf : (c.threads i).pc.buf = some b := by rw [hi]; rfl
    have h8 := h.eight b (h.held i b hbuf).1
    rw [hi] at hg
    obtain ⟨hle, hg⟩ := hg
    refine h.keep i _ _ c.heap (by rw [hi]; rfl) (fun _ _ => rfl)
      (fun x hx => h.eight x (h.held i x hx).1) ?_
    simp only [Good]
    rw [result_seen o _ _ _ h8 hle]
    exact hg
  | @write i k d b sent j hi hj =>
    have hg := h.good i
    rw [hi] at hg
    refine h.keep i _ _ c.heap ?_ (fun _ _ => rfl)
      (fun x hx => h.eight x (h.held i x hx).1) ?_
    · rw [hi]
      cases (d.w.write (((c.heap b).drop sent).take j)).1.2 <;> rfl
    · simp only [Good] at hg
      replace hg := hg.2
      have hsplit : (c.heap b).drop sent = ((c.heap b).drop sent).take j ++ (c.heap b).drop (sent + j) := by
        rw [← List.drop_drop, List.take_append_drop]
      rw [hsplit, write_append] at hg
      cases he : (d.w.write (((c.heap b).drop sent).take j)).1.2 with
      | none => rw [he] at hg; exact ⟨hj.2, hg⟩
      | some e => rw [he] at hg; exact hg
  | @written i k d b hi =>
    have hg := h.good i
    have hbuf : (c.threads i).pc.buf = some b := by rw [hi]; rfl
    have h8 := h.eight b (h.held i b hbuf).1
    rw [hi] at hg
    refine h.keep i _ _ c.heap (by rw [hi]; rfl) (fun _ _ => rfl)
      (fun x hx => h.eight x (h.held i x hx).1) ?_
    simp only [Good] at hg ⊢
    replace hg := hg.2
    rw [show (c.heap b).drop 8 = [] from List.drop_eq_nil_of_le (by omega), writeAll_nil] at hg
    exact hg
  | @leave i x k d b hi =>
    have hbuf : (c.threads i).pc.buf = some b := by rw [hi]; rfl
    have hcases : ∀ j y, (set c.threads i ⟨.at (k x), d⟩ j).pc.buf = some y →
        j ≠ i ∧ (c.threads j).pc.buf = some y := by
      intro j y hj
      by_cases h1 : j = i
      · subst h1; rw [set_same] at hj; simp [PC.buf] at hj
      · rw [set_other _ _ _ _ h1] at hj; exact ⟨h1, hj⟩
    refine ⟨List.nodup_cons.2 ⟨(h.held i b hbuf).2, h.once⟩, ?_, h.eight, ?_, ?_, ?_⟩
    · intro y hy
      rcases List.mem_cons.1 hy with rfl | hy
      · exact (h.held i _ hbuf).1
      · exact h.allocated y hy
    · intro j y hj
      obtain ⟨h1, h2⟩ := hcases j y hj
      refine ⟨(h.held j y h2).1, fun hy => ?_⟩
      rcases List.mem_cons.1 hy with rfl | hy
      · exact h1 (h.excl j i _ h2 hbuf)
      · exact (h.held j y h2).2 hy
    · intro j l y hj hl
      exact h.excl j l y (hcases j y hj).2 (hcases l y hl).2
    · intro j
      show Good c.heap (set c.threads i ⟨.at (k x), d⟩ j) (res j)
      by_cases h1 : j = i
      · subst h1
        rw [set_same]
        have := h.good j
        rw [hi] at this
        exact this
      · rw [set_other _ _ _ _ h1]; exact h.good j
  | drop b =>
    refine ⟨h.once.erase b, fun x hx => h.allocated x (List.mem_of_mem_erase hx), h.eight, ?_, h.excl, h.good⟩
    intro i x hx
    exact ⟨(h.held i x hx).1, fun hm => (h.held i x hx).2 (List.mem_of_mem_erase hm)⟩

theorem Inv.reach {α : Type} {res : Nat → α × Dev} {c c' : Conf α} (h : Inv res c) (hr : Reach c c') : Inv res c' := by
  induction hr with
  | refl => exact h
  | step _ hs ih => exact ih.step hs

theorem Start.inv {α : Type} {progs : Nat → Prog α} {devs : Nat → Dev} {c : Conf α} (h : Start progs devs c) :
    Inv (fun i => (progs i).alone (devs i)) c := by
  refine ⟨h.once, h.allocated, h.eight, ?_, ?_, ?_⟩
  · intro i b hb; rw [h.threads i] at hb; simp [PC.buf] at hb
  · intro i j b hb; rw [h.threads i] at hb; simp [PC.buf] at hb
  · intro i; rw [h.threads i]; rfl

end Verif.Pool
