import Verif.Spec.WireMany
import Verif.Spec.WireMsg
import Verif.Props.Wire

/-!
# C136: messages of several values
-/

namespace Verif.Props
open Verif.GoLib Verif.Wire Verif.Spec

theorem readUint64_iff (s s' : Stream) (n : Nat) :
    readUint64 s = (.ok n, s') ↔ ∃ p, IsLE64 p n ∧ s.data = p ++ s'.data ∧ s'.term = s.term := by
  constructor
  · intro h
    unfold readUint64 at h
    rw [M.bind_eq_ok] at h
    obtain ⟨b, s2, h2, h1⟩ := h
    unfold readFull at h2
    split at h2
    case isFalse => simp at h2
    rename_i hl
    cases h2
    cases h1
    exact ⟨s.data.take 8, ⟨by simp; omega, (getUint64_eq _).symm⟩, (List.take_append_drop 8 s.data).symm, rfl⟩
  · rintro ⟨p, hp, hd, ht⟩
    have : s = ⟨p ++ s'.data, s'.term⟩ := by rw [← hd, ht]
    rw [this, readUint64_append p s'.data s'.term n hp]

theorem readBool_iff (s s' : Stream) (v : Bool) :
    readBool s = (.ok v, s') ↔ ∃ p, IsLE64 p (if v then 1 else 0) ∧ s.data = p ++ s'.data ∧ s'.term = s.term := by
  unfold readBool
  rw [M.bind_eq_ok]
  constructor
  · rintro ⟨n, s1, h1, h⟩
    obtain ⟨p, hp, hd, ht⟩ := (readUint64_iff _ _ _).1 h1
    split at h
    · simp at h
    · rename_i hn
      obtain ⟨hv, rfl⟩ : decide (n = 1) = v ∧ s1 = s' := by
        cases h; exact ⟨rfl, rfl⟩
      refine ⟨p, ?_, hd, ht⟩
      subst hv
      by_cases h1 : n = 1
      · simpa [h1] using hp
      · have h0 : n = 0 := by
          rcases Nat.eq_zero_or_pos n with h | h
          · exact h
          · exact absurd ⟨by omega, h1⟩ hn
        simpa [h1, h0] using hp
  · rintro ⟨p, hp, hd, ht⟩
    refine ⟨_, s', (readUint64_iff _ _ _).2 ⟨p, hp, hd, ht⟩, ?_⟩
    cases v <;> rfl

/-- C136, exactly what is received: the values of the text, each in the place where it is expected, whatever is in the place of padding. -/
theorem C136_exact (ks : List Kind) (s s' : Stream) (vs : List Val) :
    receiveAll ks s = (.ok vs, s') ↔ Accepted ks vs s.data s'.data ∧ s'.term = s.term := by
  induction ks generalizing s s' vs with
  | nil =>
    constructor
    · intro h
      cases h
      exact ⟨.nil, rfl⟩
    · rintro ⟨h, ht⟩
      obtain ⟨d, t⟩ := s
      obtain ⟨d', t'⟩ := s'
      cases h
      cases ht
      rfl
  | cons k ks ih =>
    cases k with
    | uint64 =>
      simp only [receiveAll, M.bind_eq_ok]
      constructor
      · rintro ⟨n, s1, h1, vs', s2, h2, h3⟩
        cases h3
        obtain ⟨p, hp, hd, ht⟩ := (readUint64_iff _ _ _).1 h1
        obtain ⟨ha, ht'⟩ := (ih _ _ _).1 h2
        rw [hd]
        exact ⟨.uint64 hp ha, ht'.trans ht⟩
      · rintro ⟨h, ht⟩
        obtain ⟨d, t⟩ := s
        cases h with
        | uint64 hp ha =>
          rename_i n p d vs
          exact ⟨n, ⟨d, t⟩, (readUint64_iff _ _ _).2 ⟨p, hp, rfl, rfl⟩, vs, s', (ih _ _ _).2 ⟨ha, ht⟩, rfl⟩
    | bool =>
      simp only [receiveAll, M.bind_eq_ok]
      constructor
      · rintro ⟨n, s1, h1, vs', s2, h2, h3⟩
        cases h3
        obtain ⟨p, hp, hd, ht⟩ := (readBool_iff _ _ _).1 h1
        obtain ⟨ha, ht'⟩ := (ih _ _ _).1 h2
        rw [hd]
        exact ⟨.bool hp ha, ht'.trans ht⟩
      · rintro ⟨h, ht⟩
        obtain ⟨d, t⟩ := s
        cases h with
        | bool hp ha =>
          rename_i v p d vs
          exact ⟨v, ⟨d, t⟩, (readBool_iff _ _ _).2 ⟨p, hp, rfl, rfl⟩, vs, s', (ih _ _ _).2 ⟨ha, ht⟩, rfl⟩
    | bytes max =>
      simp only [receiveAll, M.bind_eq_ok]
      constructor
      · rintro ⟨c, s1, h1, vs', s2, h2, h3⟩
        cases h3
        obtain ⟨p, tail, hp, hd, hm, h63, rfl⟩ := (C16_exact _ _ _ _).1 h1
        obtain ⟨ha, ht'⟩ := (ih _ _ _).1 h2
        rw [hd]
        refine ⟨?_, ht'⟩
        rw [← List.take_append_drop ((8 - c.length % 8) % 8) tail, ← List.append_assoc]
        refine .bytes hp hm h63 ?_ ha
        rw [List.length_take]
        by_cases hl : (8 - c.length % 8) % 8 ≤ tail.length
        · left; omega
        · right
          refine ⟨by omega, List.drop_eq_nil_of_le (by omega)⟩
      · rintro ⟨h, ht⟩
        obtain ⟨d, t⟩ := s
        cases h with
        | bytes hp hm h63 hpad ha =>
          rename_i c p pad d vs
          refine ⟨c, ⟨d, t⟩, (C16_exact _ _ _ _).2 ⟨p, pad ++ d, hp, by simp, hm, h63, ?_⟩, vs, s', (ih _ _ _).2 ⟨ha, ht⟩, rfl⟩
          rcases hpad with ⟨h1, h2⟩ | ⟨h1, rfl⟩
          · rw [List.drop_left' (by omega)]
          · rw [List.drop_eq_nil_of_le (by simp; omega)]

theorem accepted_message {ks : List Kind} {vs : List Val} {p : Bytes} (hf : FitsAll ks vs) (hm : Message vs p) (rest : Bytes) :
    Accepted ks vs (p ++ rest) rest := by
  induction hf generalizing p with
  | nil => cases hm; exact .nil
  | @cons k v ks vs h1 _ ih =>
    cases hm with
    | uint64 hp hm =>
      cases k with
      | uint64 => rw [List.append_assoc]; exact .uint64 hp (ih hm)
      | bool => exact absurd h1 id
      | bytes max => exact absurd h1 id
    | bool hp hm =>
      cases k with
      | bool => rw [List.append_assoc]; exact .bool hp (ih hm)
      | uint64 => exact absurd h1 id
      | bytes max => exact absurd h1 id
    | bytes hp hm =>
      cases k with
      | uint64 => exact absurd h1 id
      | bool => exact absurd h1 id
      | bytes max =>
        obtain ⟨len, pad, rfl, hl, _, h8, hmod⟩ := hp
        rw [List.append_assoc]
        exact .bytes hl h1.1 h1.2 (.inl ⟨h8, hmod⟩) (ih hm)

/-- C136: any sequence of values that is written is read back by the calls that expect it, and what follows is left in the reader. -/
theorem C136_receive (ks : List Kind) (vs : List Val) (p : Bytes) (hf : FitsAll ks vs) (hm : Message vs p) (rest : Bytes) (t : Err) :
    receiveAll ks ⟨p ++ rest, t⟩ = (.ok vs, ⟨rest, t⟩) :=
  (C136_exact _ _ _ _).2 ⟨accepted_message hf hm rest, rfl⟩

theorem emits_send (ks : List Kind) (vs : List Val) (hf : FitsAll ks vs) : ∃ p, Message vs p ∧ Emits (sendAll vs) p := by
  induction hf with
  | nil => exact ⟨[], .nil, emits_pure⟩
  | @cons k v ks vs h _ ih =>
    obtain ⟨p, hp, he⟩ := ih
    cases k with
    | uint64 =>
      cases v with
      | uint64 n => exact ⟨_, .uint64 (isLE64_put n h) hp, emits_bind (emits_writeAll _) he⟩
      | bool v => exact absurd h id
      | bytes c => exact absurd h id
    | bool =>
      cases v with
      | uint64 n => exact absurd h id
      | bool v =>
        refine ⟨_, .bool (isLE64_put _ (by cases v <;> decide)) hp, emits_bind ?_ he⟩
        cases v <;> exact emits_writeAll _
      | bytes c => exact absurd h id
    | bytes max =>
      cases v with
      | uint64 n => exact absurd h id
      | bool v => exact absurd h id
      | bytes c => exact ⟨_, .bytes (isPacket_packet c (Nat.lt_trans h.2 (by decide))) hp, emits_bind (emits_writeBytes c) he⟩

/-- C136: what the sender writes is the text of the message, on a writer that accepts everything; on one that fails after `k` bytes it is the first `k` bytes
of it, and the sender gets the error unless that is everything. -/
theorem C136_send (ks : List Kind) (vs : List Val) (hf : FitsAll ks vs) : ∃ p, Message vs p ∧
    (∀ out, sendAll vs ⟨out, none⟩ = (.ok (), ⟨out ++ p, none⟩)) ∧
    ∀ out k, sendAll vs ⟨out, some k⟩ = if p.length ≤ k then (.ok (), ⟨out ++ p, some (k - p.length)⟩) else (.err .io, ⟨out ++ p.take k, some 0⟩) := by
  obtain ⟨p, hp, he⟩ := emits_send ks vs hf
  refine ⟨p, hp, fun out => (he ⟨out, none⟩).1 rfl, fun out k => ?_⟩
  have := (he ⟨out, some k⟩).2 k rfl
  split <;> simp_all

theorem sim_receive (ks : List Kind) : Sim (receiveAllF ks) (receiveAll ks) := by
  induction ks with
  | nil => exact Sim.pure _
  | cons k ks ih =>
    cases k with
    | uint64 => exact Sim.bind Sim.readUint64 fun _ => Sim.bind ih fun _ => Sim.pure _
    | bool => exact Sim.bind Sim.readBool fun _ => Sim.bind ih fun _ => Sim.pure _
    | bytes max => exact Sim.bind (Sim.readBytesFull max) fun _ => Sim.bind ih fun _ => Sim.pure _

/-- C136: the pieces in which the bytes arrive do not matter, neither for the values nor for what is left in the reader, nor for the error. -/
theorem C136_fragmentation (ks : List Kind) (r : FReader) :
    (receiveAllF ks r).1 = (receiveAll ks ⟨r.chunks.flatten, r.term⟩).1 ∧
    (receiveAllF ks r).2.chunks.flatten = (receiveAll ks ⟨r.chunks.flatten, r.term⟩).2.data := by
  obtain ⟨h1, h2⟩ := sim_receive ks r
  exact ⟨h1, congrArg Stream.data h2⟩

/-- C136: different messages have different texts, and none is a beginning of another: the receiver cannot mistake one for another, whatever follows. -/
theorem C136_unique (ks : List Kind) (vs vs' : List Val) (p p' rest rest' : Bytes) (hf : FitsAll ks vs) (hf' : FitsAll ks vs')
    (hm : Message vs p) (hm' : Message vs' p') (h : p ++ rest = p' ++ rest') : vs = vs' ∧ p = p' ∧ rest = rest' := by
  have h1 := C136_receive ks vs p hf hm rest .eof
  have h2 := C136_receive ks vs' p' hf' hm' rest' .eof
  rw [h, h2] at h1
  simp only [Prod.mk.injEq, Res.ok.injEq, Stream.mk.injEq, and_true] at h1
  obtain ⟨rfl, rfl⟩ := h1
  exact ⟨rfl, List.append_cancel_right h, rfl⟩

theorem accepted_nil {ks : List Kind} {vs : List Val} {rest : Bytes} (h : Accepted ks vs [] rest) : ks = [] := by
  generalize hd : ([] : Bytes) = d at h
  cases h with
  | nil => rfl
  | uint64 hp _ => have := congrArg List.length hd; simp [hp.1] at this; omega
  | bool hp _ => have := congrArg List.length hd; simp [hp.1] at this; omega
  | bytes hp _ _ _ _ => have := congrArg List.length hd; simp [hp.1] at this; omega

theorem isLE64_fun {p : Bytes} {n n' : Nat} (h : IsLE64 p n) (h' : IsLE64 p n') : n = n' := h.2.symm.trans h'.2

theorem take_append_eq {a d a' d' : Bytes} {n : Nat} (h : (a ++ d).take n = a' ++ d') (hl : a'.length = a.length) :
    a' = a ∧ d' = d.take (n - a.length) ∧ a.length ≤ n := by
  rw [List.take_append] at h
  have hn : a.length ≤ n := by
    have := congrArg List.length h
    simp only [List.length_append, List.length_take] at this
    by_cases hc : a.length ≤ n
    · exact hc
    · have : n - a.length = 0 := by omega
      simp_all
      omega
  rw [List.take_of_length_le hn] at h
  obtain ⟨h1, h2⟩ := List.append_inj h hl.symm
  exact ⟨h1.symm, h2.symm, hn⟩

/-- C136: a message that is cut off is not received, unless it is only padding at its end that is missing; then its values are received. -/
theorem C136_cut (ks : List Kind) (vs vs' : List Val) (p : Bytes) (hf : FitsAll ks vs) (hm : Message vs p) (n : Nat) (t : Err) (s' : Stream)
    (h : receiveAll ks ⟨p.take n, t⟩ = (.ok vs', s')) : vs' = vs ∧ p.length < n + 8 ∧ ∀ c ∈ p.drop n, c = 0 := by
  have ha : Accepted ks vs' (p.take n) s'.data := ((C136_exact _ _ _ _).1 h).1
  clear h
  generalize s'.data = r at ha
  induction hf generalizing p n vs' r with
  | nil =>
    cases hm
    generalize hx : ([] : Bytes).take n = x at ha
    cases ha
    simp
  | @cons k v ks vs h1 h2 ih =>
    generalize hx : p.take n = x at ha
    cases hm with
    | uint64 hp hm =>
      rename_i n0 q d
      cases ha with
      | uint64 hp' ha =>
        rename_i n1 q' d' vs'
        obtain ⟨rfl, rfl, hn⟩ := take_append_eq hx (hp'.1.trans hp.1.symm)
        obtain ⟨rfl, hl, hz⟩ := ih _ _ hm _ _ ha
        refine ⟨by rw [isLE64_fun hp' hp], by simp; omega, ?_⟩
        rw [List.drop_append, List.drop_eq_nil_of_le hn]
        exact hz
      | bool _ _ => exact absurd h1 id
      | bytes _ _ _ _ _ => exact absurd h1 id
    | bool hp hm =>
      rename_i n0 q d
      cases ha with
      | bool hp' ha =>
        rename_i n1 q' d' vs'
        obtain ⟨rfl, rfl, hn⟩ := take_append_eq hx (hp'.1.trans hp.1.symm)
        obtain ⟨rfl, hl, hz⟩ := ih _ _ hm _ _ ha
        have := isLE64_fun hp' hp
        refine ⟨?_, by simp; omega, ?_⟩
        · cases n0 <;> cases n1 <;> simp_all
        rw [List.drop_append, List.drop_eq_nil_of_le hn]
        exact hz
      | uint64 _ _ => exact absurd h1 id
      | bytes _ _ _ _ _ => exact absurd h1 id
    | bytes hp hm =>
      rename_i c q d
      cases ha with
      | uint64 _ _ => exact absurd h1 id
      | bool _ _ => exact absurd h1 id
      | bytes hp' hmx h63 hpad ha =>
        rename_i max c' q' pad' d' vs'
        obtain ⟨len, pad, rfl, hl, hz0, h8, hmod⟩ := hp
        have hx' : (len ++ (c ++ (pad ++ d))).take n = q' ++ (c' ++ (pad' ++ d')) := by simpa using hx
        obtain ⟨rfl, hx1, hn1⟩ := take_append_eq hx' (hp'.1.trans hl.1.symm)
        have hlen := isLE64_fun hp' hl
        obtain ⟨rfl, hx2, hn2⟩ := take_append_eq hx1.symm hlen
        rcases hpad with ⟨g1, g2⟩ | ⟨g1, rfl⟩
        · obtain ⟨rfl, rfl, hn3⟩ := take_append_eq hx2.symm (by omega)
          obtain ⟨rfl, hl', hz⟩ := ih _ _ hm _ _ ha
          refine ⟨rfl, by simp; omega, ?_⟩
          have e : (q' ++ c' ++ pad' ++ d).drop n = d.drop (n - q'.length - c'.length - pad'.length) := by
            rw [List.drop_append, List.drop_eq_nil_of_le (by simp; omega)]
            simp [Nat.sub_sub, Nat.add_assoc]
          rw [e]
          exact hz
        · have := accepted_nil ha
          subst this
          cases ha
          cases h2
          cases hm
          refine ⟨rfl, by simp; omega, ?_⟩
          rw [List.append_nil, List.drop_append, List.drop_eq_nil_of_le (by simp; omega), List.nil_append]
          exact fun c hc => hz0 c (List.mem_of_mem_drop hc)

/-- A message of three values. -/
example : FitsAll [.uint64, .bool, .bytes 10] [.uint64 300, .bool true, .bytes b!"abc"] ∧
    Message [.uint64 300, .bool true, .bytes b!"abc"] ([44, 1, 0, 0, 0, 0, 0, 0] ++ ([1, 0, 0, 0, 0, 0, 0, 0] ++
      ([3, 0, 0, 0, 0, 0, 0, 0, 97, 98, 99, 0, 0, 0, 0, 0] ++ []))) :=
  ⟨.cons (by decide : 300 < 2 ^ 64) (.cons trivial (.cons ⟨by decide, by decide⟩ .nil)),
    .uint64 ⟨rfl, by decide⟩ (.bool ⟨rfl, by decide⟩ (.bytes ⟨[3, 0, 0, 0, 0, 0, 0, 0], [0, 0, 0, 0, 0], rfl, ⟨rfl, by decide⟩, by decide, by decide, by decide⟩ .nil))⟩

end Verif.Props
