import Verif.Model.Wire
import Verif.Spec.Wire
import Verif.Lemmas.Nixbase32

namespace Verif.Wire
open Verif.Spec

theorem getUint64_eq (b : Bytes) : getUint64 b = leValue b := by
  induction b with
  | nil => rfl
  | cons x b ih => simp only [leValue_cons, ← ih]; rfl

theorem putUint64_length (n : Nat) : (putUint64 n).length = 8 := rfl

theorem getUint64_put (n : Nat) (h : n < 2 ^ 64) : getUint64 (putUint64 n) = n := by
  simp [getUint64, putUint64, Nat.shiftRight_eq_div_pow]
  omega

theorem isLE64_put (n : Nat) (h : n < 2 ^ 64) : IsLE64 (putUint64 n) n :=
  ⟨rfl, by rw [← getUint64_eq, getUint64_put n h]⟩

theorem isLE64_unique {b : Bytes} {n : Nat} (h : IsLE64 b n) : b = putUint64 n := by
  have hn : n < 2 ^ 64 := by
    have := leValue_lt b
    rw [h.1, h.2] at this
    exact this
  exact leValue_inj _ _ h.1 (by rw [h.2, (isLE64_put n hn).2])

/-- the padding bytes -/
def pad (n : Nat) : Bytes := List.replicate ((8 - n % 8) % 8) 0

/-- the packet -/
def packet (b : Bytes) : Bytes := putUint64 b.length ++ b ++ pad b.length

theorem pad_length (n : Nat) : (n + (pad n).length) % 8 = 0 ∧ (pad n).length < 8 := by
  simp [pad]; omega

theorem isPacket_packet (b : Bytes) (h : b.length < 2 ^ 64) : IsPacket (packet b) b :=
  ⟨_, _, rfl, isLE64_put _ h, by simp [pad], (pad_length _).2, (pad_length _).1⟩

theorem isPacket_unique {p b : Bytes} (h : IsPacket p b) : p = packet b := by
  obtain ⟨len, pd, rfl, hl, hz, h8, hm⟩ := h
  rw [isLE64_unique hl]
  unfold packet
  congr 1
  rw [List.eq_replicate_iff.mpr ⟨rfl, hz⟩]
  unfold pad
  congr 1
  omega

/-! ### sinks -/

/-- `w'` accepted a prefix of `p` after `w`, the whole of it when no error was reported. -/
structure Sink.Ext (w w' : Sink) (p : Bytes) (ok : Bool) : Prop where
  out : ∃ q, q <+: p ∧ w'.out = w.out ++ q ∧ (ok = true → q = p)
  none_ : w.budget = none → w'.budget = none ∧ ok = true
  some_ : ∀ k, w.budget = some k → if p.length ≤ k then w'.budget = some (k - p.length) ∧ ok = true
    else w'.budget = some 0 ∧ ok = false ∧ w'.out = w.out ++ p.take k

theorem Sink.write_ext (w : Sink) (p : Bytes) :
    Sink.Ext w (w.write p).2 p (w.write p).1.2.isNone := by
  rcases w with ⟨out, _ | k⟩
  · exact ⟨⟨p, List.prefix_rfl, rfl, fun _ => rfl⟩, by simp [Sink.write], by simp⟩
  · unfold Sink.write
    by_cases h : p.length ≤ k
    · simp only [h, if_true]
      exact ⟨⟨p, List.prefix_rfl, rfl, fun _ => rfl⟩, by simp, by intro k' h'; simp at h'; subst h'; simp [h]⟩
    · simp only [h, if_false]
      exact ⟨⟨p.take k, List.take_prefix _ _, rfl, by simp⟩, by simp,
        by intro k' h'; simp at h'; subst h'; simp [h]⟩

/-- A writing computation that, on success, emits exactly `p`, and otherwise a prefix of it,
failing exactly when the budget is exceeded. -/
def Emits (m : M Sink Unit) (p : Bytes) : Prop :=
  ∀ w, (w.budget = none → m w = (.ok (), ⟨w.out ++ p, none⟩)) ∧
    (∀ k, w.budget = some k → if p.length ≤ k then m w = (.ok (), ⟨w.out ++ p, some (k - p.length)⟩)
      else m w = (.err .io, ⟨w.out ++ p.take k, some 0⟩))

theorem emits_writeAll (p : Bytes) : Emits (writeAll p) p := by
  intro w
  rcases w with ⟨out, _ | k⟩
  · refine ⟨fun _ => rfl, by simp⟩
  · refine ⟨by simp, ?_⟩
    intro k' h
    simp at h; subst h
    unfold writeAll Sink.write
    by_cases h : p.length ≤ k <;> simp [h]

theorem emits_pure : Emits (pure ()) [] := by
  intro w
  rcases w with ⟨out, _ | k⟩
  · exact ⟨fun _ => by simp, by simp⟩
  · refine ⟨by simp, ?_⟩
    intro k' h; simp at h; subst h; simp

theorem emits_bind {m m' : M Sink Unit} {p q : Bytes} (h : Emits m p) (h' : Emits m' q) :
    Emits (do m; m') (p ++ q) := by
  intro w
  obtain ⟨h1, h2⟩ := h w
  constructor
  · intro hb
    have := (h' ⟨w.out ++ p, none⟩).1 rfl
    rw [M.bind_ok (h1 hb), this]
    simp
  · intro k hb
    have h2 := h2 k hb
    by_cases hp : p.length ≤ k
    · rw [if_pos hp] at h2
      have h3 := (h' ⟨w.out ++ p, some (k - p.length)⟩).2 _ rfl
      rw [M.bind_ok h2]
      by_cases hq : q.length ≤ k - p.length
      · rw [if_pos hq] at h3
        rw [if_pos (by simp; omega), h3]
        simp; omega
      · rw [if_neg hq] at h3
        rw [if_neg (by simp; omega), h3]
        simp [List.take_append, List.take_of_length_le hp]
    · rw [if_neg hp] at h2
      rw [if_neg (by simp; omega), M.bind_err h2]
      simp [List.take_append, show k - p.length = 0 by omega]

theorem emits_writePadding (n : Nat) : Emits (writePadding n) (pad n) := by
  unfold writePadding
  split
  · have e : pad n = List.replicate (8 - n % 8) 0 := by unfold pad; congr 1; omega
    rw [e]; exact emits_writeAll _
  · have e : pad n = [] := by unfold pad; simp; omega
    rw [e]; exact emits_pure

theorem emits_writeBytes (b : Bytes) : Emits (writeBytes b) (packet b) := by
  unfold writeBytes packet
  rw [List.append_assoc]
  exact emits_bind (emits_writeAll _) (emits_bind (emits_writeAll _) (emits_writePadding _))

theorem emits_writeString (b : Bytes) : Emits (writeString b) (packet b) := emits_writeBytes b

/-! ### streams -/

theorem readFull_append (d rest : Bytes) (t : Err) (k : Nat) (h : d.length = k) :
    readFull k ⟨d ++ rest, t⟩ = (.ok d, ⟨rest, t⟩) := by
  subst h
  unfold readFull
  simp

theorem readUint64_append (d rest : Bytes) (t : Err) (n : Nat) (h : IsLE64 d n) :
    readUint64 ⟨d ++ rest, t⟩ = (.ok n, ⟨rest, t⟩) := by
  unfold readUint64
  rw [M.bind_ok (readFull_append d rest t 8 h.1), getUint64_eq, h.2]
  rfl

theorem readPadding_append (n : Nat) (rest : Bytes) (t : Err) :
    readPadding n ⟨pad n ++ rest, t⟩ = (.ok (), ⟨rest, t⟩) := by
  unfold readPadding
  split
  · rename_i h
    have e : pad n = [] := by unfold pad; simp; omega
    simp [e]
  · have e : pad n = List.replicate (8 - n % 8) 0 := by unfold pad; congr 1; omega
    rw [M.bind_ok (readFull_append (pad n) rest t _ (by rw [e]; simp))]
    rw [if_pos (by simp [e])]
    rfl

theorem readContent_append (b rest : Bytes) (t : Err) :
    readContent b.length ⟨b ++ pad b.length ++ rest, t⟩ = (.ok b, ⟨rest, t⟩) := by
  unfold readContent
  rw [List.append_assoc, readFull_append b _ t _ rfl]
  simp only [List.length_append]
  have : b.length - min b.length (b.length + ((pad b.length).length + rest.length)) = 0 := by omega
  rw [this]
  unfold bytesReaderClose
  rw [if_neg (by simp)]
  simp only [List.drop_zero]
  rw [readPadding_append]

theorem readBytesFull_append (b rest : Bytes) (t : Err) (max : Nat) (hm : b.length ≤ max)
    (h63 : b.length < 2 ^ 63) :
    readBytesFull max ⟨packet b ++ rest, t⟩ = (.ok b, ⟨rest, t⟩) := by
  unfold readBytesFull packet
  rw [List.append_assoc, List.append_assoc]
  rw [M.bind_ok (readUint64_append _ _ t b.length (isLE64_put _ (by omega)))]
  rw [if_neg (by omega), if_neg (by omega), ← List.append_assoc]
  exact readContent_append b rest t

end Verif.Wire
