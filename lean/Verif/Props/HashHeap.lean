import Verif.Spec.HashHeap
import Verif.Model.HashHeap
import Verif.Props.Nixhash

/-!
# C137: hashes and the slices of the caller
-/

namespace Verif.Props
open Verif.GoLib Verif.Nixhash Verif.Spec

theorem step_fresh (p : HashProg) (o : HashOp) : p.fresh ≤ (p.step o).fresh := by
  cases o with
  | alloc b => exact Nat.le_succ _
  | store a i v => exact Nat.le_refl _
  | new algo s => simp only [HashProg.step]; split <;> exact Nat.le_refl _
  | parse t a => simp only [HashProg.step]; split; exact Nat.le_succ _; exact Nat.le_refl _

theorem run_fresh (p : HashProg) (os : List HashOp) : p.fresh ≤ (p.run os).fresh := by
  induction os generalizing p with
  | nil => exact Nat.le_refl _
  | cons o os ih => exact Nat.le_trans (step_fresh p o) (ih (p.step o))

theorem step_hashes (p : HashProg) (o : HashOp) : ∃ l, (p.step o).hashes = p.hashes ++ l := by
  cases o with
  | alloc b => exact ⟨[], (List.append_nil _).symm⟩
  | store a i v => exact ⟨[], (List.append_nil _).symm⟩
  | new algo s => simp only [HashProg.step]; split; exact ⟨_, rfl⟩; exact ⟨[], (List.append_nil _).symm⟩
  | parse t a => simp only [HashProg.step]; split; exact ⟨_, rfl⟩; exact ⟨[], (List.append_nil _).symm⟩

theorem run_hashes (p : HashProg) (os : List HashOp) (j : Nat) (h : PtrHash) (hj : p.hashes[j]? = some h) :
    (p.run os).hashes[j]? = some h := by
  induction os generalizing p with
  | nil => exact hj
  | cons o os ih =>
    obtain ⟨l, hl⟩ := step_hashes p o
    refine ih (p.step o) ?_
    rw [hl, List.getElem?_append_left]
    · exact hj
    · rw [List.getElem?_eq_some_iff] at hj
      exact hj.1

theorem step_heap (p : HashProg) (o : HashOp) (a : Addr) (ha : a < p.fresh) (k : Nat) :
    ((p.step o).heap a)[k]? = (p.heap a)[k]?.map fun b => (lastStored a k [o]).getD b := by
  have hne : a ≠ p.fresh := Nat.ne_of_lt ha
  cases o with
  | alloc b => simp [HashProg.step, Heap.set, hne, lastStored]
  | store c i v =>
    simp only [HashProg.step, Heap.set, lastStored, Option.none_or]
    by_cases h : c = a
    · subst h
      rw [if_pos rfl, List.getElem?_set]
      by_cases hi : i = k
      · subst hi
        by_cases hl : i < (p.heap c).length
        · simp [hl]
        · simp [hl]
      · simp [hi]
    · rw [if_neg (Ne.symm h)]
      simp [h]
  | new algo s => simp only [HashProg.step]; split <;> simp [lastStored]
  | parse t al => simp only [HashProg.step]; split <;> simp [lastStored, Heap.set, hne]

theorem lastStored_cons (a : Addr) (k : Nat) (o : HashOp) (os : List HashOp) :
    lastStored a k (o :: os) = (lastStored a k os).or (lastStored a k [o]) := by
  cases o <;> simp [lastStored]

theorem run_heap (p : HashProg) (os : List HashOp) (a : Addr) (ha : a < p.fresh) (k : Nat) :
    ((p.run os).heap a)[k]? = (p.heap a)[k]?.map fun b => (lastStored a k os).getD b := by
  induction os generalizing p with
  | nil => simp [HashProg.run, lastStored]
  | cons o os ih =>
    have := ih (p.step o) (Nat.lt_of_lt_of_le ha (step_fresh p o))
    rw [lastStored_cons]
    show (((p.step o).run os).heap a)[k]? = _
    rw [this, step_heap p o a ha k]
    cases (p.heap a)[k]? with
    | none => rfl
    | some b =>
      cases lastStored a k os <;> simp

theorem bytes_getElem? (heap : Heap Bytes) (s : Slice) (i : Nat) :
    (s.bytes heap)[i]? = if i < s.len then (heap s.arr)[s.off + i]? else none := by
  unfold Slice.bytes
  rw [List.getElem?_take]
  split
  · rw [List.getElem?_drop]
  · rfl

/-- The hashes of a program are slices of its arrays. -/
def HashesOk (p : HashProg) : Prop := ∀ h ∈ p.hashes, h.digest.arr < p.fresh ∧ h.digest.Ok p.heap

theorem step_length (p : HashProg) (o : HashOp) (a : Addr) (ha : a < p.fresh) : ((p.step o).heap a).length = (p.heap a).length := by
  have hne : a ≠ p.fresh := Nat.ne_of_lt ha
  cases o with
  | alloc b => simp [HashProg.step, Heap.set, hne]
  | store c i v =>
    simp only [HashProg.step, Heap.set]
    split
    · rename_i h; subst h; simp
    · rfl
  | new algo s => simp only [HashProg.step]; split <;> rfl
  | parse t al => simp only [HashProg.step]; split <;> simp [Heap.set, hne]

theorem step_ok {p : HashProg} (hp : HashesOk p) {o : HashOp} (ho : CanDo p o) : HashesOk (p.step o) := by
  have old : ∀ h ∈ p.hashes, h.digest.arr < (p.step o).fresh ∧ h.digest.Ok (p.step o).heap := fun h hh =>
    ⟨Nat.lt_of_lt_of_le (hp h hh).1 (step_fresh p o), by
      have := (hp h hh).2
      unfold Slice.Ok at this ⊢
      rwa [step_length p o _ (hp h hh).1]⟩
  cases o with
  | alloc b => exact old
  | store c i v => exact old
  | new algo s =>
    intro h hh
    cases hr : newHash algo (s.bytes p.heap) with
    | ok g =>
      simp only [HashProg.step, hr] at hh old ⊢
      rcases List.mem_append.1 hh with hh | hh
      · exact old h hh
      · simp only [List.mem_singleton] at hh
        subst hh
        exact ho
    | err e => simp only [HashProg.step, hr] at hh old ⊢; exact old h hh
    | panic => simp only [HashProg.step, hr] at hh old ⊢; exact old h hh
  | parse t al =>
    intro h hh
    cases hr : parseAny t al with
    | ok g =>
      simp only [HashProg.step, hr] at hh old ⊢
      rcases List.mem_append.1 hh with hh | hh
      · exact old h hh
      · simp only [List.mem_singleton] at hh
        subst hh
        exact ⟨Nat.lt_succ_self _, by simp [Slice.Ok, Heap.set]⟩
    | err e => simp only [HashProg.step, hr] at hh old ⊢; exact old h hh
    | panic => simp only [HashProg.step, hr] at hh old ⊢; exact old h hh

theorem run_ok {p : HashProg} (hp : HashesOk p) {os : List HashOp} (ho : CanRun p os) : HashesOk (p.run os) := by
  induction os generalizing p with
  | nil => exact hp
  | cons o os ih => exact ih (step_ok hp ho.1) ho.2

theorem run_append (p : HashProg) (a b : List HashOp) : p.run (a ++ b) = (p.run a).run b := List.foldl_append

theorem canRun_append {p : HashProg} {a b : List HashOp} (h : CanRun p (a ++ b)) : CanRun p a ∧ CanRun (p.run a) b := by
  induction a generalizing p with
  | nil => exact ⟨trivial, h⟩
  | cons o os ih =>
    obtain ⟨h1, h2⟩ := ih h.2
    exact ⟨⟨h.1, h1⟩, h2⟩

/-- C137, exactly what a hash is at any later moment: each byte of its digest is what the program assigned last to that element of the array, and if it
assigned nothing, the byte that was there. -/
theorem C137_bytes (pre post : List HashOp) (hr : CanRun emptyProg (pre ++ post)) (j : Nat) (h : PtrHash)
    (hj : (emptyProg.run pre).hashes[j]? = some h) :
    (emptyProg.run (pre ++ post)).hashes[j]? = some h ∧
    ∀ i, (h.digest.bytes (emptyProg.run (pre ++ post)).heap)[i]? =
      (h.digest.bytes (emptyProg.run pre).heap)[i]?.map fun b => (lastStored h.digest.arr (h.digest.off + i) post).getD b := by
  rw [run_append]
  refine ⟨run_hashes _ _ _ _ hj, fun i => ?_⟩
  have hok := run_ok (p := emptyProg) (fun h hh => absurd hh (List.not_mem_nil)) (canRun_append hr).1
  have hlt := (hok h (List.mem_of_getElem? hj)).1
  simp only [bytes_getElem?]
  split
  · exact run_heap _ _ _ hlt _
  · rfl

/-- C137: as long as the program does not assign to the array of a hash, the hash does not change: every call of Format gives the text it gave at the
beginning. -/
theorem C137_values (pre post : List HashOp) (hr : CanRun emptyProg (pre ++ post)) (j : Nat) (h : PtrHash)
    (hj : (emptyProg.run pre).hashes[j]? = some h) (hs : ∀ a i v, HashOp.store a i v ∈ post → a ≠ h.digest.arr) :
    (emptyProg.run (pre ++ post)).hashes[j]? = some h ∧
    ∀ e incl, h.format (emptyProg.run (pre ++ post)).heap e incl = h.format (emptyProg.run pre).heap e incl := by
  obtain ⟨h1, h2⟩ := C137_bytes pre post hr j h hj
  refine ⟨h1, fun e incl => ?_⟩
  have hn : ∀ k, lastStored h.digest.arr k post = none := by
    clear h1 h2 hr hj
    intro k
    induction post with
    | nil => rfl
    | cons o os ih =>
      have := ih fun a i v hm => hs a i v (.tail _ hm)
      cases o with
      | store a i v => simp [lastStored, this, hs a i v (.head _)]
      | alloc b => exact this
      | new a s => exact this
      | parse t a => exact this
  have : h.digest.bytes (emptyProg.run (pre ++ post)).heap = h.digest.bytes (emptyProg.run pre).heap := by
    apply List.ext_getElem?
    intro i
    rw [h2 i, hn]
    simp
  unfold PtrHash.format PtrHash.value
  rw [this]

/-- C137 for `NewHash`: the digest has the size of the algorithm for ever, whatever the program does; and Format (with the algorithm, in any known encoding)
gives the text of the beginning exactly as long as every assignment to an element of the slice has been undone. -/
theorem C137_exact (pre post : List HashOp) (algo : Algorithm) (name : Bytes) (n : Nat) (hrow : (algo, name, n) ∈ hashAlgos) (s : Slice)
    (hs : (s.bytes (emptyProg.run pre).heap).length = n) (hr : CanRun emptyProg (pre ++ .new algo s :: post)) :
    (emptyProg.run (pre ++ .new algo s :: post)).hashes[(emptyProg.run pre).hashes.length]? = some ⟨algo, s⟩ ∧
    (s.bytes (emptyProg.run (pre ++ .new algo s :: post)).heap).length = n ∧
    ∀ e ∈ hashEncodings, (PtrHash.format (emptyProg.run (pre ++ .new algo s :: post)).heap ⟨algo, s⟩ e true =
        Hash.format ⟨algo, s.bytes (emptyProg.run pre).heap⟩ e true ↔
      ∀ i < n, ∀ v, lastStored s.arr (s.off + i) post = some v → ((emptyProg.run pre).heap s.arr).getD (s.off + i) 0 = v) := by
  have hnew := (((C80_new_hash algo (s.bytes (emptyProg.run pre).heap) 0 true).1 name n hrow).1 hs).1
  have hstep : (emptyProg.run pre).step (.new algo s) =
      { (emptyProg.run pre) with hashes := (emptyProg.run pre).hashes ++ [⟨algo, s⟩] } := by
    simp only [HashProg.step, hnew]
  have hrun : emptyProg.run (pre ++ [.new algo s]) = { (emptyProg.run pre) with hashes := (emptyProg.run pre).hashes ++ [⟨algo, s⟩] } := by
    rw [run_append]; exact hstep
  have e1 : pre ++ HashOp.new algo s :: post = (pre ++ [.new algo s]) ++ post := by simp
  rw [e1] at hr ⊢
  obtain ⟨h1, h2⟩ := C137_bytes (pre ++ [.new algo s]) post hr (emptyProg.run pre).hashes.length ⟨algo, s⟩ (by rw [hrun]; simp)
  have hheap : (emptyProg.run (pre ++ [.new algo s])).heap = (emptyProg.run pre).heap := by rw [hrun]
  rw [hheap] at h2
  generalize hB : s.bytes (emptyProg.run (pre ++ [.new algo s] ++ post)).heap = B at h2 ⊢
  generalize hA : s.bytes (emptyProg.run pre).heap = A at h2 hs ⊢
  have hlen : B.length = n := by
    rw [← hs]
    apply Nat.le_antisymm
    · refine Nat.le_of_not_lt fun hlt => ?_
      have := h2 A.length
      rw [List.getElem?_eq_getElem hlt] at this
      simp at this
    · refine Nat.le_of_not_lt fun hlt => ?_
      have := h2 B.length
      rw [List.getElem?_eq_getElem hlt] at this
      simp at this
  refine ⟨h1, hlen, fun e he => ?_⟩
  have hAB : PtrHash.format (emptyProg.run (pre ++ [.new algo s] ++ post)).heap ⟨algo, s⟩ e true = Hash.format ⟨algo, A⟩ e true ↔ B = A := by
    unfold PtrHash.format PtrHash.value
    simp only [hB]
    refine ⟨fun h => ((C82_format_injective algo algo name name n n B A e e hrow hrow).2.2 hlen hs he he h).2.1, fun h => by rw [h]⟩
  rw [hAB]
  have hget : ∀ i (hi : i < n), ((emptyProg.run pre).heap s.arr).getD (s.off + i) 0 = A[i]'(by omega) := by
    intro i hi
    have h3 := bytes_getElem? (emptyProg.run pre).heap s i
    rw [hA, List.getElem?_eq_getElem (by omega)] at h3
    split at h3
    · rw [List.getD_eq_getElem?_getD, ← h3]; rfl
    · simp at h3
  constructor
  · rintro rfl i hi v hv
    have h3 := h2 i
    rw [List.getElem?_eq_getElem (by omega), hv] at h3
    simp only [Option.map_some, Option.getD_some, Option.some.injEq] at h3
    simp only [hget i hi]
    exact h3
  · intro hall
    apply List.ext_getElem (hlen.trans hs.symm)
    intro i hi hi'
    have h3 := h2 i
    rw [List.getElem?_eq_getElem hi, List.getElem?_eq_getElem hi'] at h3
    simp only [Option.map_some, Option.some.injEq] at h3
    rw [h3]
    cases hv : lastStored s.arr (s.off + i) post with
    | none => rfl
    | some v =>
      have := hall i (by omega) v hv
      simp only [hget i (by omega)] at this
      exact this.symm

/-- C137 for `ParseAny`: the digest is in an array of its own, which no hash and no slice of the program has been part of before. So if the program
never assigns to what `Digest` hands out, the hash is the one that was parsed for ever. -/
theorem C137_parsed (pre post : List HashOp) (text : Bytes) (opt : Option Algorithm) (g : HashWithEncoding) (hg : parseAny text opt = .ok g)
    (hr : CanRun emptyProg (pre ++ .parse text opt :: post)) :
    ∃ h : PtrHash, (emptyProg.run (pre ++ [.parse text opt])).hashes = (emptyProg.run pre).hashes ++ [h] ∧
      (∀ h' ∈ (emptyProg.run pre).hashes, h'.digest.arr ≠ h.digest.arr) ∧
      (∀ a i v, HashOp.store a i v ∈ pre → a ≠ h.digest.arr) ∧
      ((∀ a i v, HashOp.store a i v ∈ post → a ≠ h.digest.arr) →
        ∀ e incl, h.format (emptyProg.run (pre ++ .parse text opt :: post)).heap e incl = g.hash.format e incl) := by
  have hrun : emptyProg.run (pre ++ [.parse text opt]) = ⟨(emptyProg.run pre).heap.set (emptyProg.run pre).fresh g.hash.digest,
      (emptyProg.run pre).fresh + 1, (emptyProg.run pre).hashes ++ [⟨g.hash.algo, ⟨(emptyProg.run pre).fresh, 0, g.hash.digest.length⟩⟩]⟩ := by
    rw [run_append]
    show (emptyProg.run pre).step (.parse text opt) = _
    simp only [HashProg.step, hg]
  have e1 : pre ++ HashOp.parse text opt :: post = (pre ++ [.parse text opt]) ++ post := by simp
  rw [e1] at hr ⊢
  refine ⟨_, by rw [hrun], ?_, ?_, fun hs e incl => ?_⟩
  · intro h' hh
    have hok := run_ok (p := emptyProg) (fun h hh => absurd hh (List.not_mem_nil)) (canRun_append (canRun_append hr).1).1
    exact Nat.ne_of_lt (hok h' hh).1
  · have hc := (canRun_append (canRun_append hr).1).1
    clear hr hrun hg
    suffices ∀ p : HashProg, CanRun p pre → ∀ a i v, HashOp.store a i v ∈ pre → a < (p.run pre).fresh from
      fun a i v hm => Nat.ne_of_lt (this _ hc a i v hm)
    clear hc
    induction pre with
    | nil => intro _ _ _ _ _ hm; cases hm
    | cons o os ih =>
      intro p hp a i v hm
      cases hm with
      | head => exact Nat.lt_of_lt_of_le hp.1 (run_fresh p _)
      | tail _ hm => exact ih (by simp) _ hp.2 a i v hm
  · obtain ⟨_, h2⟩ := C137_values (pre ++ [.parse text opt]) post hr (emptyProg.run pre).hashes.length _ (by rw [hrun]; simp) hs
    rw [h2 e incl, hrun]
    simp [PtrHash.format, PtrHash.value, Slice.bytes, Heap.set]

/-- C137 is false for `NewHash` in general: a program that uses its buffer for something else changes the hash. -/
theorem C137_refuted : ∃ (pre post : List HashOp) (h : PtrHash), CanRun emptyProg (pre ++ post) ∧
    (emptyProg.run pre).hashes[0]? = some h ∧
    h.format (emptyProg.run (pre ++ post)).heap Base16 true ≠ h.format (emptyProg.run pre).heap Base16 true := by
  refine ⟨[.alloc (List.replicate 16 0), .new MD5 ⟨0, 0, 16⟩], [.store 0 3 7], ⟨MD5, ⟨0, 0, 16⟩⟩, ?_, by decide +kernel, by decide +kernel⟩
  exact ⟨trivial, ⟨by decide, by show _ ≤ _; decide +kernel⟩, by show _ < _; decide +kernel, trivial⟩

/-- A program with two hashes, one of a part of a buffer and one parsed. -/
example : CanRun emptyProg [.alloc (List.replicate 20 1), .new MD5 ⟨0, 4, 16⟩, .parse b!"md5:00000000000000000000000000000000" none, .store 0 0 5] ∧
    (emptyProg.run [.alloc (List.replicate 20 1), .new MD5 ⟨0, 4, 16⟩, .parse b!"md5:00000000000000000000000000000000" none, .store 0 0 5]).hashes =
      [⟨MD5, ⟨0, 4, 16⟩⟩, ⟨MD5, ⟨1, 0, 16⟩⟩] :=
  ⟨⟨trivial, ⟨by decide, by show _ ≤ _; decide +kernel⟩, trivial, by show _ < _; decide +kernel, trivial⟩, by decide +kernel⟩

end Verif.Props
