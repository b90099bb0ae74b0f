import Verif.Lemmas.DrvMem
import Verif.Props.Store

/-!
# The memory behind derivations (C148)
-/

namespace Verif.Props
open Verif.GoLib Verif.Derivation Verif.Wire Verif.Nixhash

/-- What `ReadDerivation` does to the memory. -/
theorem readDerivationMem_spec (grow : Nat → Nat) (jsonName : Bytes → Res (Option Bytes)) (r : FReader) (m : Mem) :
    let R := readDerivationMem grow jsonName r m
    mapR (·.val R.2.1.heap) R.1 = Scan.readDerivation grow jsonName r ∧ (∀ d, R.1 = .ok d → ∃ a, d.In a ∧ m.fresh ≤ a ∧ a < R.2.1.fresh) ∧
    m.fresh ≤ R.2.1.fresh ∧ ∀ x, x < m.fresh → R.2.1.heap x = m.heap x := by
  dsimp only
  unfold readDerivationMem Scan.readDerivation Scan.readAll
  have hz : (List.replicate 512 (0 : UInt8)).length = 512 := List.length_replicate
  revert hz
  generalize List.replicate 512 (0 : UInt8) = z
  intro hz
  have h0 : (m.alloc z).heap m.fresh = z := by simp [Mem.alloc, Heap.set]
  have key := readAllMem_spec grow (r.fuel + 1) r (m.alloc z) m.fresh 0 [] [] 512 (by simp [Mem.alloc]) (Nat.zero_le _) rfl
    (by rw [h0, if_neg (by rw [hz]; decide), hz])
  dsimp only at key
  rcases hR : readAllMem grow (r.fuel + 1) r (m.alloc (z)) m.fresh 0 [] with ⟨⟨b, e⟩, m', given⟩
  rcases hS : Scan.readAllLoop grow (r.fuel + 1) r [] 512 with ⟨⟨b', e'⟩, r'⟩
  rw [hR, hS] at key
  dsimp only at key ⊢
  obtain ⟨k1, k2, k3, k4, k5, k6, k7⟩ := key
  subst k1 k2
  have hfr : (m.alloc (z)).fresh = m.fresh + 1 := rfl
  rw [hfr] at k4 k6 k7
  have hx : ∀ x, x < m.fresh → m'.heap x = m.heap x := by
    intro x hx
    rw [k7 x (Nat.ne_of_lt hx) (Nat.lt_succ_of_lt hx)]
    simp only [Mem.alloc, Heap.set]
    rw [if_neg (Nat.ne_of_lt hx)]
  have hf : m.fresh ≤ m'.fresh := Nat.le_trans (Nat.le_succ _) k6
  cases e with
  | some e => exact ⟨rfl, fun d h => (by cases h), hf, hx⟩
  | none =>
    dsimp only
    refine ⟨?_, ?_, hf, hx⟩
    · refine mapR_bind (parseDerivationS_eq jsonName k3) fun d _ => ?_
      cases (d.val m'.heap).validate <;> rfl
    · intro d h
      rw [Res.bind_eq_ok] at h
      obtain ⟨d0, hd, h⟩ := h
      rw [Res.bind_eq_ok] at h
      obtain ⟨_, _, h⟩ := h
      cases h
      refine ⟨b.arr, parseDerivationS_in k3 hd, ?_, k5⟩
      rcases k4 with k4 | k4
      · rw [k4]; exact Nat.le_refl _
      · exact Nat.le_trans (Nat.le_succ _) k4

/-- What holds of a program at every moment. -/
structure MemInv (p : MemProg) : Prop where
  drvs : ∀ d ∈ p.drvs, ∃ a, d.In a ∧ a ∉ p.known ∧ a < p.mem.fresh
  known : ∀ a ∈ p.known, a < p.mem.fresh

theorem vals_stable {p : MemProg} (hI : MemInv p) {h' : Heap Bytes} (he : ∀ a, a < p.mem.fresh → a ∉ p.known → h' a = p.mem.heap a) :
    p.drvs.map (·.val h') = p.drvs.map (·.val p.mem.heap) := by
  refine List.map_congr_left fun d hd => ?_
  obtain ⟨a, h1, h2, h3⟩ := hI.drvs d hd
  exact drv_stable (he a h3 h2) h1

theorem memStep (jsonName : Bytes → Res (Option Bytes)) {p : MemProg} (hI : MemInv p) (op : MemOp) (hs : ∀ a i v, op = .store a i v → a ∈ p.known) :
    MemInv (p.step false jsonName op) ∧
    (p.step false jsonName op).drvs.map (·.val (p.step false jsonName op).mem.heap) = p.drvs.map (·.val p.mem.heap) ++ readValues jsonName [op] := by
  cases op with
  | alloc b =>
    refine ⟨⟨?_, ?_⟩, ?_⟩
    · intro d hd
      obtain ⟨a, h1, h2, h3⟩ := hI.drvs d hd
      refine ⟨a, h1, ?_, Nat.lt_succ_of_lt h3⟩
      intro hm
      rcases List.mem_cons.1 hm with rfl | hm
      · exact Nat.lt_irrefl _ h3
      · exact h2 hm
    · intro a ha
      rcases List.mem_cons.1 ha with rfl | ha
      · exact Nat.lt_succ_self _
      · exact Nat.lt_succ_of_lt (hI.known a ha)
    · simp only [readValues, List.append_nil]
      refine vals_stable hI fun a ha _ => ?_
      simp only [MemProg.step, Mem.alloc, Heap.set]
      rw [if_neg (Nat.ne_of_lt ha)]
  | store a i v =>
    have hk := hs a i v rfl
    refine ⟨⟨hI.drvs, hI.known⟩, ?_⟩
    simp only [readValues, List.append_nil]
    refine vals_stable hI fun x _ hx => ?_
    simp only [MemProg.step, Heap.set]
    rw [if_neg (fun h => hx (by rw [h]; exact hk))]
  | read grow r =>
    obtain ⟨h1, h2, h3, h4⟩ := readDerivationMem_spec grow jsonName r p.mem
    rcases hR : readDerivationMem grow jsonName r p.mem with ⟨res, m', given⟩
    rw [hR] at h1 h2 h3 h4
    dsimp only at h1 h2 h3 h4
    have hold : p.drvs.map (·.val m'.heap) = p.drvs.map (·.val p.mem.heap) := vals_stable hI fun a ha _ => h4 a ha
    have hdold : ∀ d ∈ p.drvs, ∃ a, d.In a ∧ a ∉ p.known ∧ a < m'.fresh := by
      intro d hd
      obtain ⟨a, g1, g2, g3⟩ := hI.drvs d hd
      exact ⟨a, g1, g2, Nat.lt_of_lt_of_le g3 h3⟩
    have hk : ∀ a ∈ p.known, a < m'.fresh := fun a ha => Nat.lt_of_lt_of_le (hI.known a ha) h3
    simp only [MemProg.step, hR, readValues, ← h1]
    cases res with
    | err e => exact ⟨⟨hdold, hk⟩, by simp [mapR, hold]⟩
    | panic => exact ⟨⟨hdold, hk⟩, by simp [mapR, hold]⟩
    | ok d =>
      refine ⟨⟨?_, hk⟩, by simp [mapR, hold]⟩
      intro x hx
      rcases List.mem_append.1 hx with hx | hx
      · exact hdold x hx
      · rw [List.mem_singleton.1 hx]
        obtain ⟨a, g1, g2, g3⟩ := h2 d rfl
        refine ⟨a, g1, fun hm => ?_, g3⟩
        exact Nat.lt_irrefl _ (Nat.lt_of_lt_of_le (hI.known a hm) g2)

theorem readValues_cons (jsonName : Bytes → Res (Option Bytes)) (op : MemOp) (ops : List MemOp) :
    readValues jsonName (op :: ops) = readValues jsonName [op] ++ readValues jsonName ops := by
  cases op with
  | alloc b => rfl
  | store a i v => rfl
  | read grow r => simp only [readValues]; cases Scan.readDerivation grow jsonName r <;> rfl

/-- C148: at every moment of a program, whatever it has assigned to its own arrays (also those that the texts came from), the derivations that it has read are
those that `ReadDerivation` returned. -/
theorem C148_stable (jsonName : Bytes → Res (Option Bytes)) (ops : List MemOp) (hc : CanStore false jsonName emptyMemProg ops) :
    let p := emptyMemProg.run false jsonName ops
    p.drvs.map (·.val p.mem.heap) = readValues jsonName ops := by
  have key : ∀ (ops : List MemOp) (p : MemProg), MemInv p → CanStore false jsonName p ops →
      (p.run false jsonName ops).drvs.map (·.val (p.run false jsonName ops).mem.heap) = p.drvs.map (·.val p.mem.heap) ++ readValues jsonName ops := by
    intro ops
    induction ops with
    | nil => intro p _ _; simp [MemProg.run, readValues]
    | cons op ops ih =>
      intro p hI hc
      obtain ⟨h1, h2⟩ := memStep jsonName hI op hc.1
      have := ih (p.step false jsonName op) h1 hc.2
      rw [h2] at this
      rw [readValues_cons, ← List.append_assoc]
      exact this
  simpa [emptyMemProg] using key ops emptyMemProg ⟨by simp [emptyMemProg], by simp [emptyMemProg]⟩ hc

/-- C148: `ReadDerivation` returns, in the memory as it then is, what it returns as a function of the bytes, also its errors, and touches no array that was
there before. -/
theorem C148_result (grow : Nat → Nat) (jsonName : Bytes → Res (Option Bytes)) (r : FReader) (m : Mem) :
    (∀ d, (readDerivationMem grow jsonName r m).1 = .ok d →
      Scan.readDerivation grow jsonName r = .ok (d.val (readDerivationMem grow jsonName r m).2.1.heap)) ∧
    (∀ e, (readDerivationMem grow jsonName r m).1 = .err e ↔ Scan.readDerivation grow jsonName r = .err e) ∧
    ((readDerivationMem grow jsonName r m).1 = .panic ↔ Scan.readDerivation grow jsonName r = .panic) ∧
    ∀ x, x < m.fresh → (readDerivationMem grow jsonName r m).2.1.heap x = m.heap x := by
  obtain ⟨h1, -, -, h4⟩ := readDerivationMem_spec grow jsonName r m
  rw [← h1]
  refine ⟨fun d hd => by rw [hd]; rfl, fun e => ?_, ?_, h4⟩
  · cases (readDerivationMem grow jsonName r m).1 <;> simp [mapR]
  · cases (readDerivationMem grow jsonName r m).1 <;> simp [mapR]

/-- The text of a derivation. -/
def memText : Bytes := b!"Derive([(\"out\",\"/nix/store/00000000000000000000000000000000-a\",\"\",\"\")],[],[],\"x\",\"/b\",[],[(\"name\",\"a\")])"

/-- A program that reads it, in two pieces, from a reader that keeps what it was given, and then assigns to that. -/
def keepingOps : List MemOp := [.read (fun n => 2 * n + 1) ⟨[memText.take 50, memText.drop 50], .eof, false⟩, .store 0 78 121]

/-- C148: the condition is needed: if the reader keeps the slices it was given, which `io.Reader` forbids, and assigns to them, the derivation changes. -/
theorem C148_keeping : CanStore true (fun _ => .panic) emptyMemProg keepingOps ∧
    (readValues (fun _ => .panic) keepingOps).map (·.platform) = [b!"x"] ∧
    let p := emptyMemProg.run true (fun _ => .panic) keepingOps
    (p.drvs.map (·.val p.mem.heap)).map (·.platform) = [b!"y"] := by
  refine ⟨⟨?_, ?_, trivial⟩, ?_, ?_⟩
  · intro a i v h; cases h
  · intro a i v h
    cases h
    decide +kernel
  · decide +kernel
  · decide +kernel

/-- A program for `C148_stable`: it reads two derivations, assigns to its own array in between, and has both. -/
example : let ops : List MemOp := [.alloc memText, .read (fun n => 2 * n) ⟨[memText], .eof, true⟩, .store 0 78 121,
      .read (fun n => 2 * n) ⟨[memText.take 7, [], memText.drop 7], .eof, false⟩, .store 0 79 0]
    CanStore false (fun _ => .panic) emptyMemProg ops ∧ (readValues (fun _ => .panic) ops).length = 2 := by
  refine ⟨⟨?_, ?_, ?_, ?_, ?_, trivial⟩, ?_⟩
  · intro a i v h; cases h
  · intro a i v h; cases h
  · intro a i v h
    cases h
    decide +kernel
  · intro a i v h; cases h
  · intro a i v h
    cases h
    decide +kernel
  · decide +kernel

end Verif.Props
