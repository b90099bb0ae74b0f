import Verif.Spec.DrvMem
import Verif.Lemmas.Scan

/-! # The parser on slices does what the parser on values does -/

namespace Verif.Derivation
open Verif.GoLib Verif.Wire Verif.Nixhash

/-- A result with its value changed. -/
def mapR {α β : Type} (f : α → β) : Res α → Res β
  | .ok a => .ok (f a)
  | .err e => .err e
  | .panic => .panic

theorem mapR_bind {α β γ δ : Type} {f : α → β} {g : γ → δ} {x : Res α} {y : Res β} {k : α → Res γ} {l : β → Res δ}
    (h : mapR f x = y) (hk : ∀ a, x = .ok a → mapR g (k a) = l (f a)) : mapR g (x >>= k) = (y >>= l) := by
  subst h
  cases x with
  | ok a => exact hk a rfl
  | err e => rfl
  | panic => rfl

variable {heap : Heap Bytes}

theorem slice_len {s : Slice} (h : s.Ok heap) : (s.bytes heap).length = s.len := by
  unfold Slice.bytes Slice.Ok at *
  rw [List.length_take, List.length_drop]; omega

theorem sub_bytes {s : Slice} (i n : Nat) (hin : i + n ≤ s.len) : (Slice.mk s.arr (s.off + i) n).bytes heap = ((s.bytes heap).drop i).take n := by
  unfold Slice.bytes
  rw [List.drop_take, List.drop_drop, List.take_take, Nat.min_eq_left (by omega)]

theorem unquoteSliceS_eq {b : Slice} (h : b.Ok heap) : mapR (·.val heap) (unquoteSliceS heap b) = unquoteSlice (b.bytes heap) := by
  unfold unquoteSliceS unquoteSlice
  have hl := slice_len h
  rw [hl]
  by_cases h1 : b.len < 2
  · simp [h1, mapR]
  · by_cases h2 : (b.bytes heap).head? ≠ some 34 ∨ (b.bytes heap).getLast? ≠ some 34
    · rw [if_neg h1, if_neg h1, if_pos h2, if_pos h2]; rfl
    · rw [if_neg h1, if_neg h1, if_neg h2, if_neg h2]
      simp only [mapR, Str.val]
      rw [sub_bytes 1 (b.len - 2) (by omega), List.dropLast_eq_take, List.length_drop, hl]
      congr 1

theorem unquoteS_eq {b : Slice} (h : b.Ok heap) : mapR (·.val heap) (unquoteS heap b) = unquote (b.bytes heap) := by
  unfold unquoteS unquote
  refine mapR_bind (unquoteSliceS_eq h) fun s _ => ?_
  by_cases h1 : (!(b.bytes heap).contains 92) = true
  · rw [if_pos h1, if_pos h1]; rfl
  · rw [if_neg h1, if_neg h1]
    by_cases h2 : unescape (s.val heap) = s.val heap
    · rw [if_pos h2, h2]; rfl
    · rw [if_neg h2]; rfl

theorem itemLoopS_eq (a : Addr) : ∀ (rest : Bytes) (count : Int) (esc ins : Bool) (start i : Nat), start ≤ i → rest <+: (heap a).drop i →
    (itemLoopS a count esc ins start i rest).map (·.bytes heap) = itemLoop count esc ins (((heap a).drop start).take (i - start)) rest ∧
    ∀ s ∈ itemLoopS a count esc ins start i rest, s.arr = a ∧ s.Ok heap := by
  intro rest
  induction rest with
  | nil => intro count esc ins start i _ _; exact ⟨rfl, by simp [itemLoopS]⟩
  | cons c cs ih =>
    intro count esc ins start i hsi hp
    obtain ⟨t, ht⟩ := hp
    have hcs : cs <+: (heap a).drop (i + 1) := by
      refine ⟨t, ?_⟩
      rw [← List.drop_drop, ← ht]
      rfl
    have hlen : i < (heap a).length := by
      have := congrArg List.length ht
      simp only [List.cons_append, List.length_cons, List.length_drop] at this
      omega
    have hcur : ((heap a).drop start).take (i + 1 - start) = ((heap a).drop start).take (i - start) ++ [c] := by
      have e1 : i + 1 - start = (i - start) + 1 := by omega
      have hg : (heap a)[i]? = some c := by
        have : ((heap a).drop i)[0]? = some c := by rw [← ht]; rfl
        simpa using this
      rw [e1, List.take_add_one]
      simp only [List.getElem?_drop]
      rw [show start + (i - start) = i by omega, hg]
      rfl
    have go : ∀ count esc ins, (itemLoopS a count esc ins start (i + 1) cs).map (·.bytes heap) =
        itemLoop count esc ins (((heap a).drop start).take (i - start) ++ [c]) cs ∧
        ∀ s ∈ itemLoopS a count esc ins start (i + 1) cs, s.arr = a ∧ s.Ok heap := by
      intro count esc ins
      have := ih count esc ins start (i + 1) (by omega) hcs
      rw [hcur] at this
      exact this
    unfold itemLoopS itemLoop
    by_cases h1 : esc = true
    · rw [if_pos h1, if_pos h1]; exact go _ _ _
    · rw [if_neg h1, if_neg h1]
      by_cases h2 : c = 92
      · rw [if_pos h2, if_pos h2]; exact go _ _ _
      · rw [if_neg h2, if_neg h2]
        by_cases h3 : c = 34
        · rw [if_pos h3, if_pos h3]; exact go _ _ _
        · rw [if_neg h3, if_neg h3]
          by_cases h4 : ins = true
          · rw [if_pos h4, if_pos h4]; exact go _ _ _
          · rw [if_neg h4, if_neg h4]
            by_cases h5 : (count = 1 ∧ c = 44) ∨ cs = []
            · rw [if_pos h5, if_pos h5]
              have := ih (depthAfter count c) false false (i + 1) (i + 1) (Nat.le_refl _) hcs
              rw [Nat.sub_self, List.take_zero] at this
              refine ⟨by rw [List.map_cons, this.1]; rfl, ?_⟩
              intro s hs
              rcases List.mem_cons.1 hs with rfl | hs
              · refine ⟨rfl, ?_⟩
                show start + (i - start) ≤ (heap a).length
                omega
              · exact this.2 s hs
            · rw [if_neg h5, if_neg h5]; exact go _ _ _

theorem arrayItemsS_eq {v : Slice} (h : v.Ok heap) : mapR (fun l => l.map (·.bytes heap)) (arrayItemsS heap v) = arrayItems (v.bytes heap) ∧
    ∀ l, arrayItemsS heap v = .ok l → ∀ s ∈ l, s.arr = v.arr ∧ s.Ok heap := by
  unfold arrayItemsS arrayItems
  have hl := slice_len h
  rw [hl]
  have key := itemLoopS_eq (heap := heap) v.arr ((v.bytes heap).drop 1) 1 false false (v.off + 1) (v.off + 1) (Nat.le_refl _) (by
    unfold Slice.bytes
    rw [List.drop_take, List.drop_drop]
    exact List.take_prefix _ _)
  rw [Nat.sub_self, List.take_zero] at key
  by_cases h1 : v.len < 2
  · simp [h1, mapR]
  · rw [if_neg h1, if_neg h1]
    by_cases h2 : v.len = 2
    · rw [if_pos h2, if_pos h2]; exact ⟨rfl, fun l hl => by cases hl; simp⟩
    · rw [if_neg h2, if_neg h2]
      split
      · split
        · exact ⟨rfl, fun l hl => by cases hl⟩
        · exact ⟨by rw [mapR, key.1], fun l hl => by cases hl; exact key.2⟩
      · split
        · split
          · exact ⟨rfl, fun l hl => by cases hl⟩
          · exact ⟨by rw [mapR, key.1], fun l hl => by cases hl; exact key.2⟩
        · exact ⟨rfl, fun l hl => by cases hl⟩

theorem callEachS_eq {σ τ : Type} {val : σ → τ} {f : σ → Slice → Nat → Res σ} {g : τ → Bytes → Nat → Res τ} {a : Addr}
    (hf : ∀ s v idx, v.arr = a → v.Ok heap → mapR val (f s v idx) = g (val s) (v.bytes heap) idx) :
    ∀ (l : List Slice) (s : σ) (idx : Nat), (∀ v ∈ l, v.arr = a ∧ v.Ok heap) →
      mapR val (callEachS f s idx l) = callEach g (val s) idx (l.map (·.bytes heap)) := by
  intro l
  induction l with
  | nil => intro s idx _; rfl
  | cons v vs ih =>
    intro s idx hl
    have hv := hl v List.mem_cons_self
    exact mapR_bind (hf s v idx hv.1 hv.2) fun s' _ => ih s' (idx + 1) fun w hw => hl w (List.mem_cons_of_mem _ hw)

theorem arrayEachS_eq {σ τ : Type} {val : σ → τ} {f : σ → Slice → Nat → Res σ} {g : τ → Bytes → Nat → Res τ} {v : Slice} (hv : v.Ok heap)
    (s : σ) {t : τ} (ht : val s = t) (hf : ∀ s w idx, w.arr = v.arr → w.Ok heap → mapR val (f s w idx) = g (val s) (w.bytes heap) idx) :
    mapR val (arrayEachS heap v s f) = arrayEach (v.bytes heap) t g := by
  subst ht
  obtain ⟨h1, h2⟩ := arrayItemsS_eq hv
  exact mapR_bind h1 fun l hl => callEachS_eq hf l s 0 (h2 l hl)

theorem arrayEachS_inv {σ : Type} {I : σ → Prop} {f : σ → Slice → Nat → Res σ} {v : Slice} (hv : v.Ok heap) {s : σ} (hs : I s)
    (hf : ∀ s w idx s', w.arr = v.arr → w.Ok heap → I s → f s w idx = .ok s' → I s') {s' : σ} (h : arrayEachS heap v s f = .ok s') : I s' := by
  obtain ⟨-, h2⟩ := arrayItemsS_eq hv
  unfold arrayEachS at h
  rw [Res.bind_eq_ok] at h
  obtain ⟨l, hl, h⟩ := h
  have hl' := h2 l hl
  clear hl h2
  generalize 0 = idx at h
  induction l generalizing s idx with
  | nil => simp only [callEachS, Res.ok.injEq] at h; rw [← h]; exact hs
  | cons w ws ih =>
    simp only [callEachS] at h
    rw [Res.bind_eq_ok] at h
    obtain ⟨s1, h1, h⟩ := h
    have hw := hl' w List.mem_cons_self
    exact ih (hf s w idx s1 hw.1 hw.2 hs h1) (fun x hx => hl' x (List.mem_cons_of_mem _ hx)) _ h

theorem stringListS_eq {v : Slice} (hv : v.Ok heap) : mapR (fun l => l.map (·.val heap)) (stringListS heap v) = stringList (v.bytes heap) := by
  unfold stringListS stringList
  refine arrayEachS_eq hv [] rfl fun s w idx _ hw => ?_
  exact mapR_bind (unquoteSliceS_eq hw) fun u _ => by simp [mapR]

theorem insertS_eq {α β : Type} (f : α → β) (k : Str) (x : α) : ∀ m : List (Str × α),
    (insertS heap m k x).map (fun e => (e.1.val heap, f e.2)) = GoMap.insert (m.map fun e => (e.1.val heap, f e.2)) (k.val heap) (f x) := by
  intro m
  induction m with
  | nil => rfl
  | cons e m ih =>
    obtain ⟨a, y⟩ := e
    simp only [insertS, List.map_cons, GoMap.insert]
    split
    · rfl
    · rw [List.map_cons, ih]

theorem getS_eq {α β : Type} (f : α → β) (k : Bytes) : ∀ m : List (Str × α),
    (getS heap m k).map f = GoMap.get? (m.map fun e => (e.1.val heap, f e.2)) k := by
  intro m
  induction m with
  | nil => rfl
  | cons e m ih =>
    obtain ⟨a, y⟩ := e
    simp only [getS, List.map_cons, GoMap.get?]
    split
    · rfl
    · exact ih

theorem outputFieldS_eq (prev : Str) (s : Str × SOutput) {w : Slice} (hw : w.Ok heap) (idx : Nat) :
    mapR (fun e => (e.1.val heap, e.2.val heap)) (outputFieldS heap prev s w idx) =
      outputField (prev.val heap) (s.1.val heap, s.2.val heap) (w.bytes heap) idx := by
  unfold outputFieldS outputField
  by_cases h0 : idx = 0
  · rw [if_pos h0, if_pos h0]
    refine mapR_bind (unquoteSliceS_eq hw) fun n _ => ?_
    by_cases h : strLe (n.val heap) (prev.val heap) = true
    · rw [if_pos h, if_pos h]; rfl
    · rw [if_neg h, if_neg h]; rfl
  · rw [if_neg h0, if_neg h0]
    by_cases h1 : idx = 1
    · rw [if_pos h1, if_pos h1]; exact mapR_bind (unquoteSliceS_eq hw) fun n _ => rfl
    · rw [if_neg h1, if_neg h1]
      by_cases h2 : idx = 2
      · rw [if_pos h2, if_pos h2]; exact mapR_bind (unquoteSliceS_eq hw) fun n _ => rfl
      · rw [if_neg h2, if_neg h2]
        by_cases h3 : idx = 3
        · rw [if_pos h3, if_pos h3]; exact mapR_bind (unquoteSliceS_eq hw) fun n _ => rfl
        · rw [if_neg h3, if_neg h3]; rfl

theorem outputItemS_eq (s : List (Str × SOutput) × Str) {w : Slice} (hw : w.Ok heap) (idx : Nat) :
    mapR (fun e => (e.1.map (fun e => (e.1.val heap, e.2.val heap)), e.2.val heap)) (outputItemS heap s w idx) =
      outputItem (s.1.map (fun e => (e.1.val heap, e.2.val heap)), s.2.val heap) (w.bytes heap) idx := by
  unfold outputItemS outputItem
  refine mapR_bind (f := fun e : Str × SOutput => (e.1.val heap, e.2.val heap))
    (arrayEachS_eq hw _ rfl fun s' x i _ hx => outputFieldS_eq s.2 s' hx i) fun o _ => ?_
  by_cases h : o.1.val heap = []
  · rw [if_pos h, if_pos h]; rfl
  · rw [if_neg h, if_neg h]
    simp only [mapR, insertS_eq (fun o : SOutput => o.val heap)]

theorem inputDrvFieldS_eq (prev : Str) (s : Str × List Str) {w : Slice} (hw : w.Ok heap) (idx : Nat) :
    mapR (fun e => (e.1.val heap, e.2.map (·.val heap))) (inputDrvFieldS heap prev s w idx) =
      inputDrvField (prev.val heap) (s.1.val heap, s.2.map (·.val heap)) (w.bytes heap) idx := by
  unfold inputDrvFieldS inputDrvField
  by_cases h0 : idx = 0
  · rw [if_pos h0, if_pos h0]
    refine mapR_bind (unquoteSliceS_eq hw) fun n _ => ?_
    by_cases h : strLe (n.val heap) (prev.val heap) = true
    · rw [if_pos h, if_pos h]; rfl
    · rw [if_neg h, if_neg h]; rfl
  · rw [if_neg h0, if_neg h0]
    by_cases h1 : idx = 1
    · rw [if_pos h1, if_pos h1]; exact mapR_bind (stringListS_eq hw) fun n _ => by simp [mapR]
    · rw [if_neg h1, if_neg h1]; rfl

theorem inputDrvItemS_eq (s : List (Str × List Str) × Str) {w : Slice} (hw : w.Ok heap) (idx : Nat) :
    mapR (fun e => (e.1.map (fun e => (e.1.val heap, e.2.map (·.val heap))), e.2.val heap)) (inputDrvItemS heap s w idx) =
      inputDrvItem (s.1.map (fun e => (e.1.val heap, e.2.map (·.val heap))), s.2.val heap) (w.bytes heap) idx := by
  unfold inputDrvItemS inputDrvItem
  refine mapR_bind (f := fun e : Str × List Str => (e.1.val heap, e.2.map (·.val heap)))
    (arrayEachS_eq hw _ rfl fun s' x i _ hx => inputDrvFieldS_eq s.2 s' hx i) fun o _ => ?_
  simp only [mapR, insertS_eq (fun o : List Str => o.map (·.val heap))]

theorem envFieldS_eq (prev : Str) (s : Str × Str) {w : Slice} (hw : w.Ok heap) (idx : Nat) :
    mapR (fun e => (e.1.val heap, e.2.val heap)) (envFieldS heap prev s w idx) =
      envField (prev.val heap) (s.1.val heap, s.2.val heap) (w.bytes heap) idx := by
  unfold envFieldS envField
  by_cases h0 : idx = 0
  · rw [if_pos h0, if_pos h0]
    refine mapR_bind (unquoteSliceS_eq hw) fun n _ => ?_
    by_cases h : strLe (n.val heap) (prev.val heap) = true
    · rw [if_pos h, if_pos h]; rfl
    · rw [if_neg h, if_neg h]; rfl
  · rw [if_neg h0, if_neg h0]
    by_cases h1 : idx = 1
    · rw [if_pos h1, if_pos h1]; exact mapR_bind (unquoteS_eq hw) fun n _ => rfl
    · rw [if_neg h1, if_neg h1]; rfl

theorem envItemS_eq (s : List (Str × Str) × Str) {w : Slice} (hw : w.Ok heap) (idx : Nat) :
    mapR (fun e => (e.1.map (fun e => (e.1.val heap, e.2.val heap)), e.2.val heap)) (envItemS heap s w idx) =
      envItem (s.1.map (fun e => (e.1.val heap, e.2.val heap)), s.2.val heap) (w.bytes heap) idx := by
  unfold envItemS envItem
  refine mapR_bind (f := fun e : Str × Str => (e.1.val heap, e.2.val heap))
    (arrayEachS_eq hw _ rfl fun s' x i _ hx => envFieldS_eq s.2 s' hx i) fun o _ => ?_
  simp only [mapR, insertS_eq (fun o : Str => o.val heap)]

theorem drvFieldS_eq (d : SDrv) {w : Slice} (hw : w.Ok heap) (idx : Nat) :
    mapR (·.val heap) (drvFieldS heap d w idx) = drvField (d.val heap) (w.bytes heap) idx := by
  unfold drvFieldS drvField
  by_cases h0 : idx = 0
  · rw [if_pos h0, if_pos h0]
    exact mapR_bind (f := fun e : List (Str × SOutput) × Str => (e.1.map (fun e => (e.1.val heap, e.2.val heap)), e.2.val heap))
      (arrayEachS_eq hw _ rfl fun s' x i _ hx => outputItemS_eq s' hx i) fun o _ => rfl
  · rw [if_neg h0, if_neg h0]
    by_cases h1 : idx = 1
    · rw [if_pos h1, if_pos h1]
      exact mapR_bind (f := fun e : List (Str × List Str) × Str => (e.1.map (fun e => (e.1.val heap, e.2.map (·.val heap))), e.2.val heap))
        (arrayEachS_eq hw _ rfl fun s' x i _ hx => inputDrvItemS_eq s' hx i) fun o _ => rfl
    · rw [if_neg h1, if_neg h1]
      by_cases h2 : idx = 2
      · rw [if_pos h2, if_pos h2]; exact mapR_bind (stringListS_eq hw) fun n _ => by simp [mapR, SDrv.val]
      · rw [if_neg h2, if_neg h2]
        by_cases h3 : idx = 3
        · rw [if_pos h3, if_pos h3]; exact mapR_bind (unquoteSliceS_eq hw) fun n _ => rfl
        · rw [if_neg h3, if_neg h3]
          by_cases h4 : idx = 4
          · rw [if_pos h4, if_pos h4]; exact mapR_bind (unquoteSliceS_eq hw) fun n _ => rfl
          · rw [if_neg h4, if_neg h4]
            by_cases h5 : idx = 5
            · rw [if_pos h5, if_pos h5]; exact mapR_bind (stringListS_eq hw) fun n _ => by simp [mapR, SDrv.val]
            · rw [if_neg h5, if_neg h5]
              by_cases h6 : idx = 6
              · rw [if_pos h6, if_pos h6]
                exact mapR_bind (f := fun e : List (Str × Str) × Str => (e.1.map (fun e => (e.1.val heap, e.2.val heap)), e.2.val heap))
                  (arrayEachS_eq hw _ rfl fun s' x i _ hx => envItemS_eq s' hx i) fun o _ => rfl
              · rw [if_neg h6, if_neg h6]; rfl

theorem parseDerivationS_eq (jsonName : Bytes → Res (Option Bytes)) {b : Slice} (hb : b.Ok heap) :
    mapR (·.val heap) (parseDerivationS jsonName heap b) = parseDerivation jsonName (b.bytes heap) := by
  unfold parseDerivationS parseDerivation
  have hl := slice_len hb
  rw [hl]
  by_cases h1 : b.len < 8
  · rw [if_pos h1, if_pos h1]; rfl
  · rw [if_neg h1, if_neg h1]
    by_cases h2 : (b.bytes heap).take 6 ≠ b!"Derive"
    · rw [if_pos h2, if_pos h2]; rfl
    · rw [if_neg h2, if_neg h2]
      have hok : (Slice.mk b.arr (b.off + 6) (b.len - 6)).Ok heap := by
        unfold Slice.Ok at *
        dsimp only
        omega
      have hbytes : (Slice.mk b.arr (b.off + 6) (b.len - 6)).bytes heap = (b.bytes heap).drop 6 := by
        rw [sub_bytes 6 (b.len - 6) (by omega), List.take_of_length_le]
        rw [List.length_drop, hl]; exact Nat.le_refl _
      rw [← hbytes]
      refine mapR_bind (arrayEachS_eq hok _ (show SDrv.val heap emptySDrv = emptyDrv from rfl) fun s x i _ hx => drvFieldS_eq s hx i) fun d _ => ?_
      have hg := getS_eq (heap := heap) (fun o : Str => o.val heap) b!"__json" d.env
      have he : (d.val heap).env = d.env.map fun e => (e.1.val heap, e.2.val heap) := rfl
      rw [he, ← hg]
      cases getS heap d.env b!"__json" with
      | none => rfl
      | some j =>
        simp only [Option.map_some]
        cases attrsName (jsonName (j.val heap)) <;> rfl

/-! ## Where the strings are -/

/-- The string is no part of another array than `a`. -/
def Str.In (a : Addr) : Str → Prop
  | .part s => s.arr = a
  | .own _ => True

/-- see `Str.In` -/
def SOutput.In (a : Addr) (o : SOutput) : Prop := o.path.In a ∧ o.hashAlgorithm.In a ∧ o.hash.In a

/-- see `Str.In` -/
structure SDrv.In (a : Addr) (d : SDrv) : Prop where
  name : d.name.In a
  outputs : ∀ e ∈ d.outputs, e.1.In a ∧ e.2.In a
  inputSources : ∀ s ∈ d.inputSources, s.In a
  inputDerivations : ∀ e ∈ d.inputDerivations, e.1.In a ∧ ∀ s ∈ e.2, s.In a
  platform : d.platform.In a
  builder : d.builder.In a
  arguments : ∀ s ∈ d.arguments, s.In a
  env : ∀ e ∈ d.env, e.1.In a ∧ e.2.In a

theorem str_stable {a : Addr} {h h' : Heap Bytes} (he : h' a = h a) {s : Str} (hs : s.In a) : s.val h' = s.val h := by
  cases s with
  | own b => rfl
  | part p => unfold Str.In at hs; simp only [Str.val, Slice.bytes, hs, he]

theorem strs_stable {a : Addr} {h h' : Heap Bytes} (he : h' a = h a) {l : List Str} (hs : ∀ s ∈ l, s.In a) : l.map (·.val h') = l.map (·.val h) :=
  List.map_congr_left fun s hm => str_stable he (hs s hm)

theorem drv_stable {a : Addr} {h h' : Heap Bytes} (he : h' a = h a) {d : SDrv} (hd : d.In a) : d.val h' = d.val h := by
  unfold SDrv.val
  rw [str_stable he hd.name, str_stable he hd.platform, str_stable he hd.builder, strs_stable he hd.inputSources, strs_stable he hd.arguments]
  congr 1
  · refine List.map_congr_left fun e hm => ?_
    obtain ⟨h1, h2, h3, h4⟩ := hd.outputs e hm
    simp only [SOutput.val, str_stable he h1, str_stable he h2, str_stable he h3, str_stable he h4]
  · refine List.map_congr_left fun e hm => ?_
    obtain ⟨h1, h2⟩ := hd.inputDerivations e hm
    rw [str_stable he h1, strs_stable he h2]
  · refine List.map_congr_left fun e hm => ?_
    obtain ⟨h1, h2⟩ := hd.env e hm
    rw [str_stable he h1, str_stable he h2]

theorem unquoteSliceS_in {b : Slice} {s : Str} (h : unquoteSliceS heap b = .ok s) : s.In b.arr := by
  unfold unquoteSliceS at h
  split at h
  · cases h
  · split at h
    · cases h
    · cases h; rfl

theorem unquoteS_in {b : Slice} {s : Str} (h : unquoteS heap b = .ok s) : s.In b.arr := by
  unfold unquoteS at h
  rw [Res.bind_eq_ok] at h
  obtain ⟨u, hu, h⟩ := h
  split at h
  · cases h; exact unquoteSliceS_in hu
  · split at h
    · cases h; exact unquoteSliceS_in hu
    · cases h; trivial

theorem stringListS_in {v : Slice} (hv : v.Ok heap) {l : List Str} (h : stringListS heap v = .ok l) : ∀ s ∈ l, s.In v.arr := by
  refine arrayEachS_inv (I := fun l : List Str => ∀ s ∈ l, s.In v.arr) hv (by simp) ?_ h
  intro s w idx s' hw _ hs he
  rw [Res.bind_eq_ok] at he
  obtain ⟨u, hu, he⟩ := he
  cases he
  intro x hx
  rcases List.mem_append.1 hx with hx | hx
  · exact hs x hx
  · rw [List.mem_singleton.1 hx, ← hw]; exact unquoteSliceS_in hu

theorem insertS_in {α : Type} {P : Str × α → Prop} {k : Str} {x : α} (hk : P (k, x)) : ∀ {m : List (Str × α)}, (∀ e ∈ m, P e) →
    ∀ e ∈ insertS heap m k x, P e := by
  intro m
  induction m with
  | nil => intro _ e he; rw [List.mem_singleton.1 he]; exact hk
  | cons b m ih =>
    obtain ⟨b, y⟩ := b
    intro hm e he
    simp only [insertS] at he
    split at he
    · rcases List.mem_cons.1 he with rfl | he
      · exact hk
      · exact hm e (List.mem_cons_of_mem _ he)
    · rcases List.mem_cons.1 he with rfl | he
      · exact hm _ List.mem_cons_self
      · exact ih (fun e he => hm e (List.mem_cons_of_mem _ he)) e he

theorem outputItemS_in {s s' : List (Str × SOutput) × Str} {w : Slice} {idx : Nat} (hw : w.Ok heap)
    (hs : ∀ e ∈ s.1, e.1.In w.arr ∧ e.2.In w.arr) (h : outputItemS heap s w idx = .ok s') : ∀ e ∈ s'.1, e.1.In w.arr ∧ e.2.In w.arr := by
  unfold outputItemS at h
  rw [Res.bind_eq_ok] at h
  obtain ⟨o, ho, h⟩ := h
  have hin : o.1.In w.arr ∧ o.2.In w.arr := by
    refine arrayEachS_inv (I := fun o : Str × SOutput => o.1.In w.arr ∧ o.2.In w.arr) hw (s := (Str.own [], ⟨.own [], .own [], .own []⟩)) ⟨trivial, trivial, trivial, trivial⟩ ?_ ho
    intro t x i t' hx _ ⟨h1, h2, h3, h4⟩ he
    unfold outputFieldS at he
    rw [← hx] at h1 h2 h3 h4 ⊢
    split at he
    · rw [Res.bind_eq_ok] at he
      obtain ⟨n, hn, he⟩ := he
      split at he
      · cases he
      · cases he; exact ⟨unquoteSliceS_in hn, h2, h3, h4⟩
    · split at he
      · rw [Res.bind_eq_ok] at he
        obtain ⟨n, hn, he⟩ := he
        cases he; exact ⟨h1, unquoteSliceS_in hn, h3, h4⟩
      · split at he
        · rw [Res.bind_eq_ok] at he
          obtain ⟨n, hn, he⟩ := he
          cases he; exact ⟨h1, h2, unquoteSliceS_in hn, h4⟩
        · split at he
          · rw [Res.bind_eq_ok] at he
            obtain ⟨n, hn, he⟩ := he
            cases he; exact ⟨h1, h2, h3, unquoteSliceS_in hn⟩
          · cases he
  split at h
  · cases h
  · cases h
    exact insertS_in (P := fun e : Str × SOutput => e.1.In w.arr ∧ e.2.In w.arr) hin hs

theorem inputDrvItemS_in {s s' : List (Str × List Str) × Str} {w : Slice} {idx : Nat} (hw : w.Ok heap)
    (hs : ∀ e ∈ s.1, e.1.In w.arr ∧ ∀ x ∈ e.2, x.In w.arr) (h : inputDrvItemS heap s w idx = .ok s') :
    ∀ e ∈ s'.1, e.1.In w.arr ∧ ∀ x ∈ e.2, x.In w.arr := by
  unfold inputDrvItemS at h
  rw [Res.bind_eq_ok] at h
  obtain ⟨o, ho, h⟩ := h
  have hin : o.1.In w.arr ∧ ∀ x ∈ o.2, x.In w.arr := by
    refine arrayEachS_inv (I := fun o : Str × List Str => o.1.In w.arr ∧ ∀ x ∈ o.2, x.In w.arr) hw (s := (Str.own [], [])) ⟨trivial, by simp⟩ ?_ ho
    intro t x i t' hx hxo ⟨h1, h2⟩ he
    unfold inputDrvFieldS at he
    rw [← hx] at h1 h2 ⊢
    split at he
    · rw [Res.bind_eq_ok] at he
      obtain ⟨n, hn, he⟩ := he
      split at he
      · cases he
      · cases he; exact ⟨unquoteSliceS_in hn, h2⟩
    · split at he
      · rw [Res.bind_eq_ok] at he
        obtain ⟨n, hn, he⟩ := he
        cases he
        refine ⟨h1, fun y hy => ?_⟩
        rcases List.mem_append.1 hy with hy | hy
        · exact h2 y hy
        · exact stringListS_in hxo hn y hy
      · cases he
  cases h
  exact insertS_in (P := fun e : Str × List Str => e.1.In w.arr ∧ ∀ x ∈ e.2, x.In w.arr) hin hs

theorem envItemS_in {s s' : List (Str × Str) × Str} {w : Slice} {idx : Nat} (hw : w.Ok heap)
    (hs : ∀ e ∈ s.1, e.1.In w.arr ∧ e.2.In w.arr) (h : envItemS heap s w idx = .ok s') : ∀ e ∈ s'.1, e.1.In w.arr ∧ e.2.In w.arr := by
  unfold envItemS at h
  rw [Res.bind_eq_ok] at h
  obtain ⟨o, ho, h⟩ := h
  have hin : o.1.In w.arr ∧ o.2.In w.arr := by
    refine arrayEachS_inv (I := fun o : Str × Str => o.1.In w.arr ∧ o.2.In w.arr) hw (s := (Str.own [], Str.own [])) ⟨trivial, trivial⟩ ?_ ho
    intro t x i t' hx _ ⟨h1, h2⟩ he
    unfold envFieldS at he
    rw [← hx] at h1 h2 ⊢
    split at he
    · rw [Res.bind_eq_ok] at he
      obtain ⟨n, hn, he⟩ := he
      split at he
      · cases he
      · cases he; exact ⟨unquoteSliceS_in hn, h2⟩
    · split at he
      · rw [Res.bind_eq_ok] at he
        obtain ⟨n, hn, he⟩ := he
        cases he
        exact ⟨h1, unquoteS_in hn⟩
      · cases he
  cases h
  exact insertS_in (P := fun e : Str × Str => e.1.In w.arr ∧ e.2.In w.arr) hin hs

theorem drvFieldS_in {d d' : SDrv} {w : Slice} {idx : Nat} (hw : w.Ok heap) (hd : d.In w.arr) (h : drvFieldS heap d w idx = .ok d') : d'.In w.arr := by
  unfold drvFieldS at h
  split at h
  · rw [Res.bind_eq_ok] at h
    obtain ⟨m, hm, h⟩ := h
    cases h
    refine { hd with outputs := ?_ }
    refine arrayEachS_inv (I := fun s : List (Str × SOutput) × Str => ∀ e ∈ s.1, e.1.In w.arr ∧ e.2.In w.arr) hw (by simp) ?_ hm
    intro s x i s' hx hxo hs he
    rw [← hx] at hs ⊢
    exact outputItemS_in hxo hs he
  · split at h
    · rw [Res.bind_eq_ok] at h
      obtain ⟨m, hm, h⟩ := h
      cases h
      refine { hd with inputDerivations := ?_ }
      refine arrayEachS_inv (I := fun s : List (Str × List Str) × Str => ∀ e ∈ s.1, e.1.In w.arr ∧ ∀ x ∈ e.2, x.In w.arr) hw (by simp) ?_ hm
      intro s x i s' hx hxo hs he
      rw [← hx] at hs ⊢
      exact inputDrvItemS_in hxo hs he
    · split at h
      · rw [Res.bind_eq_ok] at h
        obtain ⟨l, hl, h⟩ := h
        cases h
        refine { hd with inputSources := fun s hs => ?_ }
        rcases List.mem_append.1 hs with hs | hs
        · exact hd.inputSources s hs
        · exact stringListS_in hw hl s hs
      · split at h
        · rw [Res.bind_eq_ok] at h
          obtain ⟨x, hx, h⟩ := h
          cases h
          exact { hd with platform := unquoteSliceS_in hx }
        · split at h
          · rw [Res.bind_eq_ok] at h
            obtain ⟨x, hx, h⟩ := h
            cases h
            exact { hd with builder := unquoteSliceS_in hx }
          · split at h
            · rw [Res.bind_eq_ok] at h
              obtain ⟨l, hl, h⟩ := h
              cases h
              refine { hd with arguments := fun s hs => ?_ }
              rcases List.mem_append.1 hs with hs | hs
              · exact hd.arguments s hs
              · exact stringListS_in hw hl s hs
            · split at h
              · rw [Res.bind_eq_ok] at h
                obtain ⟨m, hm, h⟩ := h
                cases h
                refine { hd with env := ?_ }
                refine arrayEachS_inv (I := fun s : List (Str × Str) × Str => ∀ e ∈ s.1, e.1.In w.arr ∧ e.2.In w.arr) hw (by simp) ?_ hm
                intro s x i s' hx hxo hs he
                rw [← hx] at hs ⊢
                exact envItemS_in hxo hs he
              · cases h

theorem parseDerivationS_in {jsonName : Bytes → Res (Option Bytes)} {b : Slice} (hb : b.Ok heap) {d : SDrv}
    (h : parseDerivationS jsonName heap b = .ok d) : d.In b.arr := by
  unfold parseDerivationS at h
  split at h
  · cases h
  · rename_i hlen
    split at h
    · cases h
    · rw [Res.bind_eq_ok] at h
      obtain ⟨d0, h0, h⟩ := h
      have hok : (Slice.mk b.arr (b.off + 6) (b.len - 6)).Ok heap := by
        unfold Slice.Ok at *
        dsimp only
        omega
      have hin : d0.In b.arr := by
        refine arrayEachS_inv (I := fun d : SDrv => d.In b.arr) hok (s := emptySDrv) ⟨trivial, by simp [emptySDrv], by simp [emptySDrv], by simp [emptySDrv], trivial, trivial,
          by simp [emptySDrv], by simp [emptySDrv]⟩ ?_ h0
        intro s x i s' hx hxo hs he
        have hx' : x.arr = b.arr := hx
        rw [← hx'] at hs ⊢
        exact drvFieldS_in hxo hs he
      split at h
      · cases h; exact hin
      · rw [Res.bind_eq_ok] at h
        obtain ⟨n, _, h⟩ := h
        cases h
        exact { hin with name := trivial }

/-! ## `io.ReadAll` -/

theorem read_le (r : FReader) (k : Nat) : (r.read k).1.1.length ≤ k := by
  unfold FReader.read
  split
  · simp
  · split
    · rename_i h
      split <;> exact h
    · simp [List.length_take]; omega

theorem readAllMem_spec (grow : Nat → Nat) : ∀ (fuel : Nat) (r : FReader) (m : Mem) (a : Addr) (len : Nat) (given : List Slice) (b : Bytes) (c : Nat),
    a < m.fresh → len ≤ (m.heap a).length → (m.heap a).take len = b → (if len = (m.heap a).length then c = grow len else c = (m.heap a).length) →
    let R := readAllMem grow fuel r m a len given
    let S := Scan.readAllLoop grow fuel r b c
    R.1.1.bytes R.2.1.heap = S.1.1 ∧ R.1.2 = S.1.2 ∧ R.1.1.Ok R.2.1.heap ∧ (R.1.1.arr = a ∨ m.fresh ≤ R.1.1.arr) ∧ R.1.1.arr < R.2.1.fresh ∧
    m.fresh ≤ R.2.1.fresh ∧ ∀ x, x ≠ a → x < m.fresh → R.2.1.heap x = m.heap x := by
  intro fuel
  induction fuel with
  | zero =>
    intro r m a len given b c ha hlen hb _
    refine ⟨?_, rfl, ?_, .inl rfl, ha, Nat.le_refl _, fun _ _ _ => rfl⟩
    · simpa [readAllMem, Scan.readAllLoop, Slice.bytes] using hb
    · simpa [readAllMem, Slice.Ok] using hlen
  | succ fuel ih =>
    intro r m a len given b c ha hlen hb hc
    have hbl : b.length = len := by rw [← hb, List.length_take]; omega
    -- the memory before the read
    obtain ⟨m1, hm1⟩ : ∃ m1, m1 = if len = (m.heap a).length then m.alloc ((m.heap a) ++ List.replicate (grow len - len) 0) else m := ⟨_, rfl⟩
    obtain ⟨a1, ha1⟩ : ∃ a1, a1 = if len = (m.heap a).length then m.fresh else a := ⟨_, rfl⟩
    have key : a1 < m1.fresh ∧ len ≤ (m1.heap a1).length ∧ (m1.heap a1).take len = b ∧ (m1.heap a1).length - len = c - len ∧
        (a1 = a ∨ m.fresh ≤ a1) ∧ m.fresh ≤ m1.fresh ∧ (∀ x, x ≠ a → x < m.fresh → m1.heap x = m.heap x ∧ x ≠ a1) ∧
        (((m1.heap a1).length = len ∧ c = grow len) ∨ (m1.heap a1).length = c) := by
      by_cases h : len = (m.heap a).length
      · rw [if_pos h] at hm1 ha1 hc
        subst hm1 ha1 hc
        have e : (m.alloc ((m.heap a) ++ List.replicate (grow len - len) 0)).heap m.fresh = (m.heap a) ++ List.replicate (grow len - len) 0 := by
          simp [Mem.alloc, Heap.set]
        rw [e]
        refine ⟨by simp [Mem.alloc], by simp; omega, ?_, by simp [List.length_append]; omega, .inr (Nat.le_refl _), by simp [Mem.alloc], ?_, ?_⟩
        · rw [List.take_append_of_le_length (by omega)]; exact hb
        · intro x hxa hx
          refine ⟨?_, Nat.ne_of_lt hx⟩
          simp only [Mem.alloc, Heap.set]
          rw [if_neg (Nat.ne_of_lt hx)]
        · rw [List.length_append, List.length_replicate]
          by_cases hg : grow len ≤ len
          · exact .inl ⟨by omega, rfl⟩
          · exact .inr (by omega)
      · rw [if_neg h] at hm1 ha1 hc
        subst hm1 ha1 hc
        exact ⟨ha, hlen, hb, rfl, .inl rfl, Nat.le_refl _, fun x hxa _ => ⟨rfl, hxa⟩, .inr rfl⟩
    obtain ⟨k1, k2, k3, k4, k5, k6, k7, k8⟩ := key
    have hread := read_le r (c - len)
    simp only [readAllMem, Scan.readAllLoop]
    rw [← hm1, ← ha1, k4, hbl]
    rcases hr : r.read (c - len) with ⟨⟨d, e⟩, r'⟩
    rw [hr] at hread
    dsimp only at hread ⊢
    have hdl : len + d.length ≤ (m1.heap a1).length := by omega
    have hov : ((m1.heap.set a1 (overwrite (m1.heap a1) len d)) a1) = b ++ d ++ (m1.heap a1).drop (len + d.length) := by
      simp only [Heap.set, if_pos, overwrite, k3]
    have hovl : ((m1.heap.set a1 (overwrite (m1.heap a1) len d)) a1).length = (m1.heap a1).length := by
      rw [hov]; simp only [List.length_append, List.length_drop, hbl]; omega
    have hot : ((m1.heap.set a1 (overwrite (m1.heap a1) len d)) a1).take (len + d.length) = b ++ d := by
      rw [hov, List.take_append_of_le_length (by simp [hbl]), List.take_of_length_le (by simp [hbl])]
    have hx : ∀ x, x ≠ a → x < m.fresh → (m1.heap.set a1 (overwrite (m1.heap a1) len d)) x = m.heap x := by
      intro x hxa hxf
      obtain ⟨h1, h2⟩ := k7 x hxa hxf
      simp only [Heap.set, if_neg h2, h1]
    cases e with
    | some e =>
      dsimp only
      refine ⟨?_, rfl, ?_, k5, k1, k6, hx⟩
      · simp only [Slice.bytes, List.drop_zero]; exact hot
      · simp only [Slice.Ok, Nat.zero_add]; rw [hovl]; exact hdl
    | none =>
      dsimp only
      have := ih r' ⟨m1.heap.set a1 (overwrite (m1.heap a1) len d), m1.fresh⟩ a1 (len + d.length)
        (given ++ [⟨a1, len, c - len⟩]) (b ++ d) (if (b ++ d).length = c then grow c else c) k1 (by dsimp only; rw [hovl]; exact hdl) hot (by
          dsimp only
          rw [hovl, List.length_append, hbl]
          by_cases h : len + d.length = (m1.heap a1).length
          · rw [if_pos h]
            rcases k8 with k8 | k8
            · have : d.length = 0 := by omega
              rw [this, Nat.add_zero, k8.2]
              split
              · rename_i h'; exact congrArg grow h'.symm
              · rfl
            · rw [if_pos (by omega)]; congr 1; omega
          · rw [if_neg h]
            rcases k8 with k8 | k8
            · omega
            · rw [if_neg (by omega)]; exact k8.symm)
      obtain ⟨i1, i2, i3, i4, i5, i6, i7⟩ := this
      refine ⟨i1, i2, i3, ?_, i5, Nat.le_trans k6 i6, ?_⟩
      · rcases i4 with i4 | i4
        · rw [i4]; exact k5
        · exact .inr (Nat.le_trans k6 i4)
      · intro x hxa hxf
        rw [i7 x (k7 x hxa hxf).2 (Nat.lt_of_lt_of_le hxf k6)]
        exact hx x hxa hxf

end Verif.Derivation
