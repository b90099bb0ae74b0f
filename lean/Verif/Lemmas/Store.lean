import Verif.Spec.Store
import Verif.Lemmas.Path
import Verif.Lemmas.DrvPaths
import Verif.Props.DrvPaths

/-! # Lemmas about derivation stores -/

namespace Verif.Store
open Verif.GoLib Verif.Derivation
open Verif.Spec (childPath)

theorem replaceInputs_total {repl : GoMap Bytes} (l : GoMap (List Bytes)) (h : ∀ i ∈ l, repl.get? i.1 ≠ none) :
    ∀ acc, ∃ m, replaceInputs repl acc l = .ok m := by
  induction l with
  | nil => intro acc; exact ⟨acc, rfl⟩
  | cons p l ih =>
    intro acc
    obtain ⟨k, v⟩ := p
    rw [replaceInputs]
    cases hg : repl.get? k with
    | none => exact absurd hg (h (k, v) (by simp))
    | some r => exact ih (fun i hi => h i (by simp [hi])) _

theorem aterm_ok {d : Derivation} {repl : GoMap Bytes} (h : ∀ i ∈ d.inputDerivations, repl.get? i.1 ≠ none) (strip : Bool) :
    ∃ t, aterm d strip repl = .ok t := by
  rw [aterm_eq]
  unfold writtenInputs
  split
  · exact ⟨_, rfl⟩
  · obtain ⟨m, hm⟩ := replaceInputs_total d.inputDerivations h []
    rw [hm]; exact ⟨_, rfl⟩

theorem replaceInputs_congr {R R' : GoMap Bytes} (l : GoMap (List Bytes)) (h : ∀ i ∈ l, R.get? i.1 = R'.get? i.1) :
    ∀ acc, replaceInputs R acc l = replaceInputs R' acc l := by
  induction l with
  | nil => intro acc; rfl
  | cons p l ih =>
    intro acc
    obtain ⟨k, v⟩ := p
    rw [replaceInputs, replaceInputs, ← h (k, v) (by simp)]
    cases R.get? k with
    | none => rfl
    | some r => exact ih (fun i hi => h i (by simp [hi])) _

/-- Only the replacements of the inputs matter. -/
theorem aterm_restrict {d : Derivation} {R R' : GoMap Bytes}
    (h : ∀ i ∈ d.inputDerivations, R.get? i.1 ≠ none ∧ R.get? i.1 = R'.get? i.1) (strip : Bool) :
    aterm d strip R = aterm d strip R' := by
  rw [aterm_eq, aterm_eq]
  have : writtenInputs d R = writtenInputs d R' := by
    unfold writtenInputs
    cases hd : d.inputDerivations with
    | nil => simp [replaceInputs]
    | cons i l =>
      have hi := h i (by rw [hd]; simp)
      have h1 : ¬ R.length = 0 := by
        intro e
        have : R = [] := List.eq_nil_of_length_eq_zero e
        rw [this] at hi; exact hi.1 rfl
      have h2 : ¬ R'.length = 0 := by
        intro e
        have : R' = [] := List.eq_nil_of_length_eq_zero e
        rw [this] at hi; exact hi.1 hi.2
      rw [if_neg h1, if_neg h2, ← hd]
      exact replaceInputs_congr _ (fun i hi => (h i hi).2) _
  rw [this]

theorem outputPathsLoop_repl (H : Bytes → Bytes) {d : Derivation} {R R' : GoMap Bytes} (n : Bytes) (l : GoMap Output)
    (hf : ∀ o ∈ l, outputPath H d R n o.1 o.2 = outputPath H d R' n o.1 o.2) :
    ∀ acc, outputPathsLoop H d R n acc l = outputPathsLoop H d R' n acc l := by
  induction l with
  | nil => intro acc; rfl
  | cons p l ih =>
    intro acc
    obtain ⟨k, o⟩ := p
    have := hf (k, o) (by simp)
    simp only at this
    simp only [outputPathsLoop, this]
    cases outputPath H d R' n k o with
    | ok p => exact ih (fun o ho => hf o (by simp [ho])) _
    | err e => rfl
    | panic => rfl

theorem calculateOutputPaths_repl (H : Bytes → Bytes) {d : Derivation} {R R' : GoMap Bytes}
    (h : (∃ o ∈ d.outputs, o.2.hashAlgorithm = []) → aterm d true R = aterm d true R') :
    calculateOutputPaths H d R = calculateOutputPaths H d R' := by
  unfold calculateOutputPaths
  split
  · rfl
  · exact outputPathsLoop_repl H _ _ (fun o ho => outputPath_congr H _ _ (fun e => h ⟨o, ho, e⟩) rfl rfl) _

theorem calculateDrvReplacement_repl (H : Bytes → Bytes) {d : Derivation} {R R' : GoMap Bytes}
    (h : fixedOutput d = none → aterm d false R = aterm d false R') :
    calculateDrvReplacement H d R = calculateDrvReplacement H d R' := by
  unfold calculateDrvReplacement
  cases hf : fixedOutput d with
  | some o => rfl
  | none => simp only; rw [h hf]

theorem calculateDrvReplacement_ok (H : Bytes → Bytes) {d : Derivation} {R : GoMap Bytes}
    (h : ∀ i ∈ d.inputDerivations, R.get? i.1 ≠ none) : ∃ r, calculateDrvReplacement H d R = .ok r := by
  unfold calculateDrvReplacement
  cases fixedOutput d with
  | some o => exact ⟨_, rfl⟩
  | none =>
    obtain ⟨t, ht⟩ := aterm_ok h false
    simp only [ht]
    exact ⟨_, rfl⟩

/-! ### The iterator of Badger -/

theorem hasKey_iff (key : Bytes) (l : List Bytes) : hasKey key l = true ↔ key ∈ l := by
  induction l with
  | nil => simp [hasKey]
  | cons k l ih =>
    unfold hasKey
    by_cases h : k = key
    · simp [h]
    · rw [if_neg h, ih]; simp [Ne.symm h]

theorem mem_dropWhile_of {P : Bytes → Bool} {l : List Bytes} {x : Bytes} (hx : P x = false) :
    x ∈ l.dropWhile P ↔ x ∈ l := by
  induction l with
  | nil => simp
  | cons a l ih =>
    by_cases h : P a = true
    · rw [List.dropWhile_cons, if_pos h, ih]
      have : x ≠ a := by rintro rfl; rw [hx] at h; simp at h
      simp [this]
    · rw [List.dropWhile_cons, if_neg h]

/-- `Has` tells whether there is the key. -/
theorem badger_has (db : Badger) (p : Bytes) : db.has p = .ok (db.get? (b!"drv:" ++ p)).isSome := by
  unfold Badger.has Badger.seek
  congr 1
  rw [Bool.eq_iff_iff, hasKey_iff, mem_dropWhile_of, mem_sortStrings, GoMap.get?_isSome]
  simp [strLe_refl]


theorem checkInputs_iff (f : Bytes → Bool) (l : List Bytes) :
    checkInputs (fun p => .ok (f p)) l = .ok () ↔ ∀ p ∈ l, f p = true := by
  induction l with
  | nil => simp [checkInputs]
  | cons p l ih =>
    simp only [checkInputs]
    cases hf : f p with
    | false => simp [hf]
    | true => simp [hf, ih]

theorem validateInStore_iff (f : Bytes → Bool) (d : Derivation) :
    validateInStore (fun p => .ok (f p)) d = .ok () ↔ d.validate = .ok () ∧ ∀ i ∈ d.inputDerivations, f i.1 = true := by
  unfold validateInStore
  cases hv : d.validate with
  | ok u =>
    simp only
    rw [checkInputs_iff]
    simp [GoMap.keys]
  | err e => simp
  | panic => simp

theorem comparePaths_iff {d : Derivation} (m : GoMap Bytes) :
    comparePaths d m = .ok () ↔ ∀ e ∈ m, ∃ o, d.outputs.get? e.1 = some o ∧ e.2 = o.path := by
  induction m with
  | nil => simp [comparePaths]
  | cons p m ih =>
    obtain ⟨k, v⟩ := p
    rw [comparePaths]
    cases hg : d.outputs.get? k with
    | none => simp [hg]
    | some o =>
      simp only
      by_cases h : v = o.path
      · simp [h, ih, hg]
      · simp [h, hg]

theorem checkOutputPaths_iff (H : Bytes → Bytes) {d : Derivation} (hm : d.outputs.keys.Nodup) (R : GoMap Bytes) :
    checkOutputPaths H d R = .ok () ↔ PathsCalculated H R d := by
  unfold checkOutputPaths PathsCalculated
  cases hc : calculateOutputPaths H d R with
  | err e => simp
  | panic => simp
  | ok m =>
    simp only [Res.ok.injEq, exists_eq_left']
    rw [comparePaths_iff]
    unfold calculateOutputPaths at hc
    split at hc
    · cases hc
    rcases outputPathsLoop_spec H d R d.getName hm with ⟨f, h1, h2⟩ | ⟨_, h2⟩
    · rw [h2] at hc
      have hm' := Res.ok.inj hc
      have hk : m.keys = d.outputs.keys := by rw [← hm']; simp [GoMap.keys, Function.comp_def]
      have hnd : m.keys.Nodup := by rw [hk]; exact hm
      constructor
      · intro h o ho
        have hmem : (o.1, f o.1 o.2) ∈ m := by rw [← hm']; exact List.mem_map.2 ⟨o, ho, rfl⟩
        obtain ⟨o', ho', he⟩ := h _ hmem
        simp only at ho' he
        rw [GoMap.get?_of_mem hm ho] at ho'
        rw [GoMap.get?_of_mem hnd hmem, he, ← Option.some.inj ho']
      · intro h e he
        rw [← hm'] at he
        obtain ⟨o, ho, rfl⟩ := List.mem_map.1 he
        refine ⟨o.2, GoMap.get?_of_mem hm ho, ?_⟩
        have := h o ho
        rw [GoMap.get?_of_mem hnd (show (o.1, f o.1 o.2) ∈ m by rw [← hm']; exact List.mem_map.2 ⟨o, ho, rfl⟩)] at this
        exact Option.some.inj this
    · rw [h2] at hc; cases hc

theorem putPath_iff (H : Bytes → Bytes) (ms : MapStore) {d : Derivation} (hm : d.outputs.keys.Nodup) (p : Bytes) :
    ms.putPath H d = .ok p ↔ d.validate = .ok () ∧ (∀ i ∈ d.inputDerivations, (ms.drvs.get? i.1).isSome = true) ∧
      PathsCalculated H ms.drvReplacements d ∧ drvPath H d = .ok p := by
  unfold MapStore.putPath
  rw [Res.bind_eq_ok]
  have e : ms.has = fun p => .ok (ms.drvs.get? p).isSome := rfl
  rw [e]
  constructor
  · rintro ⟨_, h1, h2⟩
    rw [Res.bind_eq_ok] at h2
    obtain ⟨_, h2, h3⟩ := h2
    obtain ⟨h4, h5⟩ := (validateInStore_iff _ d).1 h1
    exact ⟨h4, h5, (checkOutputPaths_iff H hm _).1 h2, h3⟩
  · rintro ⟨h1, h2, h3, h4⟩
    refine ⟨(), (validateInStore_iff _ d).2 ⟨h1, h2⟩, ?_⟩
    rw [Res.bind_eq_ok]
    exact ⟨(), (checkOutputPaths_iff H hm _).2 h3, h4⟩

/-- Every stored derivation has a replacement. -/
def MInv (ms : MapStore) : Prop := ∀ p, (ms.drvs.get? p).isSome = true → ms.drvReplacements.get? p ≠ none

theorem mInv_new : MInv newMapStore := by intro p h; simp [newMapStore, GoMap.get?] at h

theorem mInv_insert {ms : MapStore} (h : MInv ms) (p r : Bytes) (d : Derivation) :
    MInv ⟨ms.drvs.insert p d, ms.drvReplacements.insert p r⟩ := by
  intro q hq
  show GoMap.get? (ms.drvReplacements.insert p r) q ≠ none
  change (GoMap.get? (ms.drvs.insert p d) q).isSome = true at hq
  rw [GoMap.get?_insert] at hq ⊢
  split
  · simp
  · rename_i hne
    rw [if_neg hne] at hq
    exact h q hq

theorem putPath_inputs {H : Bytes → Bytes} {ms : MapStore} {d : Derivation} {p : Bytes} (h : ms.putPath H d = .ok p) :
    ∀ i ∈ d.inputDerivations, (ms.drvs.get? i.1).isSome = true := by
  unfold MapStore.putPath at h
  rw [Res.bind_eq_ok] at h
  obtain ⟨_, h1, _⟩ := h
  have e : ms.has = fun p => .ok (ms.drvs.get? p).isSome := rfl
  rw [e] at h1
  exact ((validateInStore_iff _ d).1 h1).2

/-- `Put` succeeds exactly if its checks do. -/
theorem put_cases (H : Bytes → Bytes) {ms : MapStore} (hi : MInv ms) (d : Derivation) :
    (∃ p r, ms.putPath H d = .ok p ∧ calculateDrvReplacement H d ms.drvReplacements = .ok r ∧
      MapStore.put H d ms = (.ok p, ⟨ms.drvs.insert p d, ms.drvReplacements.insert p r⟩)) ∨
    ((∀ p, ms.putPath H d ≠ .ok p) ∧ (∀ p, (MapStore.put H d ms).1 ≠ .ok p) ∧ (MapStore.put H d ms).2 = ms) := by
  unfold MapStore.put
  cases hp : ms.putPath H d with
  | err e => right; simp
  | panic => right; simp
  | ok p =>
    left
    obtain ⟨r, hr⟩ := calculateDrvReplacement_ok H (d := d) (R := ms.drvReplacements)
      (fun i hin => hi _ (putPath_inputs hp i hin))
    simp only [hr]
    exact ⟨p, r, rfl, rfl, rfl⟩

theorem put_inv (H : Bytes → Bytes) {ms : MapStore} (hi : MInv ms) (d : Derivation) : MInv (MapStore.put H d ms).2 := by
  rcases put_cases H hi d with ⟨p, r, _, _, h⟩ | ⟨_, _, h⟩
  · rw [h]; exact mInv_insert hi p r d
  · rw [h]; exact hi

theorem history_inv (H : Bytes → Bytes) (ds : List Derivation) : ∀ ms, MInv ms → MInv (MapStore.history H ms ds).2 := by
  induction ds with
  | nil => intro ms h; exact h
  | cons d ds ih => intro ms h; exact ih _ (put_inv H h d)


/-! ### paths of files -/

theorem splitByte_append_sep (a s : Bytes) (c : UInt8) : splitByte (a ++ c :: s) c = splitByte a c ++ splitByte s c := by
  induction a with
  | nil => simp [splitByte]
  | cons x a ih =>
    rw [List.cons_append]
    conv => lhs; unfold splitByte
    conv => rhs; arg 1; unfold splitByte
    split
    · rw [ih]; rfl
    · rw [ih]
      cases h : splitByte a c with
      | nil => exact absurd h (splitByte_ne_nil a c)
      | cons y l => rfl

/-- Joining a rooted directory with something. -/
theorem pathJoin_rooted {dir : Bytes} (hd : dir.head? = some 47) {n : Bytes} (hn : n ≠ []) :
    pathJoin dir n = absPath (((splitByte n 47).foldl (cleanStep true) (cleanComps dir).reverse).reverse) := by
  have h0 : dir ≠ [] := by intro e; rw [e] at hd; cases hd
  unfold pathJoin
  rw [if_neg (fun h => h0 h.1), if_neg h0, if_neg hn]
  have hr : (dir ++ b!"/" ++ n).head? = some 47 := by
    cases dir with
    | nil => cases hd
    | cons a l => simpa using hd
  rw [clean_rooted _ hr, cleanComps_rooted _ hr, cleanComps_rooted _ hd]
  have : dir ++ b!"/" ++ n = dir ++ 47 :: n := by simp
  rw [this, splitByte_append_sep, List.foldl_append, List.reverse_reverse]

theorem pathJoin_child {dir : Bytes} (hd : dir.head? = some 47) {n : Bytes} (hn : Good n) :
    pathJoin dir n = childPath (clean dir) n := by
  rw [pathJoin_rooted hd hn.1, splitByte_self hn.2.2.2]
  simp only [List.foldl_cons, List.foldl_nil]
  rw [cleanStep_good hn, clean_rooted _ hd, ← absPath_snoc _ _ (cleanComps_good dir hd)]
  simp

theorem childPath_inj {d n n' : Bytes} (h : childPath d n = childPath d n') : n = n' := by
  unfold childPath at h
  split at h
  · exact List.append_cancel_left h
  · exact List.append_cancel_left h

theorem takeWhile_all {l : Bytes} {p : UInt8 → Bool} (h : ∀ x ∈ l, p x = true) (x : UInt8) (r : Bytes) (hx : p x = false) :
    (l ++ x :: r).takeWhile p = l := by
  induction l with
  | nil => simp [hx]
  | cons a l ih =>
    rw [List.cons_append, List.takeWhile_cons, if_pos (h a (by simp)), ih (fun y hy => h y (by simp [hy]))]

/-- `path.Base` of `dir/name`. -/
theorem pathBase_child (a : Bytes) {n : Bytes} (h0 : n ≠ []) (hn : (47 : UInt8) ∉ n) : pathBase (a ++ b!"/" ++ n) = n := by
  unfold pathBase
  rw [if_neg (by simp)]
  have e : (a ++ b!"/" ++ n).reverse = n.reverse ++ 47 :: a.reverse := by simp
  have hall : ∀ x ∈ n.reverse, (x != 47) = true := by
    intro x hx
    have : x ∈ n := by simpa using hx
    simp only [bne_iff_ne, ne_eq]
    intro e; subst e; exact hn this
  have hd : ((a ++ b!"/" ++ n).reverse.dropWhile (· == 47)).reverse = a ++ b!"/" ++ n := by
    rw [e]
    cases hr : n.reverse with
    | nil => exact absurd (by simpa using hr) h0
    | cons x l =>
      have := hall x (by rw [hr]; simp)
      rw [List.cons_append, List.dropWhile_cons, if_neg (by simpa using this)]
      rw [← List.cons_append, ← hr, ← e, List.reverse_reverse]
  simp only [hd]
  rw [if_neg (by simp), e, takeWhile_all hall _ _ (by simp), List.reverse_reverse]

theorem mem_takeWhile_prop {l : Bytes} {p : UInt8 → Bool} {x : UInt8} (h : x ∈ l.takeWhile p) : p x = true := by
  induction l with
  | nil => cases h
  | cons a l ih =>
    rw [List.takeWhile_cons] at h
    split at h
    · rename_i ha
      rcases List.mem_cons.1 h with h | h
      · rw [h]; exact ha
      · exact ih h
    · cases h

/-- `path.Base` has no slash, or is a slash. -/
theorem pathBase_cases (p : Bytes) : pathBase p = b!"/" ∨ (pathBase p ≠ [] ∧ (47 : UInt8) ∉ pathBase p) := by
  unfold pathBase
  by_cases h0 : p = []
  · rw [if_pos h0]; right; decide
  rw [if_neg h0]
  simp only
  split
  · left; rfl
  · rename_i hq
    right
    constructor
    · intro e
      have e : (List.dropWhile (· == 47) p.reverse).takeWhile (· != 47) = [] := by simpa using e
      cases hl : List.dropWhile (· == 47) p.reverse with
      | nil => rw [hl] at hq; exact hq rfl
      | cons x l =>
        rw [hl] at e
        have hx : (x == 47) = false := by
          have := List.head?_dropWhile_not (· == 47) p.reverse
          rw [hl] at this
          simpa using this
        rw [List.takeWhile_cons, if_pos (by simpa using hx)] at e
        cases e
    · intro hm
      have := mem_takeWhile_prop (List.mem_reverse.1 hm)
      simp at this

end Verif.Store
