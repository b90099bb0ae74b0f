import Verif.Props.DrvPaths
import Verif.Props.Derivation

/-!
# Exactly when: C58, C62, C66

The properties C58, C62 and C66 are false as stated. Here is for exactly which derivations.
-/

namespace Verif.Props
open Verif.GoLib Verif.Derivation

/-! ## C62 -/

theorem nameEnv_append (name : Bytes) (l l' : List Bytes) : ∀ acc, nameEnv name acc (l ++ l') = nameEnv name (nameEnv name acc l) l' := by
  induction l with
  | nil => intro acc; rfl
  | cons k l ih => intro acc; exact ih _

/-- one key of a map visited last -/
theorem perm_last {α : Type} (m : GoMap α) {k : Bytes} (hk : k ∈ m.keys) (hn : m.keys.Nodup) :
    ∃ m' : GoMap α, m.Perm m' ∧ ∃ l, m'.keys = l ++ [k] := by
  obtain ⟨e, he, rfl⟩ := List.mem_map.1 hk
  obtain ⟨a, b, rfl⟩ := List.append_of_mem he
  refine ⟨a ++ b ++ [e], ?_, ⟨(a ++ b).map (·.1), by simp [GoMap.keys]⟩⟩
  rw [List.append_assoc]
  refine List.Perm.append_left a ?_
  exact (List.perm_append_singleton e b).symm

/-- C62, exactly: the verdict depends on the order in which Go visits the maps if and only if the derivation is
otherwise well-formed, its environment has both `name` and `__json`, and it has no structured name. -/
theorem C62_exact (d : Derivation) (hm : Maps d) :
    ((∃ d', Same d d' ∧ d'.validate = .ok ()) ∧ (∃ d', Same d d' ∧ d'.validate ≠ .ok ())) ↔
      WellFormed d ∧ b!"name" ∈ d.env.keys ∧ b!"__json" ∈ d.env.keys ∧ d.name = [] := by
  constructor
  · rintro ⟨⟨d1, h1, v1⟩, ⟨d2, h2, v2⟩⟩
    have hw : WellFormed d := ((validate_iff' d1).1 v1).1.same h1.symm
    by_cases hc : b!"name" ∈ d.env.keys ∧ b!"__json" ∈ d.env.keys ∧ d.name = []
    · exact ⟨hw, hc⟩
    · exact absurd ((validate_same h2 hc).1 ((validate_same h1 hc).2 v1)) v2
  · rintro ⟨hw, hn, hj, he⟩
    constructor
    · obtain ⟨m', hp, l, hl⟩ := perm_last d.env hn hm.env
      have hs : Same d { d with env := m' } := { Same.refl d with env := hp }
      refine ⟨_, hs, (validate_iff' _).2 ⟨hw.same hs, ?_⟩⟩
      show nameEnv d.name false m'.keys = true
      rw [hl, nameEnv_append]
      simp [nameEnv]
    · obtain ⟨m', hp, l, hl⟩ := perm_last d.env hj hm.env
      have hs : Same d { d with env := m' } := { Same.refl d with env := hp }
      refine ⟨_, hs, fun hv => ?_⟩
      have := ((validate_iff' _).1 hv).2
      have : nameEnv d.name false m'.keys = true := this
      rw [hl, nameEnv_append] at this
      simp [nameEnv, he] at this

example : Maps { sampleDrv with env := [(b!"__json", b!"{}"), (b!"name", b!"x")] } ∧
    ({ sampleDrv with env := [(b!"__json", b!"{}"), (b!"name", b!"x")] } : Derivation).validate = .ok () :=
  ⟨⟨by decide +kernel, by decide +kernel, by decide +kernel⟩, by decide +kernel⟩

/-! ## C66 -/

/-- C66, exactly: `DrvPath` and `CalculateOutputPaths` panic if and only if the name is empty (and on no other account,
be the derivation valid or not), and `CalculateDrvReplacement` never does. -/
theorem C66_exact (H : Bytes → Bytes) (d : Derivation) (repl : GoMap Bytes) :
    (drvPath H d = .panic ↔ d.getName = []) ∧ (calculateOutputPaths H d repl = .panic ↔ d.getName = []) ∧
    calculateDrvReplacement H d repl ≠ .panic := by
  refine ⟨⟨fun h => ?_, fun h => ?_⟩, ⟨fun h => ?_, fun h => ?_⟩, ?_⟩
  · by_cases hn : d.getName = []
    · exact hn
    · obtain ⟨p, hp⟩ := (C66_no_panic_partial H d hn).1
      rw [hp] at h; cases h
  · unfold drvPath
    rw [aterm_nil, Res.bind_ok, if_pos h]
  · by_cases hn : d.getName = []
    · exact hn
    · exact absurd h ((C66_no_panic_partial H d hn).2.1 repl)
  · unfold calculateOutputPaths
    rw [if_pos h]
  · unfold calculateDrvReplacement
    split
    · simp
    · split
      · simp
      · rename_i h; exact absurd h (aterm_ne_panic _ _ _)
      · simp

/-- C66, exactly, for valid derivations: which of them have an empty name. -/
theorem C66_valid (d : Derivation) (hv : d.validate = .ok ()) :
    d.getName = [] ↔ (b!"__json" ∉ d.env.keys ∧ d.env.get? b!"name" = some []) ∨
      (b!"__json" ∈ d.env.keys ∧ b!"name" ∈ d.env.keys ∧ d.name = []) := by
  have h2 := ((validate_iff' d).1 hv).2
  unfold Derivation.getName
  by_cases hj : b!"__json" ∈ d.env.keys
  · have hs : (d.env.get? b!"__json").isSome := (GoMap.get?_isSome _ _).2 hj
    simp only [hs, if_true, hj, not_true_eq_false, false_and, true_and, false_or]
    constructor
    · intro he
      refine ⟨?_, he⟩
      apply Classical.byContradiction
      intro hn
      rw [he, nameEnv_noname hn] at h2
      cases h2
    · exact fun h => h.2
  · have hs : ¬ (d.env.get? b!"__json").isSome := fun h => hj ((GoMap.get?_isSome _ _).1 h)
    have hn : b!"name" ∈ d.env.keys := by
      rcases (nameEnv_nojson _ hj false).1 h2 with h | h
      · cases h
      · exact h
    obtain ⟨v, hv'⟩ := Option.isSome_iff_exists.1 ((GoMap.get?_isSome _ _).2 hn)
    simp [hs, hj, hv']

example : sampleDrv.validate = .ok () ∧ ({ sampleDrv with env := [(b!"name", [])] } : Derivation).validate = .ok () := by decide +kernel

/-! ## C58 -/

theorem join_cancel (s : Bytes) (x y : Bytes) (b : List Bytes) : ∀ a, join (a ++ x :: b) s = join (a ++ y :: b) s → x = y
  | [], h => by
    by_cases hb : b = []
    · subst hb; exact h
    · rw [List.nil_append, List.nil_append, join_cons hb, join_cons hb] at h
      rw [List.append_assoc, List.append_assoc] at h
      exact List.append_cancel_right h
  | z :: a, h => by
    rw [List.cons_append, List.cons_append, join_cons (by simp), join_cons (by simp)] at h
    exact join_cancel s x y b a (List.append_cancel_left h)

theorem replaceInputs_append {repl : GoMap Bytes} (l l' : GoMap (List Bytes)) : ∀ acc,
    replaceInputs repl acc (l ++ l') = (replaceInputs repl acc l >>= fun m => replaceInputs repl m l') := by
  induction l with
  | nil => intro acc; rfl
  | cons p l ih =>
    intro acc
    obtain ⟨k, v⟩ := p
    rw [List.cons_append, replaceInputs, replaceInputs]
    cases repl.get? k with
    | none => rfl
    | some r => exact ih _

theorem replaceInputs_total {repl : GoMap Bytes} {l : GoMap (List Bytes)} (h : ∀ i ∈ l, repl.get? i.1 ≠ none) :
    ∀ acc : GoMap (List Bytes), acc.keys.Nodup → ∃ m, replaceInputs repl acc l = .ok m ∧ m.keys.Nodup := by
  induction l with
  | nil => intro acc ha; exact ⟨acc, rfl, ha⟩
  | cons p l ih =>
    intro acc ha
    obtain ⟨k, v⟩ := p
    rw [replaceInputs]
    cases hg : repl.get? k with
    | none => exact absurd hg (h (k, v) List.mem_cons_self)
    | some r => exact ih (fun i hi => h i (List.mem_cons_of_mem _ hi)) _ (GoMap.keys_insert_nodup _ _ _ ha)

theorem tuple_cancel {x y : Bytes} {a b : List Bytes} (h : tuple (a ++ x :: b) = tuple (a ++ y :: b)) : x = y :=
  join_cancel _ _ _ _ _ (List.append_cancel_left (List.append_cancel_right h))

theorem bracketed_cancel {x y : Bytes} {a b : List Bytes} (h : bracketed (a ++ x :: b) = bracketed (a ++ y :: b)) : x = y :=
  join_cancel _ _ _ _ _ (List.append_cancel_left (List.append_cancel_right h))

/-- two maps that differ at one key are printed differently -/
theorem printed_differ {d : Derivation} {strip : Bool} {m m' : GoMap (List Bytes)} {k : Bytes} {v v' : List Bytes}
    (hn : m.keys.Nodup) (hn' : m'.keys.Nodup) (hk : m.get? k = some v) (hk' : m'.get? k = some v')
    (ho : ∀ x, x ≠ k → m.get? x = m'.get? x) (hc : ∀ o ∈ v, Closed o) (hc' : ∀ o ∈ v', Closed o)
    (he : (printed d strip m).text = (printed d strip m').text) : v = v' := by
  have hp : m.keys.Perm m'.keys := by
    rw [List.perm_ext_iff_of_nodup hn hn']
    intro x
    rw [← GoMap.get?_isSome, ← GoMap.get?_isSome]
    by_cases hx : x = k
    · rw [hx, hk, hk']; simp
    · rw [ho x hx]
  have hmem : k ∈ sortStrings m.keys := by
    rw [mem_sortStrings]
    exact (GoMap.get?_isSome _ _).1 (by rw [hk]; rfl)
  obtain ⟨a, b, hab⟩ := List.append_of_mem hmem
  have hnd := sortStrings_nodup hn
  rw [hab] at hnd
  have hka : ∀ x ∈ a, x ≠ k := by
    intro x hx e
    subst e
    rw [List.nodup_append] at hnd
    exact hnd.2.2 x hx x List.mem_cons_self rfl
  have hkb : ∀ x ∈ b, x ≠ k := by
    intro x hx e
    subst e
    rw [List.nodup_append] at hnd
    exact (List.nodup_cons.1 hnd.2.1).1 hx
  have hs : ∀ l : List Bytes, (∀ x ∈ l, x ≠ k) → l.map (fun x => (x, (m.get? x).getD [])) = l.map (fun x => (x, (m'.get? x).getD [])) := by
    intro l hl
    apply List.map_congr_left
    intro x hx
    rw [ho x (hl x hx)]
  have h1 : sortedEntries [] m = a.map (fun x => (x, (m.get? x).getD [])) ++ (k, v) :: b.map (fun x => (x, (m.get? x).getD [])) := by
    unfold sortedEntries
    rw [hab]
    simp [hk]
  have h2 : sortedEntries [] m' = a.map (fun x => (x, (m.get? x).getD [])) ++ (k, v') :: b.map (fun x => (x, (m.get? x).getD [])) := by
    unfold sortedEntries
    rw [← sortStrings_congr hp, hab, hs a hka, hs b hkb]
    simp [hk']
  have e3 : ∀ m, printed d strip m = { printed d strip d.inputDerivations with inputDrvs := sortedEntries [] m } := by
    intro m; rfl
  rw [e3 m, e3 m', h1, h2] at he
  unfold DrvText.text at he
  have he := tuple_cancel (a := [_]) (List.append_cancel_left he)
  simp only [List.map_append, List.map_cons] at he
  have he := tuple_cancel (a := [_]) (b := []) (bracketed_cancel he)
  exact list_quoted_inj he hc hc'

theorem exists_two {α : Type} {l : List α} {i j : α} (hi : i ∈ l) (hj : j ∈ l) (hne : i ≠ j) :
    ∃ r, l.Perm (r ++ [i, j]) := by
  obtain ⟨a, b, rfl⟩ := List.append_of_mem hi
  have hj' : j ∈ a ++ b := by
    rcases List.mem_append.1 hj with h | h
    · exact List.mem_append_left _ h
    · rcases List.mem_cons.1 h with h | h
      · exact absurd h.symm hne
      · exact List.mem_append_right _ h
  obtain ⟨c, e, hce⟩ := List.append_of_mem hj'
  refine ⟨c ++ e, ?_⟩
  have h1 : (a ++ i :: b).Perm (i :: (a ++ b)) := List.perm_middle
  rw [hce] at h1
  have h2 : (i :: (c ++ j :: e)).Perm (i :: j :: (c ++ e)) := List.Perm.cons i List.perm_middle
  refine (h1.trans h2).trans ?_
  exact (List.perm_append_comm (l₁ := [i, j]) (l₂ := c ++ e))

/-- the maps with the two inputs visited in either order -/
theorem ambiguous_texts {d : Derivation} {repl : GoMap Bytes} (hm : Maps d) (ha : Ambiguous repl d.inputDerivations)
    (hc : ∀ i ∈ d.inputDerivations, ∀ o ∈ i.2, Closed o) :
    ∃ d1 d2 t1 t2, Same d d1 ∧ Same d d2 ∧ aterm d1 false repl = .ok t1 ∧ aterm d2 false repl = .ok t2 ∧ t1 ≠ t2 := by
  obtain ⟨h0, hall, i, hi, j, hj, he, hne⟩ := ha
  obtain ⟨r, hp⟩ := exists_two hi hj (fun e => hne (by rw [e]))
  have hp' : d.inputDerivations.Perm (r ++ [j, i]) := hp.trans (List.Perm.append_left r (List.Perm.swap _ _ _))
  obtain ⟨k, hk⟩ := Option.ne_none_iff_exists'.1 (hall i hi)
  have hk' := hk
  rw [he] at hk'
  obtain ⟨m, hr, hmn⟩ := replaceInputs_total (repl := repl) (l := r) (fun x hx => hall x (hp.mem_iff.2 (List.mem_append_left _ hx)))
    [] (by simp [GoMap.keys])
  have w : ∀ x y : Bytes × List Bytes, repl.get? x.1 = some k → repl.get? y.1 = some k →
      writtenInputs { d with inputDerivations := r ++ [x, y] } repl = .ok ((m.insert k x.2).insert k y.2) := by
    intro x y hx hy
    unfold writtenInputs
    have : repl.length ≠ 0 := by simpa using h0
    rw [if_neg this]
    simp only
    rw [replaceInputs_append, hr, Res.bind_ok]
    obtain ⟨x1, x2⟩ := x
    obtain ⟨y1, y2⟩ := y
    simp only at hx hy
    simp [replaceInputs, hx, hy]
  refine ⟨{ d with inputDerivations := r ++ [i, j] }, { d with inputDerivations := r ++ [j, i] }, _, _,
    { Same.refl d with inputDerivations := hp }, { Same.refl d with inputDerivations := hp' },
    by rw [aterm_eq, w i j hk hk', Res.bind_ok], by rw [aterm_eq, w j i hk' hk, Res.bind_ok], ?_⟩
  intro e
  refine hne (printed_differ (d := d) (strip := false) (m := (m.insert k j.2).insert k i.2) (m' := (m.insert k i.2).insert k j.2) (k := k)
    (GoMap.keys_insert_nodup _ _ _ (GoMap.keys_insert_nodup _ _ _ hmn)) (GoMap.keys_insert_nodup _ _ _ (GoMap.keys_insert_nodup _ _ _ hmn))
    (by rw [GoMap.get?_insert]; simp) (by rw [GoMap.get?_insert]; simp) ?_ (hc i hi) (hc j hj) ?_)
  · intro x hx
    have : ¬ k = x := fun e => hx e.symm
    simp only [GoMap.get?_insert, if_neg this]
  · exact e.symm

/-- C58, exactly: for a derivation without a fixed output and with input names that can stand between quotes,
`CalculateDrvReplacement` is independent of the order in which Go visits the maps, for every hash function, if and only if no
two input derivations with the same replacement are used with different outputs. -/
theorem C58_exact (d : Derivation) (repl : GoMap Bytes) (hm : Maps d) (hr : repl.keys.Nodup) (hf : fixedOutput d = none)
    (hc : ∀ i ∈ d.inputDerivations, ∀ o ∈ i.2, Closed o) :
    (∀ H d' repl', Same d d' → repl.Perm repl' → calculateDrvReplacement H d repl = calculateDrvReplacement H d' repl') ↔
      ¬ Ambiguous repl d.inputDerivations := by
  constructor
  · intro h ha
    obtain ⟨d1, d2, t1, t2, s1, s2, a1, a2, hne⟩ := ambiguous_texts hm ha hc
    have e := (h id d1 repl s1 (.refl _)).symm.trans (h id d2 repl s2 (.refl _))
    unfold calculateDrvReplacement at e
    rw [← fixedOutput_same s1 hm, ← fixedOutput_same s2 hm, hf, a1, a2] at e
    simp only [id, Res.ok.injEq] at e
    exact hne (hexEncode_inj e)
  · intro ha H d' repl' h hrr
    unfold calculateDrvReplacement
    rw [← fixedOutput_same h hm, aterm_unambiguous hm h hr hrr ha false]

example : fixedOutput sharedReplacement = none ∧ (∀ i ∈ sharedReplacement.inputDerivations, ∀ o ∈ i.2, Closed o) ∧
    Ambiguous [(b!"/nix/store/" ++ dHash ++ b!"-a.drv", b!"ff"), (b!"/nix/store/" ++ dHash ++ b!"-b.drv", b!"ff")] sharedReplacement.inputDerivations ∧
    ¬ Ambiguous sampleRepl sharedReplacement.inputDerivations := by
  refine ⟨by decide +kernel, ?_, by unfold Ambiguous; decide +kernel, by unfold Ambiguous; decide +kernel⟩
  intro i hi o ho
  simp only [sharedReplacement, List.mem_cons, List.not_mem_nil, or_false] at hi
  rcases hi with rfl | rfl <;> simp only [List.mem_cons, List.not_mem_nil, or_false] at ho <;> subst ho <;>
    exact .plain _ _ (by decide) (by decide) (.plain _ _ (by decide) (by decide) (.plain _ _ (by decide) (by decide) .nil))

end Verif.Props
