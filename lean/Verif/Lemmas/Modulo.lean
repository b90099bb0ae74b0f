import Verif.Spec.Modulo
import Verif.Lemmas.Store
import Verif.Props.DrvPaths

/-! # Lemmas about hashes modulo fixed outputs -/

namespace Verif.Derivation
open Verif.GoLib Verif.Store

variable {H : Bytes → Bytes}

theorem known_eq (ms : MapStore) (p : Bytes) : ms.known p = ms.drvs.get? p := by
  unfold MapStore.known MapStore.get
  cases ms.drvs.get? p <;> rfl

theorem Same.fixed {d d' : Derivation} (h : Same d d') (o : Output) (e : d.outputs = [(b!"out", o)]) : d'.outputs = [(b!"out", o)] := by
  have := h.outputs
  rw [e] at this
  exact List.perm_singleton.1 this.symm

theorem Same.isFixed {d d' : Derivation} (h : Same d d') : IsFixed d ↔ IsFixed d' :=
  ⟨fun ⟨o, h1, h2⟩ => ⟨o, h.fixed o h1, h2⟩, fun ⟨o, h1, h2⟩ => ⟨o, h.symm.fixed o h1, h2⟩⟩

theorem prints_perm {d d' : Derivation} {x : DrvText} (h : Same d d') (hx : Prints d x) : Prints d' x :=
  ⟨hx.outputs.trans h.outputs, hx.outputs_order, hx.inputDrvs.trans h.inputDerivations, hx.inputDrvs_order,
    hx.inputSrcs.trans h.inputSources, hx.platform.trans (by rw [h.platform]), hx.builder.trans (by rw [h.builder]),
    hx.args.trans h.arguments, hx.env.trans (h.env.map _), hx.env_order⟩

theorem nodup_of_keys {m : GoMap (List Bytes)} (h : m.keys.Nodup) : m.Nodup := by
  unfold GoMap.keys at h
  exact List.Pairwise.of_map (S := (· ≠ ·)) _ (fun a b hab e => hab (by rw [e])) h

theorem renamed_perm {f f' : Bytes → Bytes} {l l' m m' : GoMap (List Bytes)} (hl : ∀ i, i ∈ l ↔ i ∈ l') (hf : ∀ i ∈ l, f i.1 = f' i.1)
    (h : RenamedInputs f l m) (h' : RenamedInputs f' l' m') : m.Perm m' := by
  have nd : m.Nodup := nodup_of_keys h.1
  have nd' : m'.Nodup := nodup_of_keys h'.1
  refine (List.perm_ext_iff_of_nodup nd nd').2 ?_
  rintro ⟨k, v⟩
  rw [h.2, h'.2]
  constructor
  · rintro ⟨i, hi, h1, h2⟩
    exact ⟨i, (hl i).1 hi, by rw [← hf i hi]; exact h1, h2⟩
  · rintro ⟨i, hi, h1, h2⟩
    exact ⟨i, (hl i).2 hi, by rw [hf i ((hl i).2 hi)]; exact h1, h2⟩

theorem Modulo.unique {known : Bytes → Option Derivation} {d : Derivation} {h : Bytes} (hm : Modulo H known d h) :
    ∀ h', Modulo H known d h' → h = h' := by
  induction hm with
  | fixed d o h1 h2 =>
    intro h' hm'
    cases hm' with
    | fixed _ o' e1 e2 =>
      rw [h1] at e1
      simp only [List.cons.injEq, Prod.mk.injEq, true_and, and_true] at e1
      rw [e1]
    | other _ g f inputs x hn => exact absurd ⟨o, h1, h2⟩ hn
  | other d g f inputs x hn hk hm hr hp ih =>
    intro h' hm'
    cases hm' with
    | fixed _ o' e1 e2 => exact absurd ⟨o', e1, e2⟩ hn
    | other _ g' f' inputs' x' hn' hk' hm' hr' hp' =>
      have hf : ∀ i ∈ d.inputDerivations, f i.1 = f' i.1 := by
        intro i hi
        have e := hk i hi
        rw [hk' i hi] at e
        exact ih i hi _ (Option.some.inj e ▸ hm' i hi)
      have hperm := renamed_perm (fun _ => Iff.rfl) hf hr hr'
      have : Same { d with inputDerivations := inputs } { d with inputDerivations := inputs' } := { Same.refl d with inputDerivations := hperm }
      rw [prints_unique (prints_perm this hp) hp']

theorem Modulo.within {known known' : Bytes → Option Derivation} (hw : Within known known') {d : Derivation} {h : Bytes}
    (hm : Modulo H known d h) : ∀ d', Same d d' → Modulo H known' d' h := by
  induction hm with
  | fixed d o h1 h2 =>
    intro d' hs
    exact .fixed d' o (hs.fixed o h1) h2
  | other d g f inputs x hn hk hm hr hp ih =>
    intro d' hs
    have hmem : ∀ i, i ∈ d.inputDerivations ↔ i ∈ d'.inputDerivations := fun i => hs.inputDerivations.mem_iff
    refine .other d' (fun p => (known' p).getD d) f inputs x (fun h => hn (hs.isFixed.2 h)) ?_ ?_ ⟨hr.1, fun k v => ?_⟩ ?_
    · intro i hi
      obtain ⟨d1, h1, _⟩ := hw _ _ (hk i ((hmem i).2 hi))
      rw [h1]; rfl
    · intro i hi
      obtain ⟨d1, h1, h2⟩ := hw _ _ (hk i ((hmem i).2 hi))
      rw [h1]
      exact ih i ((hmem i).2 hi) d1 h2
    · rw [hr.2]
      exact ⟨fun ⟨i, hi, e⟩ => ⟨i, (hmem i).1 hi, e⟩, fun ⟨i, hi, e⟩ => ⟨i, (hmem i).2 hi, e⟩⟩
    · have hs' : Same { d with inputDerivations := inputs } { d' with inputDerivations := inputs } :=
        ⟨hs.name, hs.outputs, hs.inputSources, .refl _, hs.platform, hs.builder, hs.arguments, hs.env⟩
      exact prints_perm hs' hp

theorem within_refl (known : Bytes → Option Derivation) : Within known known := fun _ d h => ⟨d, h, .refl d⟩

theorem within_trans {a b c : Bytes → Option Derivation} (h : Within a b) (h' : Within b c) : Within a c := by
  intro p d hd
  obtain ⟨d1, h1, s1⟩ := h p d hd
  obtain ⟨d2, h2, s2⟩ := h' p d1 h1
  exact ⟨d2, h2, s1.trans s2⟩

/-- What is known of a table of replacements. -/
structure ModTable (H : Bytes → Bytes) (ms : MapStore) : Prop where
  maps : ∀ p d, ms.known p = some d → Maps d
  path : ∀ p d, ms.known p = some d → drvPath H d = .ok p
  stored : ∀ p d, ms.known p = some d → ∀ i ∈ d.inputDerivations, (ms.known i.1).isSome = true
  modulo : ∀ p d, ms.known p = some d → ∃ r, ms.drvReplacements.get? p = some r ∧ Modulo H ms.known d r

theorem ModTable.inv {ms : MapStore} (h : ModTable H ms) : MInv ms := by
  intro p hp
  rw [← known_eq] at hp
  obtain ⟨d, hd⟩ := Option.isSome_iff_exists.1 hp
  obtain ⟨r, hr, _⟩ := h.modulo p d hd
  rw [hr]; simp

/-- `RenamedInputs` from `Replaced`. -/
theorem renamed_of {R : GoMap Bytes} {l m : GoMap (List Bytes)} (hl : ∀ i ∈ l, R.get? i.1 ≠ none) (h : Replaced R l m) :
    RenamedInputs (fun p => (R.get? p).getD []) l m := by
  unfold Replaced at h
  split at h
  · rename_i e
    cases l with
    | nil => rw [h]; exact ⟨by simp [GoMap.keys], by simp⟩
    | cons i l => exact absurd (by rw [e]; rfl) (hl i (by simp))
  · refine ⟨h.1, fun k v => ?_⟩
    rw [h.2.2]
    constructor
    · rintro ⟨i, hi, h1, h2⟩
      exact ⟨i, hi, by simp [h1], h2⟩
    · rintro ⟨i, hi, h1, h2⟩
      refine ⟨i, hi, ?_, h2⟩
      cases hg : R.get? i.1 with
      | none => exact absurd hg (hl i hi)
      | some r => simp only [hg, Option.getD_some] at h1; rw [h1]

theorem not_ambiguous {ms : MapStore} (h : ModTable H ms) {d : Derivation} (hin : ∀ i ∈ d.inputDerivations, (ms.known i.1).isSome = true)
    (hu : Unambiguous H ms.known d) : ¬ Ambiguous ms.drvReplacements d.inputDerivations := by
  rintro ⟨_, hall, i, hi, j, hj, he, hne⟩
  obtain ⟨di, hdi⟩ := Option.isSome_iff_exists.1 (hin i hi)
  obtain ⟨dj, hdj⟩ := Option.isSome_iff_exists.1 (hin j hj)
  obtain ⟨ri, h1, h2⟩ := h.modulo _ _ hdi
  obtain ⟨rj, h3, h4⟩ := h.modulo _ _ hdj
  rw [h1, h3] at he
  exact hne (hu i hi j hj di dj ri hdi hdj h2 (Option.some.inj he ▸ h4))

/-- The replacement of a derivation in a correct table is its hash. -/
theorem replacement_modulo {ms : MapStore} (h : ModTable H ms) {d : Derivation} (hm : Maps d)
    (hin : ∀ i ∈ d.inputDerivations, (ms.known i.1).isSome = true) (hu : Unambiguous H ms.known d) {r : Bytes}
    (hr : calculateDrvReplacement H d ms.drvReplacements = .ok r) : Modulo H ms.known d r := by
  have hall : ∀ i ∈ d.inputDerivations, ms.drvReplacements.get? i.1 ≠ none := by
    intro i hi
    have := hin i hi
    rw [known_eq] at this
    exact h.inv _ this
  by_cases hf : IsFixed d
  · obtain ⟨o, h1, h2⟩ := hf
    rw [Props.C89_fixed H d _ o h1 h2] at hr
    rw [← Res.ok.inj hr]
    exact .fixed d o h1 h2
  · rcases Props.C89_other H d _ hm (not_ambiguous h hin hu) hf with ⟨inputs, x, h1, h2, h3⟩ | ⟨_, _, i, hi, hn⟩
    · rw [h3] at hr
      rw [← Res.ok.inj hr]
      refine .other d (fun p => (ms.known p).getD d) _ inputs x hf ?_ ?_ (renamed_of hall h1) h2
      · intro i hi
        obtain ⟨di, hdi⟩ := Option.isSome_iff_exists.1 (hin i hi)
        rw [hdi]; rfl
      · intro i hi
        obtain ⟨di, hdi⟩ := Option.isSome_iff_exists.1 (hin i hi)
        obtain ⟨ri, h4, h5⟩ := h.modulo _ _ hdi
        rw [hdi, h4]
        exact h5
    · exact absurd hn (hall i hi)

end Verif.Derivation
