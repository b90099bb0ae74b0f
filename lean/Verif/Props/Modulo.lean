import Verif.Spec.NoCollision
import Verif.Lemmas.Modulo
import Verif.Props.Store

/-!
# Output paths and the graph of derivations (C133)
-/

namespace Verif.Props
open Verif.GoLib Verif.Derivation Verif.Store Verif.Storepath

/-- The derivations in a store are from a list, under their paths. -/
def From (H : Bytes → Bytes) (ds : List Derivation) (ms : MapStore) : Prop :=
  ∀ p d, ms.known p = some d → d ∈ ds ∧ drvPath H d = .ok p

theorem put_from {H : Bytes → Bytes} {ds : List Derivation} {ms : MapStore} (hi : MInv ms) (h : From H ds ms) {d : Derivation}
    (hd : d ∈ ds) (hm : Maps d) : From H ds (MapStore.put H d ms).2 := by
  rcases put_cases H hi d with ⟨q, r, hq, _, he⟩ | ⟨_, _, he⟩
  · obtain ⟨_, _, _, hp⟩ := (putPath_iff H ms hm.outputs q).1 hq
    rw [he]
    intro p x hx
    rw [known_eq] at hx
    simp only at hx
    rw [GoMap.get?_insert] at hx
    split at hx
    · rename_i e
      cases Option.some.inj hx
      exact ⟨hd, e ▸ hp⟩
    · exact h p x (by rw [known_eq]; exact hx)
  · rw [he]; exact h

theorem put_within {H : Bytes → Bytes} {ds : List Derivation} (hc : NoCollision H ds) {ms : MapStore} (hi : MInv ms) (h : From H ds ms)
    {d : Derivation} (hd : d ∈ ds) (hm : Maps d) : Within ms.known (MapStore.put H d ms).2.known := by
  rcases put_cases H hi d with ⟨q, r, hq, _, he⟩ | ⟨_, _, he⟩
  · obtain ⟨_, _, _, hp⟩ := (putPath_iff H ms hm.outputs q).1 hq
    rw [he]
    intro p x hx
    rw [known_eq]
    simp only
    rw [GoMap.get?_insert]
    split
    · rename_i e
      obtain ⟨h1, h2⟩ := h p x hx
      exact ⟨d, rfl, hc x h1 d hd q (e ▸ h2) hp⟩
    · exact ⟨x, by rw [← known_eq]; exact hx, .refl x⟩
  · rw [he]; exact within_refl _

theorem history_within {H : Bytes → Bytes} {all : List Derivation} (hmaps : ∀ d ∈ all, Maps d) (hc : NoCollision H all) (ds : List Derivation) :
    ∀ ms, (∀ d ∈ ds, d ∈ all) → MInv ms → From H all ms → Within ms.known (MapStore.history H ms ds).2.known := by
  induction ds with
  | nil => intro ms _ _ _; exact within_refl _
  | cons d ds ih =>
    intro ms hd hi hf
    have h1 := hd d (by simp)
    exact within_trans (put_within hc hi hf h1 (hmaps d h1))
      (ih _ (fun x hx => hd x (by simp [hx])) (put_inv H hi d) (put_from hi hf h1 (hmaps d h1)))

theorem unambiguous_back {H : Bytes → Bytes} {known known' : Bytes → Option Derivation} (hw : Within known known') {d d' : Derivation}
    (hs : Same d d') (hu : Unambiguous H known' d') : Unambiguous H known d := by
  intro i hi j hj di dj h h1 h2 m1 m2
  obtain ⟨di', e1, s1⟩ := hw _ _ h1
  obtain ⟨dj', e2, s2⟩ := hw _ _ h2
  exact hu i (hs.inputDerivations.mem_iff.1 hi) j (hs.inputDerivations.mem_iff.1 hj) di' dj' h e1 e2 (m1.within hw _ s1) (m2.within hw _ s2)

theorem table_put {H : Bytes → Bytes} {all : List Derivation} (hmaps : ∀ d ∈ all, Maps d) (hc : NoCollision H all)
    {ms : MapStore} (hf : From H all ms) (ht : ModTable H ms) {d : Derivation} (hd : d ∈ all)
    (hu : ∀ q, (MapStore.put H d ms).1 = .ok q → Unambiguous H ms.known d) : ModTable H (MapStore.put H d ms).2 := by
  have hi := ht.inv
  have hw := put_within hc hi hf hd (hmaps d hd)
  rcases put_cases H hi d with ⟨q, r, hq, hr, he⟩ | ⟨_, _, he⟩
  rotate_left
  · rw [he]; exact ht
  rw [he] at hw hu ⊢
  have hu := hu q rfl
  simp only at hw ⊢
  obtain ⟨hv, hin, _, hp⟩ := (putPath_iff H ms (hmaps d hd).outputs q).1 hq
  have hin' : ∀ i ∈ d.inputDerivations, (ms.known i.1).isSome = true := fun i hi => by rw [known_eq]; exact hin i hi
  have hmod := replacement_modulo ht (hmaps d hd) hin' hu hr
  have cases : ∀ p x, (⟨ms.drvs.insert q d, ms.drvReplacements.insert q r⟩ : MapStore).known p = some x →
      (p = q ∧ x = d) ∨ (p ≠ q ∧ ms.known p = some x) := by
    intro p x hx
    rw [known_eq] at hx
    simp only at hx
    rw [GoMap.get?_insert] at hx
    split at hx
    · rename_i e
      exact .inl ⟨e.symm, (Option.some.inj hx).symm⟩
    · rename_i e
      exact .inr ⟨fun h => e h.symm, by rw [known_eq]; exact hx⟩
  have more : ∀ p, (ms.known p).isSome = true → ((⟨ms.drvs.insert q d, ms.drvReplacements.insert q r⟩ : MapStore).known p).isSome = true := by
    intro p hp
    obtain ⟨x, hx⟩ := Option.isSome_iff_exists.1 hp
    obtain ⟨y, hy, _⟩ := hw p x hx
    rw [hy]; rfl
  refine ⟨fun p x hx => ?_, fun p x hx => ?_, fun p x hx i hi => ?_, fun p x hx => ?_⟩
  · rcases cases p x hx with ⟨_, rfl⟩ | ⟨_, h⟩
    · exact hmaps _ hd
    · exact ht.maps p x h
  · rcases cases p x hx with ⟨rfl, rfl⟩ | ⟨_, h⟩
    · exact hp
    · exact ht.path p x h
  · rcases cases p x hx with ⟨rfl, rfl⟩ | ⟨_, h⟩
    · exact more _ (hin' i hi)
    · exact more _ (ht.stored p x h i hi)
  · simp only
    rcases cases p x hx with ⟨rfl, rfl⟩ | ⟨hne, h⟩
    · exact ⟨r, by rw [GoMap.get?_insert, if_pos rfl], hmod.within hw _ (.refl _)⟩
    · obtain ⟨r', h1, h2⟩ := ht.modulo p x h
      exact ⟨r', by rw [GoMap.get?_insert, if_neg (fun e => hne e.symm)]; exact h1, h2.within hw _ (.refl _)⟩

theorem table_history {H : Bytes → Bytes} {all : List Derivation} (hmaps : ∀ d ∈ all, Maps d) (hc : NoCollision H all) (ds : List Derivation) :
    ∀ ms, (∀ d ∈ ds, d ∈ all) → From H all ms → ModTable H ms →
      (∀ p d, (MapStore.history H ms ds).2.known p = some d → Unambiguous H (MapStore.history H ms ds).2.known d) →
      ModTable H (MapStore.history H ms ds).2 := by
  induction ds with
  | nil => intro ms _ _ ht _; exact ht
  | cons d ds ih =>
    intro ms hd hf ht hu
    have h1 := hd d (by simp)
    have hf' := put_from ht.inv hf h1 (hmaps d h1)
    have hw1 := put_within hc ht.inv hf h1 (hmaps d h1)
    have hw2 := history_within hmaps hc ds _ (fun x hx => hd x (by simp [hx])) (put_inv H ht.inv d) hf'
    refine ih _ (fun x hx => hd x (by simp [hx])) hf' (table_put hmaps hc hf ht h1 ?_) hu
    intro q hq
    have hk : (MapStore.put H d ms).2.known q = some d := by
      rcases put_cases H ht.inv d with ⟨q', r, _, _, he⟩ | ⟨_, h, _⟩
      · rw [he] at hq ⊢
        cases Res.ok.inj hq
        rw [known_eq]
        simp only
        rw [GoMap.get?_insert, if_pos rfl]
      · exact absurd hq (h q)
    obtain ⟨d', e, s⟩ := hw2 q d hk
    exact unambiguous_back (within_trans hw1 hw2) s (hu q d' e)

theorem table_new (H : Bytes → Bytes) : ModTable H newMapStore := by
  have : ∀ p, newMapStore.known p = none := fun p => rfl
  constructor <;> intro p d h <;> rw [this] at h <;> cases h

theorem table_of {H : Bytes → Bytes} {ds : List Derivation} (hm : ∀ d ∈ ds, Maps d) (hc : NoCollision H ds)
    (hu : ∀ p d, (MapStore.history H newMapStore ds).2.known p = some d → Unambiguous H (MapStore.history H newMapStore ds).2.known d) :
    ModTable H (MapStore.history H newMapStore ds).2 :=
  table_history hm hc ds newMapStore (fun _ h => h) (fun _ _ h => nomatch h) (table_new H) hu

theorem isNixPath_unique {H : Bytes → Bytes} {ty inner name p p' : Bytes} (h : IsNixPath H ty inner name p) (h' : IsNixPath H ty inner name p') :
    p = p' := by
  obtain ⟨a, h1, rfl⟩ := h
  obtain ⟨b, h2, rfl⟩ := h'
  rw [folded_unique h1 h2]

/-- The path of an output is determined by the graph. -/
theorem outputPathOf_unique {H : Bytes → Bytes} {known : Bytes → Option Derivation} {d : Derivation} {o : Bytes × Output} {p p' : Bytes}
    (h : OutputPathOf H known d o p) (h' : OutputPathOf H known d o p') : p = p' := by
  unfold OutputPathOf at h h'
  split at h
  · rw [if_pos (by assumption)] at h'
    exact isNixPath_unique h h'
  · rename_i hn
    rw [if_neg hn] at h'
    split at h
    · rw [if_pos (by assumption)] at h'
      exact isNixPath_unique h h'
    · rename_i hn2
      rw [if_neg hn2] at h'
      obtain ⟨f, inputs, x, a1, a2, a3, a4⟩ := h
      obtain ⟨f', inputs', x', b1, b2, b3, b4⟩ := h'
      have hf : ∀ i ∈ d.inputDerivations, f i.1 = f' i.1 := by
        intro i hi
        obtain ⟨d1, k1, m1⟩ := a1 i hi
        obtain ⟨d2, k2, m2⟩ := b1 i hi
        rw [k1] at k2
        exact m1.unique _ (Option.some.inj k2 ▸ m2)
      have hperm := renamed_perm (fun _ => Iff.rfl) hf a2 b2
      have hs : Same { masked d with inputDerivations := inputs } { masked d with inputDerivations := inputs' } :=
        { Same.refl (masked d) with inputDerivations := hperm }
      rw [prints_unique (prints_perm hs a3) b3] at a4
      exact isNixPath_unique a4 b4

/-- The calculated paths are those of the graph. -/
theorem calculated_paths {H : Bytes → Bytes} {ms : MapStore} (ht : ModTable H ms) {d : Derivation} (hm : Maps d) (hv : d.validate = .ok ())
    (hin : ∀ i ∈ d.inputDerivations, (ms.known i.1).isSome = true) (hu : Unambiguous H ms.known d)
    (hn : NameChars d.getName) (hk : ∀ o ∈ d.outputs, NameChars o.1) {m : GoMap Bytes}
    (h : calculateOutputPaths H d ms.drvReplacements = .ok m) :
    ∀ o ∈ d.outputs, ∃ p, m.get? o.1 = some p ∧ OutputPathOf H ms.known d o p := by
  have hall : ∀ i ∈ d.inputDerivations, ms.drvReplacements.get? i.1 ≠ none := by
    intro i hi
    have := hin i hi
    rw [known_eq] at this
    exact ht.inv _ this
  obtain ⟨hkeys, hp⟩ := C88_output_paths H d _ m hm hv (not_ambiguous ht hin hu) hn hk h
  intro o ho
  obtain ⟨p, h1, h2, h3, h4⟩ := hp o ho
  refine ⟨p, GoMap.get?_of_mem (by rw [hkeys]; exact hm.outputs) h1, ?_⟩
  unfold OutputPathOf
  split
  · exact h2 (by assumption)
  · split
    · exact h3 (by assumption) (by assumption)
    · rename_i hne
      obtain ⟨inputs, x, e1, e2, e3⟩ := h4 (Decidable.not_not.1 hne)
      refine ⟨_, inputs, x, ?_, renamed_of hall e1, e2, e3⟩
      intro i hi
      obtain ⟨di, hdi⟩ := Option.isSome_iff_exists.1 (hin i hi)
      obtain ⟨ri, h5, h6⟩ := ht.modulo _ _ hdi
      exact ⟨di, hdi, by rw [h5]; exact h6⟩

/-- C133: after any history of `Put`s on a `MapStore`, a derivation is accepted exactly if it is valid, its input derivations are stored,
and each of its output paths is the one that Nix defines by recursion over the graph of stored derivations. -/
theorem C133_put (H : Bytes → Bytes) (ds : List Derivation) (hm : ∀ d ∈ ds, Maps d) (hc : NoCollision H ds)
    (hu : ∀ p d, (MapStore.history H newMapStore ds).2.known p = some d → Unambiguous H (MapStore.history H newMapStore ds).2.known d)
    (d : Derivation) (hd : Maps d) (hud : Unambiguous H (MapStore.history H newMapStore ds).2.known d)
    (hn : NameChars d.getName) (hk : ∀ o ∈ d.outputs, NameChars o.1) (p : Bytes) :
    let ms := (MapStore.history H newMapStore ds).2
    (MapStore.put H d ms).1 = .ok p ↔ d.validate = .ok () ∧ (∀ i ∈ d.inputDerivations, ms.has i.1 = .ok true) ∧
      (∀ o ∈ d.outputs, OutputPathOf H ms.known d o o.2.path) ∧ drvPath H d = .ok p := by
  have ht := table_of hm hc hu
  intro ms
  have hput : (MapStore.put H d ms).1 = .ok p ↔ _ := C67_put_iff H ds d hd p
  rw [hput]
  have hhas : ∀ q, ms.has q = .ok true ↔ (ms.known q).isSome = true := by
    intro q; rw [has_iff, known_eq]
  constructor
  · rintro ⟨h1, h2, ⟨m, h3, h3'⟩, h4⟩
    refine ⟨h1, h2, fun o ho => ?_, h4⟩
    obtain ⟨p', e1, e2⟩ := calculated_paths ht hd h1 (fun i hi => (hhas _).1 (h2 i hi)) hud hn hk h3 o ho
    have := h3' o ho
    rw [e1] at this
    rw [← Option.some.inj this]
    exact e2
  · rintro ⟨h1, h2, h3, h4⟩
    refine ⟨h1, h2, ?_, h4⟩
    have h0 : d.getName ≠ [] := by
      intro e
      unfold drvPath at h4
      rcases ha : aterm d false [] with t | e' | _
      · simp [ha, e] at h4
      · simp [ha] at h4
      · simp [ha] at h4
    have hall : ∀ i ∈ d.inputDerivations, ms.drvReplacements.get? i.1 ≠ none := by
      intro i hi
      exact ht.inv _ ((has_iff ms _).1 (h2 i hi))
    have hok : ∃ m, calculateOutputPaths H d ms.drvReplacements = .ok m := by
      cases hx : calculateOutputPaths H d ms.drvReplacements with
      | ok m => exact ⟨m, rfl⟩
      | err e =>
        obtain ⟨_, _, i, hi, hnone⟩ := (C88_fails_iff H d ms.drvReplacements hd h0).1 ⟨e, hx⟩
        exact absurd hnone (hall i hi)
      | panic =>
        unfold calculateOutputPaths at hx
        rw [if_neg h0] at hx
        rcases outputPathsLoop_spec H d ms.drvReplacements d.getName hd.outputs with ⟨f, _, h⟩ | ⟨⟨e, h⟩, h'⟩
        · rw [h] at hx; cases hx
        · rw [h'] at hx; cases hx
    obtain ⟨m, hx⟩ := hok
    refine ⟨m, hx, fun o ho => ?_⟩
    obtain ⟨p', e1, e2⟩ := calculated_paths ht hd h1 (fun i hi => (hhas _).1 (h2 i hi)) hud hn hk hx o ho
    rw [e1, outputPathOf_unique e2 (h3 o ho)]

/-- The paths of the outputs are the same in a larger graph. -/
theorem outputPathOf_within {H : Bytes → Bytes} {known known' : Bytes → Option Derivation} (hw : Within known known') {d : Derivation}
    (hin : ∀ i ∈ d.inputDerivations, ∃ d' h, known i.1 = some d' ∧ Modulo H known d' h) (o : Bytes × Output) (p : Bytes) :
    OutputPathOf H known d o p ↔ OutputPathOf H known' d o p := by
  unfold OutputPathOf
  split
  · exact Iff.rfl
  split
  · exact Iff.rfl
  constructor
  · rintro ⟨f, inputs, x, h1, h2⟩
    refine ⟨f, inputs, x, fun i hi => ?_, h2⟩
    obtain ⟨d', k, m⟩ := h1 i hi
    obtain ⟨d2, k2, s⟩ := hw _ _ k
    exact ⟨d2, k2, m.within hw _ s⟩
  · rintro ⟨f, inputs, x, h1, h2⟩
    refine ⟨f, inputs, x, fun i hi => ?_, h2⟩
    obtain ⟨d', h, k, m⟩ := hin i hi
    obtain ⟨d2, k2, s⟩ := hw _ _ k
    obtain ⟨d3, k3, m3⟩ := h1 i hi
    rw [k2] at k3
    cases Option.some.inj k3
    rw [m3.unique _ (m.within hw _ s)]
    exact ⟨d', k, m⟩

/-- C133: what a `MapStore` says to a derivation depends on nothing but the derivation and the graph below it: a store that holds more
(put in any order) accepts it exactly if the smaller one with its inputs does. -/
theorem C133_larger (H : Bytes → Bytes) (ds ds' : List Derivation) (hm : ∀ d ∈ ds, Maps d) (hm' : ∀ d ∈ ds', Maps d)
    (hc : NoCollision H ds) (hc' : NoCollision H ds')
    (hu' : ∀ p d, (MapStore.history H newMapStore ds').2.known p = some d → Unambiguous H (MapStore.history H newMapStore ds').2.known d)
    (d : Derivation) (hd : Maps d) (hud : Unambiguous H (MapStore.history H newMapStore ds').2.known d)
    (hn : NameChars d.getName) (hk : ∀ o ∈ d.outputs, NameChars o.1)
    (hw : Within (MapStore.history H newMapStore ds).2.known (MapStore.history H newMapStore ds').2.known)
    (hin : ∀ i ∈ d.inputDerivations, (MapStore.history H newMapStore ds).2.has i.1 = .ok true) (p : Bytes) :
    (MapStore.put H d (MapStore.history H newMapStore ds).2).1 = .ok p ↔
    (MapStore.put H d (MapStore.history H newMapStore ds').2).1 = .ok p := by
  have hu : ∀ p d, (MapStore.history H newMapStore ds).2.known p = some d → Unambiguous H (MapStore.history H newMapStore ds).2.known d := by
    intro q x hx
    obtain ⟨x', hx', s⟩ := hw q x hx
    exact unambiguous_back hw s (hu' q x' hx')
  refine (C133_put H ds hm hc hu d hd (unambiguous_back hw (.refl d) hud) hn hk p).trans
    (Iff.trans ?_ (C133_put H ds' hm' hc' hu' d hd hud hn hk p).symm)
  have ht := table_of hm hc hu
  have hhas : ∀ (ms : MapStore) q, ms.has q = .ok true ↔ (ms.known q).isSome = true := by
    intro ms q; rw [has_iff, known_eq]
  have hin2 : ∀ i ∈ d.inputDerivations, (MapStore.history H newMapStore ds').2.has i.1 = .ok true := by
    intro i hi
    obtain ⟨x, hx⟩ := Option.isSome_iff_exists.1 ((hhas _ _).1 (hin i hi))
    obtain ⟨x', hx', _⟩ := hw _ _ hx
    rw [hhas, hx']; rfl
  have hmod : ∀ i ∈ d.inputDerivations, ∃ d' h, (MapStore.history H newMapStore ds).2.known i.1 = some d' ∧
      Modulo H (MapStore.history H newMapStore ds).2.known d' h := by
    intro i hi
    obtain ⟨x, hx⟩ := Option.isSome_iff_exists.1 ((hhas _ _).1 (hin i hi))
    obtain ⟨r, _, h⟩ := ht.modulo _ _ hx
    exact ⟨x, r, hx, h⟩
  constructor
  · rintro ⟨h1, _, h3, h4⟩
    exact ⟨h1, hin2, fun o ho => (outputPathOf_within hw hmod o _).1 (h3 o ho), h4⟩
  · rintro ⟨h1, _, h3, h4⟩
    exact ⟨h1, hin, fun o ho => (outputPathOf_within hw hmod o _).2 (h3 o ho), h4⟩

theorem stored_history {H : Bytes → Bytes} {all : List Derivation} (hmaps : ∀ d ∈ all, Maps d) (hc : NoCollision H all)
    (hn : ∀ d ∈ all, NameChars d.getName ∧ ∀ o ∈ d.outputs, NameChars o.1) (ds : List Derivation) :
    ∀ ms, (∀ d ∈ ds, d ∈ all) → From H all ms → ModTable H ms →
      (∀ p d, ms.known p = some d → ∀ o ∈ d.outputs, OutputPathOf H ms.known d o o.2.path) →
      (∀ p d, (MapStore.history H ms ds).2.known p = some d → Unambiguous H (MapStore.history H ms ds).2.known d) →
      ∀ p d, (MapStore.history H ms ds).2.known p = some d → ∀ o ∈ d.outputs, OutputPathOf H (MapStore.history H ms ds).2.known d o o.2.path := by
  induction ds with
  | nil => intro ms _ _ _ h _; exact h
  | cons d ds ih =>
    intro ms hd hf ht hp hu
    have h1 := hd d (by simp)
    have hf' := put_from ht.inv hf h1 (hmaps d h1)
    have hw1 := put_within hc ht.inv hf h1 (hmaps d h1)
    have hw2 := history_within hmaps hc ds _ (fun x hx => hd x (by simp [hx])) (put_inv H ht.inv d) hf'
    have hua : ∀ q, (MapStore.put H d ms).1 = .ok q → Unambiguous H ms.known d := by
      intro q hq
      have hk : (MapStore.put H d ms).2.known q = some d := by
        rcases put_cases H ht.inv d with ⟨q', r, _, _, he⟩ | ⟨_, h, _⟩
        · rw [he] at hq ⊢
          cases Res.ok.inj hq
          rw [known_eq]
          simp only
          rw [GoMap.get?_insert, if_pos rfl]
        · exact absurd hq (h q)
      obtain ⟨d', e, s⟩ := hw2 q d hk
      exact unambiguous_back (within_trans hw1 hw2) s (hu q d' e)
    have ht' := table_put hmaps hc hf ht h1 hua
    have hmod : ∀ x : Derivation, (∀ i ∈ x.inputDerivations, (ms.known i.1).isSome = true) →
        ∀ i ∈ x.inputDerivations, ∃ d' h, ms.known i.1 = some d' ∧ Modulo H ms.known d' h := by
      intro x hx i hi
      obtain ⟨y, hy⟩ := Option.isSome_iff_exists.1 (hx i hi)
      obtain ⟨r, _, h⟩ := ht.modulo _ _ hy
      exact ⟨y, r, hy, h⟩
    refine ih _ (fun x hx => hd x (by simp [hx])) hf' ht' ?_ hu
    intro p x hx o ho
    rcases put_cases H ht.inv d with ⟨q, r, hq, hr, he⟩ | ⟨_, _, he⟩
    · have hua := hua q (by rw [he])
      obtain ⟨hv, hin, ⟨m, hmm, hmo⟩, _⟩ := (putPath_iff H ms (hmaps d h1).outputs q).1 hq
      have hin' : ∀ i ∈ d.inputDerivations, (ms.known i.1).isSome = true := fun i hi => by rw [known_eq]; exact hin i hi
      by_cases hpq : p = q
      · have hxd : x = d := by
          rw [he, known_eq] at hx
          simp only at hx
          rw [GoMap.get?_insert, if_pos hpq.symm] at hx
          exact (Option.some.inj hx).symm
        rw [hxd] at ho ⊢
        obtain ⟨p', e1, e2⟩ := calculated_paths ht (hmaps d h1) hv hin' hua (hn d h1).1 (hn d h1).2 hmm o ho
        rw [hmo o ho] at e1
        rw [Option.some.inj e1]
        exact (outputPathOf_within hw1 (hmod d hin') o _).1 e2
      · have hx' : ms.known p = some x := by
          rw [he, known_eq] at hx
          simp only at hx
          rw [GoMap.get?_insert, if_neg (fun e => hpq e.symm)] at hx
          rw [known_eq]; exact hx
        exact (outputPathOf_within hw1 (hmod x (ht.stored p x hx')) o _).1 (hp p x hx' o ho)
    · rw [he] at hx ⊢
      exact hp p x hx o ho

/-- C133: every derivation in the store has a hash modulo fixed outputs, given by the graph of the stored derivations alone, which is what
`CalculateDrvReplacement` delivers with the hashes of its inputs; and its output paths are those of the graph. -/
theorem C133_stored (H : Bytes → Bytes) (ds : List Derivation) (hm : ∀ d ∈ ds, Maps d) (hc : NoCollision H ds)
    (hu : ∀ p d, (MapStore.history H newMapStore ds).2.known p = some d → Unambiguous H (MapStore.history H newMapStore ds).2.known d)
    (hn : ∀ d ∈ ds, NameChars d.getName ∧ ∀ o ∈ d.outputs, NameChars o.1) (p : Bytes) (d : Derivation) :
    let ms := (MapStore.history H newMapStore ds).2
    ms.get p = .ok d → ∃ h, Modulo H ms.known d h ∧
      (∀ R, (∀ i ∈ d.inputDerivations, ∃ di hi, ms.get i.1 = .ok di ∧ Modulo H ms.known di hi ∧ R.get? i.1 = some hi) →
        calculateDrvReplacement H d R = .ok h) ∧
      ∀ o ∈ d.outputs, OutputPathOf H ms.known d o o.2.path := by
  intro ms hg
  have ht : ModTable H ms := table_of hm hc hu
  have hk : ms.known p = some d := by unfold MapStore.known; rw [hg]
  obtain ⟨h, _, hmod⟩ := ht.modulo p d hk
  refine ⟨h, hmod, fun R hR => ?_, stored_history hm hc hn ds newMapStore (fun _ h => h) (fun _ _ h => nomatch h) (table_new H)
    (fun _ _ h => nomatch h) hu p d hk⟩
  have hsame : ∀ i ∈ d.inputDerivations, ms.drvReplacements.get? i.1 ≠ none ∧ ms.drvReplacements.get? i.1 = R.get? i.1 := by
    intro i hi
    obtain ⟨di, hh, h1, h2, h3⟩ := hR i hi
    have hki : ms.known i.1 = some di := by unfold MapStore.known; rw [h1]
    obtain ⟨r, h4, h5⟩ := ht.modulo _ _ hki
    rw [h4, h3, h5.unique _ h2]
    exact ⟨by simp, rfl⟩
  obtain ⟨r, hr⟩ := calculateDrvReplacement_ok H (d := d) (R := ms.drvReplacements) (fun i hi => (hsame i hi).1)
  rw [← calculateDrvReplacement_repl H (fun _ => aterm_restrict hsame false), hr,
    (replacement_modulo ht (ht.maps p d hk) (ht.stored p d hk) (hu p d hk) hr).unique _ hmod]

theorem history_from {H : Bytes → Bytes} {all : List Derivation} (hmaps : ∀ d ∈ all, Maps d) (ds : List Derivation) :
    ∀ ms, (∀ d ∈ ds, d ∈ all) → MInv ms → From H all ms → From H all (MapStore.history H ms ds).2 := by
  induction ds with
  | nil => intro ms _ _ h; exact h
  | cons d ds ih =>
    intro ms hd hi hf
    have h1 := hd d (by simp)
    exact ih _ (fun x hx => hd x (by simp [hx])) (put_inv H hi d) (put_from hi hf h1 (hmaps d h1))

/-- derivations for the examples -/
def graphDrvs : List Derivation := [fetchDrv b!"a", fetchDrv b!"b", userDrv [b!"a", b!"b"]]

theorem graph_maps : ∀ d ∈ graphDrvs, Maps d := by
  have : ∀ d ∈ graphDrvs, d.outputs.keys.Nodup ∧ d.inputDerivations.keys.Nodup ∧ d.env.keys.Nodup := by decide +kernel
  exact fun d h => ⟨(this d h).1, (this d h).2.1, (this d h).2.2⟩

theorem graph_noCollision : NoCollision zeroHash graphDrvs := by
  have : ∀ d ∈ graphDrvs, ∀ d' ∈ graphDrvs, drvPath zeroHash d = drvPath zeroHash d' → d = d' := by decide +kernel
  intro d hd d' hd' p h h'
  rw [this d hd d' hd' (by rw [h, h'])]
  exact .refl _

theorem graph_unambiguous (p : Bytes) (d : Derivation) (h : (MapStore.history zeroHash newMapStore graphDrvs).2.known p = some d) :
    Unambiguous zeroHash (MapStore.history zeroHash newMapStore graphDrvs).2.known d := by
  have hd := (history_from graph_maps graphDrvs newMapStore (fun _ h => h) mInv_new (fun _ _ h => nomatch h) p d h).1
  have : ∀ d ∈ graphDrvs, ∀ i ∈ d.inputDerivations, i.2 = [b!"out"] := by decide +kernel
  intro i hi j hj _ _ _ _ _ _ _
  rw [this d hd i hi, this d hd j hj]

/-- The hypotheses of C133 hold for a store with two fetched files and a derivation that uses them; all three are accepted, and the first two
have hashes of the fixed kind, the third one has not. -/
example : (∀ d ∈ graphDrvs, Maps d) ∧ NoCollision zeroHash graphDrvs ∧
    (∀ p d, (MapStore.history zeroHash newMapStore graphDrvs).2.known p = some d →
      Unambiguous zeroHash (MapStore.history zeroHash newMapStore graphDrvs).2.known d) ∧
    (∀ d ∈ graphDrvs, NameChars d.getName ∧ ∀ o ∈ d.outputs, NameChars o.1) ∧
    (∀ d ∈ graphDrvs, ∃ p, (MapStore.history zeroHash newMapStore graphDrvs).2.get p = .ok d) :=
  ⟨graph_maps, graph_noCollision, graph_unambiguous, by decide +kernel, by
    have h : ∀ n ∈ [(b!"a", fetchDrv b!"a"), (b!"b", fetchDrv b!"b"), (b!"user", userDrv [b!"a", b!"b"])],
        (MapStore.history zeroHash newMapStore graphDrvs).2.get (b!"/nix/store/" ++ dHash ++ b!"-" ++ n.1 ++ b!".drv") = .ok n.2 := by
      decide +kernel
    intro d hd
    simp only [graphDrvs, List.mem_cons, List.not_mem_nil, or_false] at hd
    rcases hd with rfl | rfl | rfl
    · exact ⟨_, h _ (.head _)⟩
    · exact ⟨_, h _ (.tail _ (.head _))⟩
    · exact ⟨_, h _ (.tail _ (.tail _ (.head _)))⟩⟩

end Verif.Props
