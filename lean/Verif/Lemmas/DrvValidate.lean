import Verif.Lemmas.AtermWrite
import Verif.Lemmas.Storepath

/-! # `Derivation.Validate` -/

namespace Verif.Derivation
open Verif.GoLib

theorem validateOutputs_iff (n : Nat) (l : GoMap Output) (hn : n = 1 → l.length ≤ 1) :
    validateOutputs n l = .ok () ↔ ∀ o ∈ l, o.1 ≠ [] ∧ (o.2.hashAlgorithm ≠ [] → n = 1 ∧ o.1 = b!"out") ∧
      (o.2.hashAlgorithm = [] → Storepath.validate o.2.path = .ok ()) := by
  induction l with
  | nil => simp [validateOutputs]
  | cons p l ih =>
    obtain ⟨k, o⟩ := p
    rw [validateOutputs]
    by_cases hk : k = []
    · simp [hk]
    rw [if_neg hk]
    by_cases ha : o.hashAlgorithm ≠ []
    · rw [if_pos ha]
      by_cases h1 : n = 1
      · have hl : l = [] := by
          have := hn h1
          simp at this
          exact this
        subst hl
        by_cases ho : k = b!"out"
        · subst ho; simp [h1, ha]
        · simp [h1, ho, hk, ha]
      · rw [if_pos h1]
        simp only [reduceCtorEq, false_iff]
        intro h
        exact h1 ((h (k, o) (by simp)).2.1 ha).1
    · rw [if_neg ha]
      have ha' : o.hashAlgorithm = [] := Classical.not_not.1 ha
      cases hv : Storepath.validate o.path with
      | err e =>
        simp only [reduceCtorEq, false_iff]
        intro h
        have := (h (k, o) (by simp)).2.2 ha'
        rw [hv] at this; cases this
      | panic =>
        simp only [reduceCtorEq, false_iff]
        intro h
        have := (h (k, o) (by simp)).2.2 ha'
        rw [hv] at this; cases this
      | ok u =>
        cases u
        show validateOutputs n l = _ ↔ _
        rw [ih (fun h => by have := hn h; simp at this; simp [this])]
        constructor
        · intro h x hx
          rcases List.mem_cons.1 hx with rfl | hx
          · exact ⟨hk, fun h => absurd ha' h, fun _ => hv⟩
          · exact h x hx
        · intro h x hx
          exact h x (by simp [hx])

theorem strLt_any (prev : Option Bytes) (o : Bytes) : prev.any (strLt o) = true ↔ ∃ p, prev = some p ∧ o < p := by
  cases prev with
  | none => simp
  | some p => simp [strLt_iff]

theorem pairwise_cons_le {a : Bytes} {l : List Bytes} (h : (a :: l).Pairwise (· ≤ ·)) {p : Bytes} (hp : p ≤ a) :
    (p :: a :: l).Pairwise (· ≤ ·) := by
  rw [List.pairwise_cons]
  refine ⟨?_, h⟩
  intro x hx
  rcases List.mem_cons.1 hx with rfl | hx
  · exact hp
  · exact List.le_trans hp ((List.pairwise_cons.1 h).1 x hx)

theorem validateOutputNames_iff (l : List Bytes) : ∀ prev, validateOutputNames prev l = .ok () ↔
    (prev.toList ++ l).Pairwise (· ≤ ·) ∧ ∀ o ∈ l, o ≠ [] := by
  induction l with
  | nil => intro prev; cases prev <;> simp [validateOutputNames]
  | cons o l ih =>
    intro prev
    rw [validateOutputNames]
    by_cases h1 : prev.any (strLt o) = true
    · rw [if_pos h1]
      obtain ⟨p, rfl, hlt⟩ := (strLt_any _ _).1 h1
      simp only [reduceCtorEq, Option.toList, false_iff, not_and]
      intro h
      exact absurd ((List.pairwise_cons.1 h).1 o (by simp)) (List.not_le.2 hlt)
    rw [if_neg h1]
    have hle : ∀ p, prev = some p → p ≤ o := by
      intro p hp
      rw [← List.not_lt]
      intro hlt
      exact h1 ((strLt_any _ _).2 ⟨p, hp, hlt⟩)
    by_cases ho : o = []
    · simp [ho]
    rw [if_neg ho, ih]
    constructor
    · rintro ⟨h2, h3⟩
      refine ⟨?_, ?_⟩
      · cases prev with
        | none => exact h2
        | some p => exact pairwise_cons_le h2 (hle p rfl)
      · intro x hx
        rcases List.mem_cons.1 hx with rfl | hx
        · exact ho
        · exact h3 x hx
    · rintro ⟨h2, h3⟩
      refine ⟨?_, fun x hx => h3 x (by simp [hx])⟩
      cases prev with
      | none => exact h2
      | some p => exact (List.pairwise_cons.1 h2).2

theorem validateInputDerivations_iff (l : GoMap (List Bytes)) : validateInputDerivations l = .ok () ↔
    ∀ i ∈ l, Storepath.validate i.1 = .ok () ∧ i.2 ≠ [] ∧ i.2.Pairwise (· ≤ ·) ∧ ∀ o ∈ i.2, o ≠ [] := by
  induction l with
  | nil => simp [validateInputDerivations]
  | cons p l ih =>
    obtain ⟨k, names⟩ := p
    rw [validateInputDerivations, Res.bind_eq_ok]
    constructor
    · rintro ⟨u, hv, h⟩
      by_cases hn : names = []
      · rw [if_pos hn] at h; cases h
      rw [if_neg hn, Res.bind_eq_ok] at h
      obtain ⟨_, h1, h2⟩ := h
      have h1' := (validateOutputNames_iff names none).1 h1
      intro x hx
      rcases List.mem_cons.1 hx with rfl | hx
      · exact ⟨hv, hn, h1'.1, h1'.2⟩
      · exact ih.1 h2 x hx
    · intro h
      have h0 := h (k, names) (by simp)
      refine ⟨(), h0.1, ?_⟩
      rw [if_neg h0.2.1, Res.bind_eq_ok]
      exact ⟨(), (validateOutputNames_iff names none).2 h0.2.2, ih.2 fun x hx => h x (by simp [hx])⟩

theorem validateInputSources_iff (l : List Bytes) : ∀ prev, validateInputSources prev l = .ok () ↔
    (∀ s ∈ l, Storepath.validate s = .ok ()) ∧ (prev.toList ++ l).Pairwise (· ≤ ·) := by
  induction l with
  | nil => intro prev; cases prev <;> simp [validateInputSources]
  | cons o l ih =>
    intro prev
    rw [validateInputSources]
    cases hv : Storepath.validate o with
    | err e => simp [hv]
    | panic => simp [hv]
    | ok u =>
      show (if prev.any (strLt o) = true then _ else _) = _ ↔ _
      by_cases h1 : prev.any (strLt o) = true
      · rw [if_pos h1]
        obtain ⟨p, rfl, hlt⟩ := (strLt_any _ _).1 h1
        simp only [reduceCtorEq, Option.toList, false_iff, not_and]
        intro _ h
        exact absurd ((List.pairwise_cons.1 h).1 o (by simp)) (List.not_le.2 hlt)
      rw [if_neg h1, ih]
      have hle : ∀ p, prev = some p → p ≤ o := by
        intro p hp
        rw [← List.not_lt]
        intro hlt
        exact h1 ((strLt_any _ _).2 ⟨p, hp, hlt⟩)
      constructor
      · rintro ⟨h3, h2⟩
        refine ⟨?_, ?_⟩
        · intro x hx
          rcases List.mem_cons.1 hx with rfl | hx
          · exact hv
          · exact h3 x hx
        · cases prev with
          | none => exact h2
          | some p => exact pairwise_cons_le h2 (hle p rfl)
      · rintro ⟨h3, h2⟩
        refine ⟨fun x hx => h3 x (by simp [hx]), ?_⟩
        cases prev with
        | none => exact h2
        | some p => exact (List.pairwise_cons.1 h2).2

/-- The outcome of the loop over the environment. -/
def nameEnv (name : Bytes) (acc : Bool) : List Bytes → Bool
  | [] => acc
  | k :: rest => nameEnv name (if k = b!"__json" then decide (name ≠ []) else if k = b!"name" then true else acc) rest

theorem validateEnv_iff (name : Bytes) (l : List Bytes) : ∀ acc r, validateEnv name acc l = .ok r ↔
    (∀ k ∈ l, k ≠ []) ∧ r = nameEnv name acc l := by
  induction l with
  | nil => intro acc r; simp [validateEnv, nameEnv, eq_comm]
  | cons k l ih =>
    intro acc r
    rw [validateEnv, nameEnv]
    by_cases hk : k = []
    · simp [hk]
    rw [if_neg hk]
    show validateEnv _ _ _ = _ ↔ _
    rw [ih]
    simp [hk]

theorem nameEnv_ne {name : Bytes} (hn : name ≠ []) (l : List Bytes) : ∀ acc, nameEnv name acc l = true ↔
    acc = true ∨ b!"name" ∈ l ∨ b!"__json" ∈ l := by
  induction l with
  | nil => intro acc; simp [nameEnv]
  | cons k l ih =>
    intro acc
    rw [nameEnv, ih]
    by_cases h1 : k = b!"__json"
    · simp [h1, hn]
    · by_cases h2 : k = b!"name"
      · simp [h2]
      · simp only [h1, h2, if_false, List.mem_cons, Ne.symm h1, Ne.symm h2, false_or]

theorem nameEnv_nojson {name : Bytes} (l : List Bytes) (hj : b!"__json" ∉ l) : ∀ acc, nameEnv name acc l = true ↔
    acc = true ∨ b!"name" ∈ l := by
  induction l with
  | nil => intro acc; simp [nameEnv]
  | cons k l ih =>
    intro acc
    have h1 : k ≠ b!"__json" := fun e => hj (by simp [e])
    rw [nameEnv, ih (fun e => hj (by simp [e]))]
    by_cases h2 : k = b!"name"
    · simp [h2]
    · simp only [h1, h2, if_false, List.mem_cons, Ne.symm h2, false_or]

theorem nameEnv_noname {l : List Bytes} (hj : b!"name" ∉ l) : nameEnv [] false l = false := by
  induction l with
  | nil => rfl
  | cons k l ih =>
    have h1 : k ≠ b!"name" := fun e => hj (by simp [e])
    rw [nameEnv]
    simp only [h1, if_false, ne_eq, not_true_eq_false, decide_false, ite_self]
    exact ih (fun e => hj (by simp [e]))

theorem validate_iff' (d : Derivation) : d.validate = .ok () ↔
    WellFormed d ∧ nameEnv d.name false d.env.keys = true := by
  unfold Derivation.validate
  by_cases h0 : d.outputs = []
  · rw [if_pos h0]
    simp only [reduceCtorEq, false_iff, not_and]
    intro h; exact absurd h0 h.has_output
  rw [if_neg h0]
  simp only [Res.bind_eq_ok]
  constructor
  · rintro ⟨_, h1, _, h2, _, h3, h⟩
    by_cases hp : d.platform = []
    · rw [if_pos hp] at h; cases h
    rw [if_neg hp] at h
    by_cases hb : d.builder = []
    · rw [if_pos hb] at h; cases h
    rw [if_neg hb, Res.bind_eq_ok] at h
    obtain ⟨r, h4, h5⟩ := h
    obtain ⟨h4', rfl⟩ := (validateEnv_iff _ _ _ _).1 h4
    have h3' := (validateInputSources_iff _ _).1 h3
    refine ⟨⟨h0, (validateOutputs_iff _ _ (by omega)).1 h1, (validateInputDerivations_iff _).1 h2,
      ⟨h3'.1, h3'.2⟩, hp, hb, ?_⟩, ?_⟩
    · intro e he
      exact h4' e.1 (List.mem_map.2 ⟨e, he, rfl⟩)
    · cases hr : nameEnv d.name false d.env.keys with
      | true => rfl
      | false => rw [hr] at h5; cases h5
  · rintro ⟨h, hn⟩
    refine ⟨(), (validateOutputs_iff _ _ (by omega)).2 h.outputs, (), (validateInputDerivations_iff _).2 h.inputDerivations,
      (), (validateInputSources_iff _ _).2 ⟨h.inputSources.1, h.inputSources.2⟩, ?_⟩
    rw [if_neg h.platform, if_neg h.builder, Res.bind_eq_ok]
    refine ⟨true, (validateEnv_iff _ _ _ _).2 ⟨?_, hn.symm⟩, rfl⟩
    intro k hk
    obtain ⟨e, he, rfl⟩ := List.mem_map.1 hk
    exact h.env e he

theorem WellFormed.same {d d' : Derivation} (h : Same d d') (hw : WellFormed d) : WellFormed d' where
  has_output := fun e => hw.has_output (by have := h.outputs.length_eq; rw [e] at this; exact List.length_eq_zero_iff.1 this)
  outputs := by
    intro o ho
    have := hw.outputs o (h.outputs.mem_iff.2 ho)
    rw [← h.outputs.length_eq]; exact this
  inputDerivations := fun i hi => hw.inputDerivations i (h.inputDerivations.mem_iff.2 hi)
  inputSources := by rw [← h.inputSources]; exact hw.inputSources
  platform := by rw [← h.platform]; exact hw.platform
  builder := by rw [← h.builder]; exact hw.builder
  env := fun e he => hw.env e (h.env.mem_iff.2 he)

theorem validateOutputs_ne_panic (n : Nat) (l : GoMap Output) : validateOutputs n l ≠ .panic := by
  induction l with
  | nil => simp [validateOutputs]
  | cons p l ih =>
    rw [validateOutputs]
    split
    · simp
    split
    · split
      · simp
      · split <;> simp
    · split
      · simp
      · rename_i h; exact absurd h (Storepath.validate_ne_panic _)
      · exact ih

theorem validateOutputNames_ne_panic (l : List Bytes) : ∀ prev, validateOutputNames prev l ≠ .panic := by
  induction l with
  | nil => intro prev; simp [validateOutputNames]
  | cons p l ih =>
    intro prev
    rw [validateOutputNames]
    split
    · simp
    split
    · simp
    · exact ih _

theorem res_bind_ne_panic {α β : Type} {x : Res α} {f : α → Res β} (hx : x ≠ .panic) (hf : ∀ a, x = .ok a → f a ≠ .panic) :
    (x >>= f) ≠ .panic := by
  cases x with
  | ok a => exact hf a rfl
  | err e => simp
  | panic => exact absurd rfl hx

theorem validateInputDerivations_ne_panic (l : GoMap (List Bytes)) : validateInputDerivations l ≠ .panic := by
  induction l with
  | nil => simp [validateInputDerivations]
  | cons p l ih =>
    rw [validateInputDerivations]
    refine res_bind_ne_panic (Storepath.validate_ne_panic _) fun _ _ => ?_
    split
    · simp
    · exact res_bind_ne_panic (validateOutputNames_ne_panic _ _) fun _ _ => ih

theorem validateInputSources_ne_panic (l : List Bytes) : ∀ prev, validateInputSources prev l ≠ .panic := by
  induction l with
  | nil => intro prev; simp [validateInputSources]
  | cons p l ih =>
    intro prev
    rw [validateInputSources]
    split
    · simp
    · rename_i h; exact absurd h (Storepath.validate_ne_panic _)
    · split
      · simp
      · exact ih _

theorem validateEnv_ne_panic (name : Bytes) (l : List Bytes) : ∀ acc, validateEnv name acc l ≠ .panic := by
  induction l with
  | nil => intro acc; simp [validateEnv]
  | cons k l ih =>
    intro acc
    rw [validateEnv]
    split
    · simp
    · exact ih _

theorem validate_ne_panic (d : Derivation) : d.validate ≠ .panic := by
  unfold Derivation.validate
  split
  · simp
  refine res_bind_ne_panic (validateOutputs_ne_panic _ _) fun _ _ => ?_
  refine res_bind_ne_panic (validateInputDerivations_ne_panic _) fun _ _ => ?_
  refine res_bind_ne_panic (validateInputSources_ne_panic _ _) fun _ _ => ?_
  split
  · simp
  split
  · simp
  refine res_bind_ne_panic (validateEnv_ne_panic _ _ _) fun r _ => ?_
  split <;> simp

end Verif.Derivation
