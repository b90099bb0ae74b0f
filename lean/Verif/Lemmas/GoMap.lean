import Verif.GoMap
import Verif.Lemmas.Path

namespace Verif.GoLib

/-! ## Sorting -/

theorem insertSorted_perm (x : Bytes) (l : List Bytes) : (insertSorted x l).Perm (x :: l) := by
  induction l with
  | nil => exact List.Perm.refl _
  | cons y l ih =>
    unfold insertSorted
    split
    · exact List.Perm.refl _
    · exact (List.Perm.cons y ih).trans (List.Perm.swap x y l)

theorem sortStrings_perm (l : List Bytes) : (sortStrings l).Perm l := by
  induction l with
  | nil => exact List.Perm.refl _
  | cons x l ih => exact (insertSorted_perm x _).trans (List.Perm.cons x ih)

theorem insertSorted_sorted (x : Bytes) (l : List Bytes) (h : l.Pairwise (· ≤ ·)) :
    (insertSorted x l).Pairwise (· ≤ ·) := by
  induction l with
  | nil => simp [insertSorted]
  | cons y l ih =>
    unfold insertSorted
    rw [List.pairwise_cons] at h
    split
    · rename_i hxy
      rw [strLe_iff] at hxy
      rw [List.pairwise_cons, List.pairwise_cons]
      refine ⟨?_, h⟩
      intro z hz
      rcases List.mem_cons.1 hz with rfl | hz
      · exact hxy
      · exact List.le_trans hxy (h.1 z hz)
    · rename_i hxy
      rw [strLe_iff] at hxy
      have hyx : y ≤ x := by
        rcases List.le_total x y with h | h
        · exact absurd h hxy
        · exact h
      rw [List.pairwise_cons]
      refine ⟨?_, ih h.2⟩
      intro z hz
      have := (insertSorted_perm x l).mem_iff.1 hz
      rcases List.mem_cons.1 this with rfl | hz
      · exact hyx
      · exact h.1 z hz

theorem sortStrings_sorted (l : List Bytes) : (sortStrings l).Pairwise (· ≤ ·) := by
  induction l with
  | nil => simp [sortStrings]
  | cons x l ih => exact insertSorted_sorted x _ ih

/-- there is only one sorted permutation -/
theorem sorted_unique {a b : List Bytes} (hp : a.Perm b) (ha : a.Pairwise (· ≤ ·)) (hb : b.Pairwise (· ≤ ·)) :
    a = b :=
  hp.eq_of_pairwise (le := (· ≤ ·)) (fun _ _ _ _ h1 h2 => List.le_antisymm h1 h2) ha hb

theorem sortStrings_congr {a b : List Bytes} (h : a.Perm b) : sortStrings a = sortStrings b :=
  sorted_unique ((sortStrings_perm a).trans (h.trans (sortStrings_perm b).symm))
    (sortStrings_sorted a) (sortStrings_sorted b)

theorem sortStrings_of_sorted {a : List Bytes} (h : a.Pairwise (· ≤ ·)) : sortStrings a = a :=
  sorted_unique (sortStrings_perm a) (sortStrings_sorted a) h

theorem mem_sortStrings {x : Bytes} {l : List Bytes} : x ∈ sortStrings l ↔ x ∈ l := (sortStrings_perm l).mem_iff

theorem sortStrings_nodup {l : List Bytes} (h : l.Nodup) : (sortStrings l).Nodup :=
  (sortStrings_perm l).nodup_iff.2 h

theorem sorted_nodup_lt {l : List Bytes} (h : l.Pairwise (· ≤ ·)) (hn : l.Nodup) : l.Pairwise (· < ·) := by
  induction l with
  | nil => simp
  | cons a l ih =>
    rw [List.pairwise_cons] at h
    rw [List.nodup_cons] at hn
    rw [List.pairwise_cons]
    refine ⟨fun b hb => ?_, ih h.2 hn.2⟩
    rcases List.le_iff_lt_or_eq.1 (h.1 b hb) with hlt | heq
    · exact hlt
    · subst heq; exact absurd hb hn.1

theorem lt_irrefl_bytes (a : Bytes) : ¬ a < a := List.lt_irrefl a

theorem pairwise_lt_nodup {l : List Bytes} (h : l.Pairwise (· < ·)) : l.Nodup :=
  h.imp (fun {a b} hab heq => by subst heq; exact lt_irrefl_bytes _ hab)

theorem pairwise_lt_le {l : List Bytes} (h : l.Pairwise (· < ·)) : l.Pairwise (· ≤ ·) :=
  h.imp (fun h => List.le_of_lt h)

/-! ## Maps -/

namespace GoMap
variable {α β : Type}

theorem get?_insert (m : GoMap α) (k k' : Bytes) (v : α) :
    (m.insert k v).get? k' = if k = k' then some v else m.get? k' := by
  induction m with
  | nil => simp [insert, get?]
  | cons p m ih =>
    obtain ⟨a, x⟩ := p
    unfold insert
    split
    · rename_i h
      subst h
      unfold get?
      split <;> rfl
    · rename_i h
      unfold get?
      rw [ih]
      split
      · rename_i h1
        subst h1
        rw [if_neg (fun h' => h h'.symm)]
      · rfl

theorem keys_insert_mem (m : GoMap α) (k k' : Bytes) (v : α) :
    k' ∈ (m.insert k v).keys ↔ k' = k ∨ k' ∈ m.keys := by
  induction m with
  | nil => simp [insert, keys]
  | cons p m ih =>
    obtain ⟨a, x⟩ := p
    unfold insert
    split
    · rename_i h
      subst h
      simp [keys]
    · simp only [keys, List.map_cons, List.mem_cons] at ih ⊢
      rw [ih]
      constructor
      · rintro (h | h | h) <;> simp [h]
      · rintro (h | h | h) <;> simp [h]

theorem keys_insert_nodup (m : GoMap α) (k : Bytes) (v : α) (h : m.keys.Nodup) : (m.insert k v).keys.Nodup := by
  induction m with
  | nil => simp [insert, keys]
  | cons p m ih =>
    obtain ⟨a, x⟩ := p
    have h' : a ∉ keys m ∧ (keys m).Nodup := by simpa [keys] using h
    unfold insert
    split
    · rename_i he
      subst he
      simpa [keys] using h
    · rename_i he
      have h1 : keys ((a, x) :: insert m k v) = a :: keys (insert m k v) := rfl
      rw [h1, List.nodup_cons]
      refine ⟨?_, ih h'.2⟩
      rw [keys_insert_mem]
      rintro (h2 | h2)
      · exact he h2
      · exact h'.1 h2

theorem get?_isSome (m : GoMap α) (k : Bytes) : (m.get? k).isSome = true ↔ k ∈ m.keys := by
  induction m with
  | nil => simp [get?, keys]
  | cons p m ih =>
    obtain ⟨a, x⟩ := p
    unfold get?
    split
    · rename_i h; simp [keys, h]
    · rename_i h
      rw [ih]
      simp only [keys, List.map_cons, List.mem_cons]
      constructor
      · exact .inr
      · rintro (h' | h')
        · exact absurd h'.symm h
        · exact h'

theorem get?_mem {m : GoMap α} {k : Bytes} {v : α} (h : m.get? k = some v) : (k, v) ∈ m := by
  induction m with
  | nil => simp [get?] at h
  | cons p m ih =>
    obtain ⟨a, x⟩ := p
    unfold get? at h
    split at h
    · rename_i he; simp at h; subst he h; simp
    · exact List.mem_cons_of_mem _ (ih h)

theorem get?_of_mem {m : GoMap α} (hn : m.keys.Nodup) {k : Bytes} {v : α} (h : (k, v) ∈ m) : m.get? k = some v := by
  induction m with
  | nil => simp at h
  | cons p m ih =>
    obtain ⟨a, x⟩ := p
    have h' : a ∉ keys m ∧ (keys m).Nodup := by simpa [keys] using hn
    unfold get?
    rcases List.mem_cons.1 h with h1 | h1
    · simp at h1; rw [if_pos h1.1.symm, h1.2]
    · split
      · rename_i he
        subst he
        exact absurd (List.mem_map_of_mem h1) h'.1
      · exact ih h'.2 h1

theorem get?_perm {m m' : GoMap α} (hn : m.keys.Nodup) (hp : m.Perm m') (k : Bytes) : m.get? k = m'.get? k := by
  have hn' : m'.keys.Nodup := (hp.map Prod.fst).nodup_iff.1 hn
  cases h : m.get? k with
  | some v => exact (get?_of_mem hn' (hp.mem_iff.1 (get?_mem h))).symm
  | none =>
    cases h' : m'.get? k with
    | none => rfl
    | some v =>
      have := get?_of_mem hn (hp.mem_iff.2 (get?_mem h'))
      rw [h] at this; simp at this

end GoMap

end Verif.GoLib
