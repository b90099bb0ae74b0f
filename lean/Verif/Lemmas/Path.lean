import Verif.GoPath
import Verif.Lemmas.GoLib
import Verif.Spec.Nar

namespace Verif.GoLib
open Verif.Spec

/-! ### string comparison -/

theorem strLe_iff (a b : Bytes) : strLe a b = true ↔ a ≤ b := by
  induction a generalizing b with
  | nil => simp [strLe]
  | cons x a ih =>
    cases b with
    | nil => simp [strLe]
    | cons y b =>
      unfold strLe
      rw [List.cons_le_cons_iff]
      split
      · rename_i h; subst h; rw [ih]; simp
      · rename_i h; simp [h]

theorem strLt_iff (a b : Bytes) : strLt a b = true ↔ a < b := by
  unfold strLt
  rw [← List.not_le, ← strLe_iff]; simp

theorem strLe_refl (a : Bytes) : strLe a a = true := (strLe_iff a a).2 (List.le_refl a)

/-! ### split and join -/

theorem splitByte_ne_nil (s : Bytes) (c : UInt8) : splitByte s c ≠ [] := by
  induction s with
  | nil => simp [splitByte]
  | cons x s ih =>
    unfold splitByte
    split
    · simp
    · split <;> simp

theorem splitByte_no_sep (s : Bytes) (c : UInt8) : ∀ x ∈ splitByte s c, c ∉ x := by
  induction s with
  | nil => simp [splitByte]
  | cons y s ih =>
    unfold splitByte
    split
    · intro x hx
      rcases List.mem_cons.1 hx with rfl | hx
      · simp
      · exact ih x hx
    · rename_i hy
      split
      · rename_i h; exact absurd h (splitByte_ne_nil s c)
      · rename_i h
        intro z hz
        rw [h] at ih
        rcases List.mem_cons.1 hz with rfl | hz
        · simp only [List.mem_cons, not_or]
          exact ⟨by intro e; simp [e] at hy, ih _ (List.mem_cons_self ..)⟩
        · exact ih z (List.mem_cons_of_mem _ hz)

theorem splitByte_self {x : Bytes} {c : UInt8} (h : c ∉ x) : splitByte x c = [x] := by
  induction x with
  | nil => rfl
  | cons y x ih =>
    simp only [List.mem_cons, not_or] at h
    unfold splitByte
    rw [if_neg (by simp; exact fun e => h.1 e.symm), ih h.2]

theorem splitByte_append {x s : Bytes} {c : UInt8} (h : c ∉ x) :
    splitByte (x ++ c :: s) c = x :: splitByte s c := by
  induction x with
  | nil => simp [splitByte]
  | cons y x ih =>
    simp only [List.mem_cons, not_or] at h
    rw [List.cons_append]
    rw [splitByte.eq_2, if_neg (by simp; exact fun e => h.1 e.symm), ih h.2]

theorem join_cons {a : Bytes} {l : List Bytes} (h : l ≠ []) (sep : Bytes) :
    join (a :: l) sep = a ++ sep ++ join l sep := by
  cases l with
  | nil => exact absurd rfl h
  | cons b l => rfl

theorem join_splitByte (s : Bytes) (c : UInt8) : join (splitByte s c) [c] = s := by
  induction s with
  | nil => rfl
  | cons x s ih =>
    unfold splitByte
    split
    · rename_i h
      rw [join_cons (splitByte_ne_nil s c), ih]
      simp at h; simp [h]
    · split
      · rename_i h; exact absurd h (splitByte_ne_nil s c)
      · rename_i y ys h
        rw [h] at ih
        cases ys with
        | nil => simp [join] at ih ⊢; exact ih
        | cons z zs => simp [join] at ih ⊢; exact ih

theorem splitByte_join {l : List Bytes} {c : UInt8} (hne : l ≠ []) (h : ∀ x ∈ l, c ∉ x) :
    splitByte (join l [c]) c = l := by
  induction l with
  | nil => exact absurd rfl hne
  | cons a l ih =>
    cases l with
    | nil => exact splitByte_self (h a (by simp))
    | cons b l =>
      rw [join_cons (by simp), List.append_assoc, List.singleton_append,
        splitByte_append (h a (by simp)), ih (by simp) (fun x hx => h x (List.mem_cons_of_mem _ hx))]

theorem join_append {l m : List Bytes} (hl : l ≠ []) (hm : m ≠ []) (sep : Bytes) :
    join (l ++ m) sep = join l sep ++ sep ++ join m sep := by
  induction l with
  | nil => exact absurd rfl hl
  | cons a l ih =>
    cases l with
    | nil => rw [List.singleton_append, join_cons hm]; rfl
    | cons b l =>
      rw [List.cons_append, join_cons (a := a) (by simp), ih (by simp), join_cons (a := a) (l := b :: l) (by simp)]
      simp

/-! ### clean rooted paths -/

/-- a component that `path.Clean` keeps -/
def Good (c : Bytes) : Prop := c ≠ [] ∧ c ≠ b!"." ∧ c ≠ b!".." ∧ (47 : UInt8) ∉ c

instance (c : Bytes) : Decidable (Good c) := by unfold Good; infer_instance

theorem nameOk_good {n : Bytes} (h : NameOk n) : Good n := ⟨h.1, h.2.1, h.2.2.1, h.2.2.2.1⟩

/-- the rooted path with the given components -/
def absPath (cs : List Bytes) : Bytes := 47 :: join cs b!"/"

@[simp] theorem absPath_nil : absPath [] = b!"/" := rfl

theorem cleanStep_good_stack {stack : List Bytes} {c : Bytes} (hs : ∀ x ∈ stack, Good x)
    (hc : (47 : UInt8) ∉ c) : ∀ x ∈ cleanStep true stack c, Good x := by
  unfold cleanStep
  split
  · exact hs
  · split
    · split
      · simp
      · rename_i top rest
        split
        · rename_i h; exact absurd h (hs top (by simp)).2.2.1
        · intro x hx; exact hs x (List.mem_cons_of_mem _ hx)
    · rename_i h1 h2
      intro x hx
      rcases List.mem_cons.1 hx with rfl | hx
      · exact ⟨fun e => h1 (.inl e), fun e => h1 (.inr e), h2, hc⟩
      · exact hs x hx

theorem foldl_cleanStep_good {l stack : List Bytes} (hs : ∀ x ∈ stack, Good x)
    (hl : ∀ x ∈ l, (47 : UInt8) ∉ x) : ∀ x ∈ l.foldl (cleanStep true) stack, Good x := by
  induction l generalizing stack with
  | nil => exact hs
  | cons a l ih =>
    exact ih (cleanStep_good_stack hs (hl a (by simp))) (fun x hx => hl x (List.mem_cons_of_mem _ hx))

theorem cleanStep_good {stack : List Bytes} {c : Bytes} (h : Good c) (r : Bool) :
    cleanStep r stack c = c :: stack := by
  unfold cleanStep
  rw [if_neg (not_or.2 ⟨h.1, h.2.1⟩), if_neg h.2.2.1]

theorem foldl_cleanStep_of_good {l stack : List Bytes} (h : ∀ x ∈ l, Good x) (r : Bool) :
    l.foldl (cleanStep r) stack = l.reverse ++ stack := by
  induction l generalizing stack with
  | nil => rfl
  | cons a l ih =>
    rw [List.foldl_cons, cleanStep_good (h a (by simp)), ih (fun x hx => h x (List.mem_cons_of_mem _ hx))]
    simp

theorem cleanComps_rooted (p : Bytes) (h : p.head? = some 47) :
    cleanComps p = ((splitByte p 47).foldl (cleanStep true) []).reverse := by
  unfold cleanComps; rw [h]; rfl

theorem cleanComps_good (p : Bytes) (h : p.head? = some 47) : ∀ x ∈ cleanComps p, Good x := by
  rw [cleanComps_rooted p h]
  intro x hx
  exact foldl_cleanStep_good (stack := []) (by simp) (splitByte_no_sep p 47) x (by simpa using hx)

theorem clean_rooted (p : Bytes) (h : p.head? = some 47) : clean p = absPath (cleanComps p) := by
  unfold clean; rw [if_pos h]; rfl

theorem splitByte_absPath {cs : List Bytes} (h : ∀ x ∈ cs, Good x) :
    splitByte (absPath cs) 47 = [] :: (if cs = [] then [[]] else cs) := by
  unfold absPath
  have := splitByte_append (x := []) (s := join cs b!"/") (c := 47) (by simp)
  rw [List.nil_append] at this
  rw [this]
  split
  · rename_i e; subst e; rfl
  · rename_i e; rw [splitByte_join e (fun x hx => (h x hx).2.2.2)]

theorem absPath_head (cs : List Bytes) : (absPath cs).head? = some 47 := rfl

theorem cleanComps_absPath {cs : List Bytes} (h : ∀ x ∈ cs, Good x) :
    cleanComps (absPath cs) = cs := by
  rw [cleanComps_rooted _ (absPath_head cs), splitByte_absPath h, List.foldl_cons]
  have e0 : cleanStep true [] [] = [] := rfl
  rw [e0]
  split
  · rename_i e; subst e; rfl
  · rw [foldl_cleanStep_of_good h]; simp

theorem clean_absPath {cs : List Bytes} (h : ∀ x ∈ cs, Good x) : clean (absPath cs) = absPath cs := by
  rw [clean_rooted _ (absPath_head cs), cleanComps_absPath h]

/-- A rooted clean path is the path of its components. -/
theorem clean_fixed {p : Bytes} (h : p.head? = some 47) (hc : clean p = p) :
    p = absPath (cleanComps p) := by rw [← clean_rooted p h, hc]

theorem absPath_inj {a b : List Bytes} (ha : ∀ x ∈ a, Good x) (hb : ∀ x ∈ b, Good x)
    (h : absPath a = absPath b) : a = b := by
  rw [← cleanComps_absPath ha, h, cleanComps_absPath hb]

theorem absPath_snoc (cs : List Bytes) (n : Bytes) (h : ∀ x ∈ cs, Good x) :
    absPath (cs ++ [n]) = childPath (absPath cs) n := by
  unfold childPath
  split
  · rename_i e
    have : cs = [] := absPath_inj h (by simp) e
    subst this; rfl
  · rename_i e
    have : cs ≠ [] := by rintro rfl; exact e rfl
    unfold absPath
    rw [join_append this (by simp)]
    simp [join]

theorem pathJoin_absPath {cs : List Bytes} (h : ∀ x ∈ cs, Good x) (n : Bytes) (hn : (47 : UInt8) ∉ n) :
    pathJoin (absPath cs) n =
      if n = [] ∨ n = b!"." then absPath cs
      else if n = b!".." then absPath cs.dropLast
      else absPath (cs ++ [n]) := by
  unfold pathJoin
  rw [if_neg (by simp [absPath]), if_neg (by simp [absPath])]
  by_cases h0 : n = []
  · subst h0; simp [clean_absPath h]
  · rw [if_neg h0]
    have hh : (absPath cs ++ b!"/" ++ n).head? = some 47 := rfl
    rw [clean_rooted _ hh]
    have hsplit : splitByte (absPath cs ++ b!"/" ++ n) 47 = splitByte (absPath cs) 47 ++ [n] := by
      have e : absPath cs ++ b!"/" ++ n = join (splitByte (absPath cs) 47 ++ [n]) [47] := by
        rw [join_append (splitByte_ne_nil _ _) (by simp), join_splitByte]; rfl
      rw [e, splitByte_join (by simp)]
      intro x hx
      rcases List.mem_append.1 hx with hx | hx
      · exact splitByte_no_sep _ _ x hx
      · rw [List.mem_singleton.1 hx]; exact hn
    rw [cleanComps_rooted _ hh, hsplit, List.foldl_append]
    have hf := cleanComps_absPath h
    rw [cleanComps_rooted _ (absPath_head cs)] at hf
    have hf' : (splitByte (absPath cs) 47).foldl (cleanStep true) [] = cs.reverse := by
      rw [← List.reverse_reverse (List.foldl _ _ _), hf]
    rw [hf']
    simp only [List.foldl_cons, List.foldl_nil]
    by_cases h1 : n = b!"."
    · subst h1; simp [cleanStep]
    · rw [if_neg (not_or.2 ⟨h0, h1⟩)]
      by_cases h2 : n = b!".."
      · subst h2
        rw [if_pos rfl]
        unfold cleanStep
        rw [if_neg (by decide), if_pos rfl]
        rcases List.eq_nil_or_concat cs with rfl | ⟨l, a, rfl⟩
        · rfl
        · simp only [List.concat_eq_append, List.reverse_append, List.reverse_cons, List.reverse_nil,
            List.nil_append, List.cons_append]
          rw [if_neg]
          · simp
          · have := (h a (by simp)).2.2.1
            exact this
      · rw [if_neg h2, cleanStep_good ⟨h0, h1, h2, hn⟩]
        simp

theorem pathJoin_good {cs : List Bytes} (h : ∀ x ∈ cs, Good x) {n : Bytes} (hn : Good n) :
    pathJoin (absPath cs) n = absPath (cs ++ [n]) := by
  rw [pathJoin_absPath h n hn.2.2.2, if_neg (not_or.2 ⟨hn.1, hn.2.1⟩), if_neg hn.2.2.1]

/-- Joining a clean rooted path with a name gives a clean rooted path. -/
theorem pathJoin_comps {cs : List Bytes} (h : ∀ x ∈ cs, Good x) (n : Bytes) (hn : (47 : UInt8) ∉ n) :
    ∃ ds, (∀ x ∈ ds, Good x) ∧ pathJoin (absPath cs) n = absPath ds ∧
      (∀ x ∈ ds, x ∈ cs ∨ x = n) := by
  rw [pathJoin_absPath h n hn]
  split
  · exact ⟨cs, h, rfl, fun x hx => .inl hx⟩
  · split
    · exact ⟨cs.dropLast, fun x hx => h x ((List.dropLast_sublist cs).subset hx), rfl,
        fun x hx => .inl ((List.dropLast_sublist cs).subset hx)⟩
    · rename_i h1 h2
      refine ⟨cs ++ [n], ?_, rfl, by simp [or_comm]⟩
      intro x hx
      rcases List.mem_append.1 hx with hx | hx
      · exact h x hx
      · rw [List.mem_singleton.1 hx]
        exact ⟨fun e => h1 (.inl e), fun e => h1 (.inr e), h2, hn⟩

theorem mem_join {l : List Bytes} {sep : Bytes} {c : UInt8} (h : c ∈ join l sep) :
    c ∈ sep ∨ ∃ x ∈ l, c ∈ x := by
  induction l with
  | nil => simp [join] at h
  | cons a l ih =>
    cases l with
    | nil => exact .inr ⟨a, by simp, h⟩
    | cons b l =>
      rw [join_cons (by simp)] at h
      rcases List.mem_append.1 h with h | h
      · rcases List.mem_append.1 h with h | h
        · exact .inr ⟨a, by simp, h⟩
        · exact .inl h
      · rcases ih h with h | ⟨x, hx, hc⟩
        · exact .inl h
        · exact .inr ⟨x, List.mem_cons_of_mem _ hx, hc⟩

theorem mem_absPath {cs : List Bytes} {c : UInt8} (h : c ∈ absPath cs) :
    c = 47 ∨ ∃ x ∈ cs, c ∈ x := by
  rcases List.mem_cons.1 h with h | h
  · exact .inl h
  · rcases mem_join h with h | h
    · exact .inl (by simpa using h)
    · exact .inr h

theorem rel_absPath {a b : List Bytes} (ha : ∀ x ∈ a, Good x) (hb : ∀ x ∈ b, Good x) :
    rel (absPath a) (absPath b) = .ok (relResult (stripCommon a b).1 (stripCommon a b).2) := by
  unfold rel
  rw [if_pos ⟨rfl, rfl⟩, cleanComps_absPath ha, cleanComps_absPath hb]

theorem stripCommon_append (a b c : List Bytes) :
    stripCommon (a ++ b) (a ++ c) = stripCommon b c := by
  induction a with
  | nil => rfl
  | cons x a ih => simp [stripCommon, ih]

end Verif.GoLib
