import Verif.Lemmas.NarReach

namespace Verif.Nar
open Verif.GoLib Verif.Spec Verif.Wire

/-! ### the order check on paths of a directory -/

theorem split_abs_le_rev {a b : List Bytes} (ha : ∀ x ∈ a, Good x) (hb : ∀ x ∈ b, Good x)
    (h : splitByte (absPath a) 47 ≤ splitByte (absPath b) 47) : a ≤ b := by
  by_cases hab : a ≤ b
  · exact hab
  · have hlt := List.not_le.1 hab
    have h2 := split_abs_le hb ha (List.le_of_lt hlt)
    have h3 := List.le_antisymm h h2
    have h4 : absPath a = absPath b := by
      rw [← join_splitByte (absPath a) 47, h3, join_splitByte]
    rw [absPath_inj ha hb h4]
    exact List.le_refl _

/-- what comes before the components below `cs` -/
def absPre (cs : List Bytes) : Bytes := if cs = [] then b!"/" else absPath cs ++ b!"/"

theorem absPath_append (cs ys : List Bytes) (hy : ys ≠ []) :
    absPath (cs ++ ys) = absPre cs ++ join ys b!"/" := by
  unfold absPre absPath
  by_cases hc : cs = []
  · subst hc; simp
  · rw [if_neg hc, join_append hc hy]; simp

theorem absPath_le_absPre (cs : List Bytes) : absPath cs ≤ absPre cs := by
  unfold absPre
  split
  · rename_i h; subst h; exact List.le_refl _
  · exact List.le_append_left

theorem lt_append_right_of_lt {a b : Bytes} (h : a < b) (z : Bytes) : a < b ++ z :=
  by
    rcases List.le_iff_lt_or_eq.1 (List.le_append_left : b ≤ b ++ z) with h' | h'
    · exact List.lt_trans h h'
    · rw [← h']; exact h

theorem lt_append_self (a : Bytes) (c : UInt8) (z : Bytes) : a < a ++ c :: z := by
  have := List.append_left_lt (l₁ := a) (l₂ := []) (l₃ := c :: z) (List.nil_lt_cons _ _)
  simpa using this

theorem ordered_child {cs x : List Bytes} {m : Bytes} (hx : ∀ c ∈ cs ++ x, Good c)
    (hm : ∀ c ∈ cs ++ [m], Good c)
    (h : pathIsLexicographicallyOrdered (absPath (cs ++ x)) (absPath (cs ++ [m])) = true) :
    cs ++ x ≤ cs ++ [m] := by
  rcases (ordered_iff _ _).1 h with h | h
  · cases x with
    | nil => simp only [List.append_nil]; exact List.le_append_left
    | cons n rest =>
      by_cases hle : (n :: rest : List Bytes) ≤ [m]
      · rcases List.le_iff_lt_or_eq.1 hle with h' | h'
        · exact List.le_of_lt (List.append_left_lt h')
        · rw [h']; exact List.le_refl _
      · exfalso
        rw [absPath_append _ _ (by simp), absPath_append _ _ (by simp)] at h
        have hlt := List.not_le.1 hle
        have key : join [m] b!"/" < join (n :: rest) b!"/" := by
          rw [List.cons_lt_cons_iff] at hlt
          show m < _
          rcases hlt with hlt | ⟨rfl, hlt⟩
          · cases rest with
            | nil => exact hlt
            | cons r rest =>
              rw [join_cons (by simp), List.append_assoc]
              exact lt_append_right_of_lt hlt _
          · cases rest with
            | nil => exact absurd hlt (List.lt_irrefl _)
            | cons r rest =>
              rw [join_cons (by simp), List.append_assoc]
              exact lt_append_self _ _ _
        have := List.append_left_lt (l₁ := absPre cs) key
        exact absurd h (List.not_le.2 this)
  · exact split_abs_le_rev hx hm h

theorem ordered_prefix {cs prev : List Bytes} (hp : ∀ c ∈ prev, Good c) (hpre : cs <+: prev)
    (h : pathIsLexicographicallyOrdered (absPath prev) (absPath cs) = true) : prev = cs := by
  obtain ⟨ys, rfl⟩ := hpre
  have hc : ∀ c ∈ cs, Good c := fun c h => hp c (List.mem_append_left _ h)
  cases ys with
  | nil => simp
  | cons y ys =>
    exfalso
    rcases (ordered_iff _ _).1 h with h | h
    · rw [absPath_append _ _ (by simp)] at h
      have hy : y ≠ [] := (hp y (by simp)).1
      have hj : ∃ c z, join (y :: ys) b!"/" = c :: z := by
        cases y with
        | nil => exact absurd rfl hy
        | cons c y =>
          cases ys with
          | nil => exact ⟨c, y, rfl⟩
          | cons b ys => exact ⟨c, y ++ b!"/" ++ join (b :: ys) b!"/", by rw [join_cons (by simp)]; rfl⟩
      obtain ⟨c, z, e⟩ := hj
      rw [e] at h
      have h1 : absPath cs < absPre cs ++ c :: z :=
        List.lt_of_le_of_lt (absPath_le_absPre cs) (lt_append_self _ _ _)
      exact absurd h (List.not_le.2 h1)
    · have := split_abs_le_rev hp hc h
      have h2 : cs < cs ++ y :: ys := by
        have := List.append_left_lt (l₁ := cs) (l₂ := []) (l₃ := y :: ys) (List.nil_lt_cons _ _)
        simpa using this
      exact absurd this (List.not_le.2 h2)

/-! ### headers that pass the order check come in component-wise order -/

/-- From the previous header's components on: every header that passes the order check has
components not below the previous one's, and so on; at a regular end `Post` holds of the last
components. -/
def Sorted {α : Type} (Post : List Bytes → Prop) (prev : List Bytes) :
    Step RState Header Bool α → Prop
  | .done r _ => ∀ a, r = .ok a → Post prev
  | .yield h _ k => pathIsLexicographicallyOrdered (absPath prev) h.path = true →
      ∃ c, (∀ x ∈ c, Good x) ∧ h.path = absPath c ∧ prev ≤ c ∧ ∀ s', Sorted Post c (k true s')

theorem Sorted.bind {α β : Type} {P Q : List Bytes → Prop} {prev : List Bytes}
    {st : Step RState Header Bool α} {f : α → RState → Step RState Header Bool β}
    (h : Sorted P prev st) (hf : ∀ a s p, P p → Sorted Q p (f a s)) : Sorted Q prev (st.bind f) := by
  induction st generalizing prev with
  | done r s =>
    rcases r with a | e | _
    · exact hf a s prev (h a rfl)
    · intro a ha; cases ha
    · intro a ha; cases ha
  | yield y s k ih =>
    intro ho
    obtain ⟨c, h1, h2, h3, h4⟩ := h ho
    exact ⟨c, h1, h2, h3, fun s' => ih true s' (h4 s')⟩

theorem Sorted.mono {α : Type} {P Q : List Bytes → Prop} {prev : List Bytes}
    {st : Step RState Header Bool α} (h : Sorted P prev st) (hq : ∀ p, P p → Q p) :
    Sorted Q prev st := by
  induction st generalizing prev with
  | done r s => exact fun a ha => hq _ (h a ha)
  | yield y s k ih =>
    intro ho
    obtain ⟨c, h1, h2, h3, h4⟩ := h ho
    exact ⟨c, h1, h2, h3, fun s' => ih true s' (h4 s')⟩

theorem sorted_rd {α β : Type} {Q : List Bytes → Prop} {prev : List Bytes} (m : M Stream α)
    (f : α → RCoro β) (s : RState) (hf : ∀ a s, (m s.stream).1 = .ok a ∨ True → Sorted Q prev ((f a).run s)) :
    Sorted Q prev ((rd m >>= f).run s) :=
  Sorted.bind (P := fun p => p = prev) (st := (rd m).run s) (fun _ _ => rfl)
    (fun a s p hp => by rw [hp]; exact hf a s (.inr trivial))

theorem sorted_done {α : Type} {Q : List Bytes → Prop} {prev : List Bytes} (r : Res α) (s : RState)
    (h : Q prev) : Sorted Q prev (.done r s : Step RState Header Bool α) := fun _ _ => h

theorem sorted_close {Q : List Bytes → Prop} {prev : List Bytes} (tok : Bytes) (s : RState)
    (h : Q prev) : Sorted Q prev ((expectClose tok).run s) := by
  unfold expectClose
  split <;> exact sorted_done _ _ h

theorem sorted_parseContents {cs prev : List Bytes} (hcs : ∀ c ∈ cs, Good c)
    (hp : ∀ c ∈ prev, Good c)
    (hle : pathIsLexicographicallyOrdered (absPath prev) (absPath cs) = true → prev ≤ cs)
    (ex : Bool) (tok : Bytes) (s : RState) :
    Sorted (fun p => (∀ c ∈ p, Good c) ∧ (p = prev ∨
        (pathIsLexicographicallyOrdered (absPath prev) (absPath cs) = true ∧ cs <+: p)))
      prev ((parseContents (absPath cs) ex tok).run s) := by
  unfold parseContents
  split
  · exact sorted_done _ _ ⟨hp, .inl rfl⟩
  · refine sorted_rd _ _ _ ?_
    intro n s1 _
    split
    · exact sorted_done _ _ ⟨hp, .inl rfl⟩
    · intro ho
      refine ⟨cs, hcs, rfl, hle ho, ?_⟩
      intro s'
      refine Sorted.bind (P := fun p => p = cs) (st := closeContent.run s') (fun _ _ => rfl) ?_
      intro _ s2 p hp2
      subst hp2
      refine sorted_rd _ _ _ ?_
      intro tok s3 _
      exact sorted_close _ _ ⟨hcs, .inr ⟨ho, List.prefix_rfl⟩⟩

theorem sorted_parse (fuel : Nat) :
    (∀ (cs prev : List Bytes) (s : RState), (∀ c ∈ cs, Good c) → (∀ c ∈ prev, Good c) →
      (pathIsLexicographicallyOrdered (absPath prev) (absPath cs) = true → prev ≤ cs) →
      Sorted (fun p => (∀ c ∈ p, Good c) ∧ (p = prev ∨
        (pathIsLexicographicallyOrdered (absPath prev) (absPath cs) = true ∧ cs <+: p)))
        prev ((parseNode fuel (absPath cs)).run s)) ∧
    (∀ (cs prev : List Bytes) (s : RState), (∀ c ∈ prev, Good c) → cs <+: prev →
      Sorted (fun p => (∀ c ∈ p, Good c) ∧ cs <+: p) prev ((parseEntries fuel (absPath cs)).run s)) := by
  induction fuel with
  | zero =>
    refine ⟨fun cs prev s _ hp _ => sorted_done _ _ ⟨hp, .inl rfl⟩,
      fun cs prev s hp hpre => sorted_done _ _ ⟨hp, hpre⟩⟩
  | succ fuel ih =>
    constructor
    · intro cs prev s hcs hp hle
      unfold parseNode
      refine sorted_rd _ _ _ (fun _ s _ => ?_)
      refine sorted_rd _ _ _ (fun _ s _ => ?_)
      refine sorted_rd _ _ _ (fun tok s _ => ?_)
      split
      · unfold parseRegular
        refine sorted_rd _ _ _ (fun tok s _ => ?_)
        split
        · refine sorted_rd _ _ _ (fun _ s _ => ?_)
          refine sorted_rd _ _ _ (fun _ s _ => ?_)
          exact sorted_parseContents hcs hp hle _ _ _
        · exact sorted_parseContents hcs hp hle _ _ _
      · split
        · unfold parseSymlink
          refine sorted_rd _ _ _ (fun _ s _ => ?_)
          refine sorted_rd _ _ _ (fun _ s _ => ?_)
          intro ho
          refine ⟨cs, hcs, rfl, hle ho, fun s' => ?_⟩
          refine sorted_rd _ _ _ (fun _ s _ => ?_)
          exact sorted_close _ _ ⟨hcs, .inr ⟨ho, List.prefix_rfl⟩⟩
        · split
          · intro ho
            refine ⟨cs, hcs, rfl, hle ho, fun s' => ?_⟩
            exact (ih.2 cs cs s' hcs List.prefix_rfl).mono (fun p hp => ⟨hp.1, .inr ⟨ho, hp.2⟩⟩)
          · exact sorted_close _ _ ⟨hp, .inl rfl⟩
    · intro cs prev s hp hpre
      have hcs : ∀ c ∈ cs, Good c := fun c hc => hp c (hpre.mem hc)
      unfold parseEntries
      refine sorted_rd _ _ _ (fun tok s _ => ?_)
      split
      · refine sorted_rd _ _ _ (fun _ s _ => ?_)
        refine sorted_rd _ _ _ (fun _ s _ => ?_)
        refine sorted_rd _ _ _ (fun name s _ => ?_)
        split
        · exact sorted_done _ _ ⟨hp, hpre⟩
        · rename_i hv
          have hv : isValidNodeName name = true := by simpa using hv
          have hslash := ((isValidNodeName_iff name).1 hv).1
          refine sorted_rd _ _ _ (fun _ s _ => ?_)
          -- the node of the entry
          have node : Sorted (fun p => (∀ c ∈ p, Good c) ∧ cs <+: p) prev
              ((parseNode fuel (pathJoin (absPath cs) name)).run s) := by
            rw [pathJoin_absPath hcs name hslash]
            split
            · refine (ih.1 cs prev s hcs hp ?_).mono ?_
              · intro ho; rw [ordered_prefix hp hpre ho]; exact List.le_refl _
              · rintro p ⟨h1, rfl | ⟨_, h2⟩⟩
                · exact ⟨h1, hpre⟩
                · exact ⟨h1, h2⟩
            · split
              · have hd : ∀ c ∈ cs.dropLast, Good c := fun c hc => hcs c ((List.dropLast_prefix cs).mem hc)
                have hpd : cs.dropLast <+: prev := (List.dropLast_prefix cs).trans hpre
                refine (ih.1 cs.dropLast prev s hd hp ?_).mono ?_
                · intro ho; rw [ordered_prefix hp hpd ho]; exact List.le_refl _
                · rintro p ⟨h1, rfl | ⟨ho, h2⟩⟩
                  · exact ⟨h1, hpre⟩
                  · have e := ordered_prefix hp hpd ho
                    refine ⟨h1, ?_⟩
                    rw [← e] at h2
                    exact hpre.trans h2
              · rename_i h1 h2
                have hn : Good name := ⟨fun e => h1 (.inl e), fun e => h1 (.inr e), h2, hslash⟩
                have hg := good_snoc hcs hn
                obtain ⟨x, rfl⟩ := hpre
                refine (ih.1 (cs ++ [name]) (cs ++ x) s hg hp (fun ho => ordered_child hp hg ho)).mono ?_
                rintro p ⟨h1, rfl | ⟨_, h2⟩⟩
                · exact ⟨h1, List.prefix_append _ _⟩
                · exact ⟨h1, (List.prefix_append _ _).trans h2⟩
          refine Sorted.bind node ?_
          rintro _ s p ⟨hp1, hp2⟩
          refine sorted_rd _ _ _ (fun _ s _ => ?_)
          split
          · exact sorted_done _ _ ⟨hp1, hp2⟩
          · exact ih.2 cs p s hp1 hp2
      · split
        · exact sorted_done _ _ ⟨hp, hpre⟩
        · exact ih.2 cs prev s hp hpre

end Verif.Nar
