import Verif.Spec.DrvGrammar
import Verif.Lemmas.DrvRead

/-! # The loop of `arrayEach` splits as the grammar says -/

namespace Verif.Derivation
open Verif.GoLib

/-- The scanner runs over a piece without cutting. -/
theorem piece_skip {n m : Int} {x : Bytes} (h : Piece n m x) : ∀ (cur rest : Bytes), rest ≠ [] →
    itemLoop n false false cur (x ++ rest) = itemLoop m false false (cur ++ x) rest := by
  induction h with
  | nil n => intro cur rest _; simp
  | @str n m s x hs _ ih =>
    intro cur rest hr
    have e : quoted s ++ x ++ rest = 34 :: (s ++ 34 :: (x ++ rest)) := by simp [quoted]
    rw [e, itemLoop]
    simp only [Bool.false_eq_true, if_false, Bool.not_false]
    rw [if_neg (by decide), if_pos trivial, itemLoop_string hs, ih _ _ hr]
    simp [quoted]
  | @esc n m x c _ ih =>
    intro cur rest hr
    rw [List.cons_append, List.cons_append, itemLoop]
    simp only [Bool.false_eq_true, if_false, if_true]
    rw [itemLoop]
    simp only [if_true]
    rw [ih _ _ hr]; simp
  | @opening n m x c hc _ ih =>
    intro cur rest hr
    have hne : x ++ rest ≠ [] := by simp [hr]
    rw [List.cons_append, itemLoop]
    have o1 : c ≠ 92 ∧ c ≠ 34 ∧ c ≠ 44 ∧ depthAfter n c = n + 1 := by
      rcases hc with rfl | rfl <;> exact ⟨by decide, by decide, by decide, rfl⟩
    simp only [Bool.false_eq_true, if_false, o1.1, o1.2.1]
    rw [if_neg (by
      rintro (⟨_, h1⟩ | h1)
      · exact o1.2.2.1 h1
      · exact hne h1), o1.2.2.2, ih _ _ hr]
    simp
  | @closing n m x c hc _ ih =>
    intro cur rest hr
    have hne : x ++ rest ≠ [] := by simp [hr]
    rw [List.cons_append, itemLoop]
    have o1 : c ≠ 92 ∧ c ≠ 34 ∧ c ≠ 44 ∧ depthAfter n c = n - 1 := by
      rcases hc with rfl | rfl <;> exact ⟨by decide, by decide, by decide, rfl⟩
    simp only [Bool.false_eq_true, if_false, o1.1, o1.2.1]
    rw [if_neg (by
      rintro (⟨_, h1⟩ | h1)
      · exact o1.2.2.1 h1
      · exact hne h1), o1.2.2.2, ih _ _ hr]
    simp
  | @plain n m x c hc h44 _ ih =>
    intro cur rest hr
    have hne : x ++ rest ≠ [] := by simp [hr]
    simp only [List.mem_cons, List.not_mem_nil, or_false, not_or] at hc
    obtain ⟨c1, c2, c3, c4, c5, c6⟩ := hc
    have hd : depthAfter n c = n := by simp [depthAfter, c3, c4, c5, c6]
    rw [List.cons_append, itemLoop]
    simp only [Bool.false_eq_true, if_false, c1, c2]
    rw [if_neg (by
      rintro (⟨h0, h1⟩ | h1)
      · exact h44 h1 h0
      · exact hne h1), hd, ih _ _ hr]
    simp

/-- In a string that is not closed, nothing is cut. -/
theorem itemLoop_open {s : Bytes} (h : Closed s) : ∀ (n : Int) (cur rest : Bytes),
    itemLoop n false true cur (s ++ rest) = itemLoop n false true (cur ++ s) rest := by
  induction h with
  | nil => intro n cur rest; simp
  | plain c s h1 h2 _ ih =>
    intro n cur rest
    rw [List.cons_append, itemLoop]
    simp only [h1, h2, if_false, if_true, Bool.false_eq_true]
    rw [ih]; simp
  | esc c s _ ih =>
    intro n cur rest
    rw [List.cons_append, List.cons_append, itemLoop]
    simp only [Bool.false_eq_true, if_false, if_true]
    rw [itemLoop]
    simp only [if_true]
    rw [ih]; simp

theorem itemLoop_unclosed {tail : Bytes} (h : Unclosed tail) {c : UInt8} (h34 : c ≠ 34) (h92 : c ≠ 92) (n : Int) (cur : Bytes) :
    itemLoop n false false cur (tail ++ [c]) = [] := by
  cases h with
  | @str s hs =>
    rw [List.cons_append, itemLoop]
    simp only [Bool.false_eq_true, if_false, Bool.not_false]
    rw [if_neg (by decide), if_pos trivial, itemLoop_open hs, itemLoop]
    simp [h34, h92, itemLoop]
  | @strEsc s hs =>
    have e : 34 :: s ++ [92] ++ [c] = 34 :: (s ++ [92, c]) := by simp
    rw [e, itemLoop]
    simp only [Bool.false_eq_true, if_false, Bool.not_false]
    rw [if_neg (by decide), if_pos trivial, itemLoop_open hs, itemLoop]
    simp [itemLoop]
  | esc => simp [itemLoop]

/-- Where a string ends. -/
theorem string_split (cs : Bytes) : ∃ s, Closed s ∧ (cs = s ∨ cs = s ++ [92] ∨ ∃ rest, cs = s ++ 34 :: rest) := by
  match cs with
  | [] => exact ⟨[], .nil, .inl rfl⟩
  | [c] =>
    by_cases h1 : c = 34
    · subst h1; exact ⟨[], .nil, .inr (.inr ⟨[], rfl⟩)⟩
    by_cases h2 : c = 92
    · subst h2; exact ⟨[], .nil, .inr (.inl rfl)⟩
    exact ⟨[c], .plain c [] h1 h2 .nil, .inl rfl⟩
  | c :: e :: cs =>
    by_cases h1 : c = 34
    · subst h1; exact ⟨[], .nil, .inr (.inr ⟨e :: cs, rfl⟩)⟩
    by_cases h2 : c = 92
    · subst h2
      obtain ⟨s, hs, h⟩ := string_split cs
      refine ⟨92 :: e :: s, .esc e s hs, ?_⟩
      rcases h with rfl | rfl | ⟨r, rfl⟩
      · exact .inl rfl
      · exact .inr (.inl rfl)
      · exact .inr (.inr ⟨r, rfl⟩)
    · obtain ⟨s, hs, h⟩ := string_split (e :: cs)
      refine ⟨c :: s, .plain c s h1 h2 hs, ?_⟩
      rcases h with h | h | ⟨r, h⟩
      · rw [h]; exact .inl rfl
      · rw [h]; exact .inr (.inl rfl)
      · rw [h]; exact .inr (.inr ⟨r, rfl⟩)

theorem closed_snoc {s : Bytes} {c : UInt8} (h : Closed (s ++ [c])) : Closed s ∨ ∃ s', s = s' ++ [92] ∧ Closed s' := by
  generalize hq : s ++ [c] = q at h
  induction h generalizing s with
  | nil => simp at hq
  | plain a t h1 h2 ht ih =>
    cases s with
    | nil => exact .inl .nil
    | cons b s =>
      rw [List.cons_append] at hq
      cases hq
      rcases ih rfl with h | ⟨s', rfl, h⟩
      · exact .inl (.plain _ _ h1 h2 h)
      · exact .inr ⟨_ :: s', rfl, .plain _ _ h1 h2 h⟩
  | esc a t ht ih =>
    cases s with
    | nil => simp at hq
    | cons b s =>
      rw [List.cons_append] at hq
      cases s with
      | nil =>
        simp at hq
        obtain ⟨rfl, rfl, _⟩ := hq
        exact .inr ⟨[], rfl, .nil⟩
      | cons b' s =>
        rw [List.cons_append] at hq
        cases hq
        rcases ih rfl with h | ⟨s', rfl, h⟩
        · exact .inl (.esc _ _ h)
        · exact .inr ⟨92 :: _ :: s', rfl, .esc _ _ h⟩

/-- What the scanner finds first. -/
inductive First (n : Int) (cs : Bytes) (c : UInt8) (cur : Bytes) : List Bytes → Prop
  | last {x : Bytes} {m : Int} : Piece n m x → cs = x ++ [c] → First n cs c cur [cur ++ x]
  | comma {x cs' : Bytes} : Piece n 1 x → cs = x ++ 44 :: (cs' ++ [c]) → First n cs c cur ((cur ++ x) :: itemLoop 1 false false [] (cs' ++ [c]))
  | dropped {x tail : Bytes} {m : Int} : Piece n m x → Unclosed tail → cs = x ++ tail ++ [c] → First n cs c cur []

theorem first_extend {n n' : Int} {y cs : Bytes} {c : UInt8} {cur : Bytes} {l : List Bytes} (hp : ∀ {m x}, Piece n' m x → Piece n m (y ++ x))
    (h : First n' cs c (cur ++ y) l) : First n (y ++ cs) c cur l := by
  cases h with
  | last h1 h2 => subst h2; rw [List.append_assoc]; exact .last (hp h1) (by simp)
  | comma h1 h2 => subst h2; rw [List.append_assoc]; exact .comma (hp h1) (by simp)
  | dropped h1 h2 h3 => subst h3; exact .dropped (hp h1) h2 (by simp)

theorem itemLoop_first {c : UInt8} (hc : c = 93 ∨ c = 41) (n : Int) (cs cur : Bytes) :
    First n (cs ++ [c]) c cur (itemLoop n false false cur (cs ++ [c])) := by
  have c1 : c ≠ 92 ∧ c ≠ 34 ∧ c ≠ 44 := by rcases hc with rfl | rfl <;> exact ⟨by decide, by decide, by decide⟩
  match cs with
  | [] =>
    have e : itemLoop n false false cur ([] ++ [c]) = [cur ++ []] := by
      simp [itemLoop, c1.1, c1.2.1]
    rw [e]
    exact .last (.nil n) rfl
  | a :: cs =>
    by_cases h34 : a = 34
    · subst h34
      obtain ⟨s, hs, h⟩ := string_split (cs ++ [c])
      rcases h with h | h | ⟨rest, h⟩
      · -- the string is not closed
        have hu : Unclosed (34 :: cs) := by
          rcases closed_snoc (by rw [h]; exact hs) with h | ⟨s', rfl, h'⟩
          · exact .str h
          · exact .strEsc h'
        have e := itemLoop_unclosed hu c1.2.1 c1.1 n cur
        rw [e]
        exact .dropped (.nil n) hu rfl
      · have := (List.append_inj' h rfl).2
        simp at this
        exact absurd this c1.1
      · -- it is closed
        rcases List.eq_nil_or_concat rest with rfl | ⟨rest', b, rfl⟩
        · have := (List.append_inj' h rfl).2
          simp at this
          exact absurd this c1.2.1
        · have h' : cs ++ [c] = (s ++ 34 :: rest') ++ [b] := by rw [h]; simp
          obtain ⟨rfl, hb⟩ := List.append_inj' h' rfl
          cases hb
          have hlen : rest'.length < (34 :: (s ++ 34 :: rest')).length := by simp; omega
          have e1 : 34 :: (s ++ 34 :: rest') ++ [c] = quoted s ++ (rest' ++ [c]) := by simp [quoted]
          have e2 : itemLoop n false false cur (quoted s ++ (rest' ++ [c])) = itemLoop n false false (cur ++ quoted s) (rest' ++ [c]) := by
            have := piece_skip (.str hs (.nil n)) cur (rest' ++ [c]) (by simp)
            simpa using this
          rw [e1, e2]
          exact first_extend (fun h => .str hs h) (itemLoop_first hc n rest' (cur ++ quoted s))
    by_cases h92 : a = 92
    · subst h92
      match cs with
      | [] =>
        have e := itemLoop_unclosed .esc c1.2.1 c1.1 n cur
        rw [e]
        exact .dropped (.nil n) .esc rfl
      | b :: cs =>
        have e : itemLoop n false false cur (92 :: b :: cs ++ [c]) = itemLoop n false false (cur ++ [92, b]) (cs ++ [c]) := by
          have := piece_skip (.esc b (.nil n)) cur (cs ++ [c]) (by simp)
          simpa using this
        rw [e]
        exact first_extend (y := [92, b]) (fun h => .esc b h) (itemLoop_first hc n cs _)
    by_cases ho : a = 91 ∨ a = 40
    · have e : itemLoop n false false cur (a :: cs ++ [c]) = itemLoop (n + 1) false false (cur ++ [a]) (cs ++ [c]) := by
        have := piece_skip (.opening a ho (.nil (n + 1))) cur (cs ++ [c]) (by simp)
        simpa using this
      rw [e]
      exact first_extend (y := [a]) (fun h => .opening a ho h) (itemLoop_first hc (n + 1) cs _)
    by_cases hcl : a = 93 ∨ a = 41
    · have e : itemLoop n false false cur (a :: cs ++ [c]) = itemLoop (n - 1) false false (cur ++ [a]) (cs ++ [c]) := by
        have := piece_skip (.closing a hcl (.nil (n - 1))) cur (cs ++ [c]) (by simp)
        simpa using this
      rw [e]
      exact first_extend (y := [a]) (fun h => .closing a hcl h) (itemLoop_first hc (n - 1) cs _)
    have hn : a ∉ ([34, 92, 91, 40, 93, 41] : Bytes) := by
      simp only [not_or] at ho hcl
      simp [h34, h92, ho, hcl]
    by_cases h44 : a = 44 ∧ n = 1
    · obtain ⟨rfl, rfl⟩ := h44
      have e : itemLoop 1 false false cur (44 :: cs ++ [c]) = (cur ++ []) :: itemLoop 1 false false [] (cs ++ [c]) := by
        rw [List.cons_append, itemLoop]
        simp [depthAfter]
      rw [e]
      exact .comma (.nil 1) rfl
    · have hp : ∀ {m x}, Piece n m x → Piece n m ([a] ++ x) := fun h => .plain a hn (fun e1 e2 => h44 ⟨e1, e2⟩) h
      have e : itemLoop n false false cur (a :: cs ++ [c]) = itemLoop n false false (cur ++ [a]) (cs ++ [c]) := by
        have := piece_skip (hp (.nil n)) cur (cs ++ [c]) (by simp)
        simpa using this
      rw [e]
      exact first_extend (y := [a]) hp (itemLoop_first hc n cs _)
  termination_by cs.length

/-- The items of an array without its opening bracket. -/
theorem itemLoop_listing {c : UInt8} (hc : c = 93 ∨ c = 41) (cs : Bytes) :
    (∃ init last n, itemLoop 1 false false [] (cs ++ [c]) = init ++ [last] ∧ (∀ x ∈ init, Piece 1 1 x) ∧ Piece 1 n last ∧ cs = join (init ++ [last]) b!",") ∨
    (∃ p n tail, (∀ x ∈ itemLoop 1 false false [] (cs ++ [c]), Piece 1 1 x) ∧ Piece 1 n p ∧ Unclosed tail ∧
      cs = (itemLoop 1 false false [] (cs ++ [c])).flatMap (fun x => x ++ b!",") ++ p ++ tail) := by
  have hf := itemLoop_first hc 1 cs []
  generalize hl : itemLoop 1 false false [] (cs ++ [c]) = l at hf
  cases hf with
  | @last x m h1 h2 =>
    refine .inl ⟨[], x, m, rfl, (fun _ h => nomatch h), h1, ?_⟩
    exact (List.append_inj' h2 rfl).1
  | @dropped x tail m h1 h2 h3 =>
    refine .inr ⟨x, m, tail, (fun _ h => nomatch h), h1, h2, ?_⟩
    exact (List.append_inj' h3 rfl).1
  | @comma x cs' h1 h2 =>
    have e : cs = x ++ 44 :: cs' := by
      have : cs ++ [c] = (x ++ 44 :: cs') ++ [c] := by rw [h2]; simp
      exact (List.append_inj' this rfl).1
    have hlen : cs'.length < cs.length := by rw [e]; simp; omega
    rcases itemLoop_listing hc cs' with ⟨init, last, n, g1, g2, g3, g4⟩ | ⟨p, n, tail, g1, g2, g3, g4⟩
    · refine .inl ⟨x :: init, last, n, ?_, ?_, g3, ?_⟩
      · rw [g1]; rfl
      · intro y hy
        rcases List.mem_cons.1 hy with rfl | hy
        · exact h1
        · exact g2 y hy
      · rw [e]
        have : ∃ z zs, init ++ [last] = z :: zs := by cases init <;> exact ⟨_, _, rfl⟩
        obtain ⟨z, zs, hz⟩ := this
        rw [List.cons_append, hz, join, ← hz, ← g4]
        simp
    · refine .inr ⟨p, n, tail, ?_, g2, g3, ?_⟩
      · intro y hy
        rcases List.mem_cons.1 hy with rfl | hy
        · exact h1
        · exact g1 y hy
      · rw [e, List.flatMap_cons]
        refine Eq.trans (congrArg (fun z => x ++ 44 :: z) g4) ?_
        simp
  termination_by cs.length

theorem itemLoop_all {c : UInt8} (hc : c = 93 ∨ c = 41) {init : List Bytes} {last : Bytes} {n : Int} (hi : ∀ x ∈ init, Piece 1 1 x) (hl : Piece 1 n last) :
    itemLoop 1 false false [] (join (init ++ [last]) b!"," ++ [c]) = init ++ [last] := by
  have c1 : c ≠ 92 ∧ c ≠ 34 := by rcases hc with rfl | rfl <;> exact ⟨by decide, by decide⟩
  induction init with
  | nil =>
    show itemLoop 1 false false [] (last ++ [c]) = [last]
    rw [piece_skip hl [] [c] (by simp), itemLoop]
    simp [c1.1, c1.2, itemLoop]
  | cons x init ih =>
    have : ∃ z zs, init ++ [last] = z :: zs := by cases init <;> exact ⟨_, _, rfl⟩
    obtain ⟨z, zs, hz⟩ := this
    have e : join (x :: init ++ [last]) b!"," ++ [c] = x ++ (44 :: (join (init ++ [last]) b!"," ++ [c])) := by
      rw [List.cons_append, hz, join]; simp
    rw [e, piece_skip (hi x List.mem_cons_self) [] _ (by simp), itemLoop]
    simp only [Bool.false_eq_true, if_false]
    rw [if_neg (by decide), if_neg (by decide), if_pos (.inl ⟨trivial, trivial⟩)]
    have hd : depthAfter 1 44 = 1 := rfl
    rw [hd, ih fun y hy => hi y (List.mem_cons_of_mem _ hy)]
    rfl

theorem itemLoop_dropped {c : UInt8} (hc : c = 93 ∨ c = 41) {items : List Bytes} {p tail : Bytes} {n : Int} (hi : ∀ x ∈ items, Piece 1 1 x) (hp : Piece 1 n p)
    (ht : Unclosed tail) : itemLoop 1 false false [] (items.flatMap (fun x => x ++ b!",") ++ p ++ tail ++ [c]) = items := by
  have c1 : c ≠ 92 ∧ c ≠ 34 := by rcases hc with rfl | rfl <;> exact ⟨by decide, by decide⟩
  induction items with
  | nil =>
    have e : List.flatMap (fun x => x ++ b!",") [] ++ p ++ tail ++ [c] = p ++ (tail ++ [c]) := by simp
    rw [e, piece_skip hp [] _ (by simp), itemLoop_unclosed ht c1.2 c1.1]
  | cons x items ih =>
    have e : List.flatMap (fun x => x ++ b!",") (x :: items) ++ p ++ tail ++ [c] = x ++ (44 :: (items.flatMap (fun x => x ++ b!",") ++ p ++ tail ++ [c])) := by
      simp
    rw [e, piece_skip (hi x List.mem_cons_self) [] _ (by simp), itemLoop]
    simp only [Bool.false_eq_true, if_false]
    rw [if_neg (by decide), if_neg (by decide), if_pos (.inl ⟨trivial, trivial⟩)]
    have hd : depthAfter 1 44 = 1 := rfl
    rw [hd, ih fun y hy => hi y (List.mem_cons_of_mem _ hy)]
    rfl

theorem arrayItems_brackets {o c : UInt8} (ho : Brackets o c) (m : Bytes) (hm : m ≠ []) :
    arrayItems ([o] ++ m ++ [c]) = .ok (itemLoop 1 false false [] (m ++ [c])) := by
  have hlen : ([o] ++ m ++ [c]).length = m.length + 2 := by simp
  have hpos : 0 < m.length := List.length_pos_iff.2 hm
  have hlast : ([o] ++ m ++ [c]).getLast? = some c := by rw [List.getLast?_append]; simp
  have hhead : ([o] ++ m ++ [c]).head? = some o := rfl
  have hdrop : ([o] ++ m ++ [c]).drop 1 = m ++ [c] := rfl
  unfold arrayItems
  rw [if_neg (by omega), if_neg (by omega), hhead, hlast, hdrop]
  rcases ho with ⟨rfl, rfl⟩ | ⟨rfl, rfl⟩ <;> simp

theorem brackets_closing {o c : UInt8} (h : Brackets o c) : c = 93 ∨ c = 41 := h.imp And.right And.right

theorem join_ne_nil {l : List Bytes} (h0 : l ≠ []) (h : l ≠ [[]]) : join l b!"," ≠ [] := by
  match l with
  | [] => exact absurd rfl h0
  | [a] => intro e; exact h (by rw [show a = [] from e])
  | a :: b :: l => simp [join]

/-- The items of an array are those of the grammar. -/
theorem arrayItems_iff (v : Bytes) (l : List Bytes) : arrayItems v = .ok l ↔ Listing l v := by
  constructor
  · intro h
    by_cases h2 : v.length = 2
    · match v, h2 with
      | [a, b], _ =>
        cases h
        exact .two a b
    · have hb : ∃ o c m, Brackets o c ∧ m ≠ [] ∧ v = [o] ++ m ++ [c] := by
        unfold arrayItems at h
        split at h
        · cases h
        rename_i h1
        cases v with
        | nil => simp at h1
        | cons o v =>
          rcases List.eq_nil_or_concat v with rfl | ⟨m, c, rfl⟩
          · simp at h1
          · have hm : m ≠ [] := by rintro rfl; simp at h2
            refine ⟨o, c, m, ?_, hm, by simp⟩
            have hlast : (o :: m.concat c).getLast? = some c := by rw [List.concat_eq_append, ← List.cons_append, List.getLast?_append]; simp
            rw [hlast] at h
            simp only [List.head?_cons, Option.some.injEq] at h
            split at h
            · rename_i ho
              split at h
              · cases h
              · rename_i hc
                exact .inr ⟨ho, by simpa using hc⟩
            split at h
            · rename_i ho
              split at h
              · cases h
              · rename_i hc
                exact .inl ⟨ho, by simpa using hc⟩
            · cases h
      obtain ⟨o, c, m, hb, hm, rfl⟩ := hb
      rw [arrayItems_brackets hb m hm] at h
      cases h
      rcases itemLoop_listing (brackets_closing hb) m with ⟨init, last, n, g1, g2, g3, g4⟩ | ⟨p, n, tail, g1, g2, g3, g4⟩
      · rw [g1]
        rw [g4] at hm ⊢
        refine .all hb g2 g3 ?_
        intro e
        rw [e] at hm
        exact hm rfl
      · generalize itemLoop 1 false false [] (m ++ [c]) = items at g1 g4
        rw [g4]
        have := Listing.dropped hb g1 g2 g3
        simpa using this
  · intro h
    cases h with
    | two a b => rfl
    | @all o c init last n hb h1 h2 h3 =>
      rw [arrayItems_brackets hb _ (join_ne_nil (by simp) h3), itemLoop_all (brackets_closing hb) h1 h2]
    | @dropped o c _ p tail n hb h1 h2 h3 =>
      have hne : l.flatMap (fun x => x ++ b!",") ++ p ++ tail ≠ [] := by
        cases h3 <;> simp
      have := arrayItems_brackets hb _ hne
      rw [itemLoop_dropped (brackets_closing hb) h1 h2 h3] at this
      simpa using this

end Verif.Derivation
