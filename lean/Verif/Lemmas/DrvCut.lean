import Verif.Lemmas.DrvGrammar

/-! # Beginnings of the text of an array -/

namespace Verif.Derivation
open Verif.GoLib

/-- What stands outside of strings (a backslash, but not what it escapes), and whether the text ends after a backslash or in a string. -/
def outside : Bool → Bool → Bytes → Bytes × Bool × Bool
  | e, s, [] => ([], e, s)
  | true, s, _ :: cs => outside false s cs
  | false, true, c :: cs => if c = 92 then outside true true cs else if c = 34 then outside false false cs else outside false true cs
  | false, false, c :: cs =>
    if c = 92 then let r := outside true false cs; (92 :: r.1, r.2)
    else if c = 34 then outside false true cs
    else let r := outside false false cs; (c :: r.1, r.2)

theorem outside_append (x y : Bytes) : ∀ e s, outside e s (x ++ y) =
    ((outside e s x).1 ++ (outside (outside e s x).2.1 (outside e s x).2.2 y).1, (outside (outside e s x).2.1 (outside e s x).2.2 y).2) := by
  induction x with
  | nil => intro e s; cases e <;> cases s <;> simp [outside]
  | cons c x ih =>
    intro e s
    cases e with
    | true => simp only [List.cons_append, outside]; exact ih _ _
    | false =>
      cases s with
      | true =>
        simp only [List.cons_append, outside]
        split
        · exact ih _ _
        split
        · exact ih _ _
        · exact ih _ _
      | false =>
        simp only [List.cons_append, outside]
        split
        · rw [ih]; rfl
        split
        · exact ih _ _
        · rw [ih]; rfl

theorem outside_closed {s : Bytes} (h : Closed s) (rest : Bytes) : outside false true (s ++ 34 :: rest) = outside false false rest := by
  induction h with
  | nil => simp [outside]
  | plain c s h1 h2 _ ih => rw [List.cons_append, outside, if_neg h2, if_neg h1, ih]
  | esc c s _ ih => rw [List.cons_append, List.cons_append, outside, if_pos rfl, outside, ih]

/-- Balanced, and without a closing square bracket or a backslash outside of strings. -/
def Clean (x : Bytes) : Prop := (outside false false x).2 = (false, false) ∧ (93 : UInt8) ∉ (outside false false x).1 ∧ (92 : UInt8) ∉ (outside false false x).1

theorem clean_nil : Clean [] := by simp [Clean, outside]

theorem Clean.append {x y : Bytes} (hx : Clean x) (hy : Clean y) : Clean (x ++ y) := by
  unfold Clean at *
  rw [outside_append, hx.1]
  simp only [List.mem_append, not_or]
  exact ⟨hy.1, ⟨hx.2.1, hy.2.1⟩, hx.2.2, hy.2.2⟩

theorem clean_quoted {s : Bytes} (h : Closed s) : Clean (quoted s) := by
  have e : outside false false (quoted s) = ([], false, false) := by
    have : quoted s = 34 :: (s ++ 34 :: []) := by simp [quoted]
    rw [this, outside, if_neg (by decide), if_pos rfl, outside_closed h]
    rfl
  unfold Clean
  rw [e]
  simp

theorem clean_join {l : List Bytes} (h : ∀ x ∈ l, Clean x) : Clean (join l b!",") := by
  induction l with
  | nil => exact clean_nil
  | cons a l ih =>
    cases l with
    | nil => exact h a (by simp)
    | cons b l =>
      have e : join (a :: b :: l) b!"," = a ++ (b!"," ++ join (b :: l) b!",") := by simp [join]
      rw [e]
      exact (h a (by simp)).append (Clean.append (by unfold Clean; decide) (ih fun x hx => h x (by simp [hx])))

theorem clean_tuple {l : List Bytes} (h : ∀ x ∈ l, Clean x) : Clean (tuple l) :=
  ((show Clean b!"(" by unfold Clean; decide).append (clean_join h)).append (by unfold Clean; decide)

/-- A piece ends outside of strings. -/
theorem piece_outside {n m : Int} {x : Bytes} (h : Piece n m x) : (outside false false x).2 = (false, false) := by
  induction h with
  | nil n => rfl
  | @str n m s x hs _ ih =>
    have e : quoted s ++ x = 34 :: (s ++ 34 :: x) := by simp [quoted]
    rw [e, outside, if_neg (by decide), if_pos rfl, outside_closed hs, ih]
  | @esc n m x c _ ih =>
    rw [outside, if_pos rfl, outside]
    exact ih
  | @opening n m x c hc _ ih =>
    rw [outside, if_neg (by rcases hc with rfl | rfl <;> decide), if_neg (by rcases hc with rfl | rfl <;> decide)]
    exact ih
  | @closing n m x c hc _ ih =>
    rw [outside, if_neg (by rcases hc with rfl | rfl <;> decide), if_neg (by rcases hc with rfl | rfl <;> decide)]
    exact ih
  | @plain n m x c hc _ _ ih =>
    simp only [List.mem_cons, List.not_mem_nil, or_false, not_or] at hc
    rw [outside, if_neg hc.2.1, if_neg hc.1]
    exact ih

/-- No beginning of a clean text is a piece that ends with a closing square bracket. -/
theorem clean_cut {x w rest : Bytes} {n m : Int} (hx : Clean x) (hp : Piece n m (w ++ [93])) (e : x = w ++ [93] ++ rest) : False := by
  have h1 := piece_outside hp
  rw [outside_append] at h1
  have hw : (93 : UInt8) ∉ (outside false false (w ++ [93])).1 := by
    intro h
    refine hx.2.1 ?_
    rw [e, outside_append]
    exact List.mem_append_left _ h
  have hb : (92 : UInt8) ∉ (outside false false w).1 := by
    intro h
    refine hx.2.2 ?_
    rw [e, List.append_assoc, outside_append]
    exact List.mem_append_left _ h
  rw [outside_append] at hw
  rcases hs : outside false false w with ⟨k, a, b⟩
  rw [hs] at h1 hw hb
  cases b with
  | true => cases a <;> simp [outside] at h1
  | false =>
    cases a with
    | false => simp [outside] at hw
    | true =>
      -- the text before ends with a backslash outside of strings
      have key : ∀ (w : Bytes) (e0 s0 : Bool), (outside e0 s0 w).2 = (true, false) → (92 : UInt8) ∈ (outside e0 s0 w).1 ∨ (w = [] ∧ e0 = true) := by
        intro w
        induction w with
        | nil => intro e0 s0 h; simp [outside] at h; exact .inr ⟨rfl, h.1⟩
        | cons c w ih =>
          intro e0 s0 h
          cases e0 with
          | true =>
            simp only [outside] at h ⊢
            rcases ih _ _ h with h | h
            · exact .inl h
            · cases h.2
          | false =>
            cases s0 with
            | true =>
              simp only [outside] at h ⊢
              split at h
              · rename_i hc
                rw [if_pos hc]
                rcases ih _ _ h with h' | ⟨rfl, _⟩
                · exact .inl h'
                · simp [outside] at h
              split at h
              · rename_i hc hq
                rw [if_neg hc, if_pos hq]
                rcases ih _ _ h with h' | h'
                · exact .inl h'
                · cases h'.2
              · rename_i hc hq
                rw [if_neg hc, if_neg hq]
                rcases ih _ _ h with h' | h'
                · exact .inl h'
                · cases h'.2
            | false =>
              simp only [outside] at h ⊢
              split at h
              · rename_i hc; rw [if_pos hc]; exact .inl (by simp)
              split at h
              · rename_i hc hq
                rw [if_neg hc, if_pos hq]
                rcases ih _ _ h with h' | h'
                · exact .inl h'
                · cases h'.2
              · rename_i hc hq
                rw [if_neg hc, if_neg hq]
                rcases ih _ _ h with h' | h'
                · exact .inl (List.mem_cons_of_mem _ h')
                · cases h'.2
      have hk := key w false false (by rw [hs])
      rw [hs] at hk
      rcases hk with h | h
      · exact hb h
      · cases h.2

/-- The loop cuts off items one after the other. -/
theorem itemLoop_init {items : List Bytes} (hi : ∀ x ∈ items, Piece 1 1 x) (rest : Bytes) (hr : rest ≠ []) :
    itemLoop 1 false false [] (items.flatMap (fun x => x ++ b!",") ++ rest) = items ++ itemLoop 1 false false [] rest := by
  induction items with
  | nil => rfl
  | cons x items ih =>
    have e : List.flatMap (fun x => x ++ b!",") (x :: items) ++ rest = x ++ (44 :: (items.flatMap (fun x => x ++ b!",") ++ rest)) := by simp
    rw [e, piece_skip (hi x List.mem_cons_self) [] _ (by simp), itemLoop]
    simp only [Bool.false_eq_true, if_false]
    rw [if_neg (by decide), if_neg (by decide), if_pos (.inl ⟨trivial, trivial⟩)]
    have hd : depthAfter 1 44 = 1 := rfl
    rw [hd, ih fun y hy => hi y (List.mem_cons_of_mem _ hy)]
    rfl

theorem join_snoc (init : List Bytes) (last : Bytes) : join (init ++ [last]) b!"," = init.flatMap (fun x => x ++ b!",") ++ last := by
  induction init with
  | nil => rfl
  | cons x init ih =>
    have : ∃ z zs, init ++ [last] = z :: zs := by cases init <;> exact ⟨_, _, rfl⟩
    obtain ⟨z, zs, hz⟩ := this
    rw [List.cons_append, hz, join, ← hz, ih]
    simp

/-- What a strict beginning of an array is split into: at most as many items as the array has; if as many, then all but the last are those of
the array, and the last is a strict beginning of its last one. -/
theorem listing_cut {o c : UInt8} (hc : c = 93 ∨ c = 41) {init : List Bytes} {last : Bytes} (h : ∀ x ∈ init ++ [last], Skip x) {items : List Bytes} {v : Bytes}
    (hl : Listing items v) (hlen : items.length = init.length + 1) {suf : Bytes} (hs : suf ≠ [])
    (e : [o] ++ join (init ++ [last]) b!"," ++ [c] = v ++ suf) :
    ∃ last' rest n, items = init ++ [last'] ∧ last = last' ++ rest ∧ Piece 1 n last' ∧ rest ≠ [] := by
  have hall := itemLoop_items hc (l := init ++ [last]) (by simp) h
  cases hl with
  | two a b => simp at hlen
  | @dropped o' c' _ p tail n hb h1 h2 h3 =>
    exfalso
    have e' : join (init ++ [last]) b!"," ++ [c] = items.flatMap (fun x => x ++ b!",") ++ (p ++ tail ++ [c'] ++ suf) := by
      have := congrArg (List.drop 1) e
      simpa using this
    rw [e', itemLoop_init h1 _ (by simp)] at hall
    have hl2 := congrArg List.length hall
    simp only [List.length_append, List.length_cons, List.length_nil] at hl2
    have h0 : itemLoop 1 false false [] (p ++ tail ++ [c'] ++ suf) = [] := List.eq_nil_of_length_eq_zero (by omega)
    rw [h0, List.append_nil] at hall
    subst hall
    rw [join_snoc] at e'
    have hl3 := congrArg List.length e'
    rw [List.flatMap_append] at hl3
    simp at hl3
  | @all o' c' init' last' n hb h1 h2 h3 =>
    have e' : join (init ++ [last]) b!"," ++ [c] = init'.flatMap (fun x => x ++ b!",") ++ (last' ++ [c'] ++ suf) := by
      have := congrArg (List.drop 1) e
      rw [join_snoc init' last'] at this
      simpa using this
    rw [e', itemLoop_init h1 _ (by simp)] at hall
    have hlen' : init'.length = init.length := by simpa using hlen
    obtain ⟨rfl, _⟩ := List.append_inj hall hlen'
    rw [join_snoc, List.append_assoc] at e'
    have e2 := List.append_cancel_left e'
    refine ⟨last', c' :: suf.dropLast, n, rfl, ?_, h2, by simp⟩
    have : suf = suf.dropLast ++ [suf.getLast hs] := (List.dropLast_concat_getLast hs).symm
    rw [this] at e2
    have e3 : last ++ [c] = (last' ++ c' :: suf.dropLast) ++ [suf.getLast hs] := by simpa using e2
    exact (List.append_inj' e3 rfl).1

end Verif.Derivation
