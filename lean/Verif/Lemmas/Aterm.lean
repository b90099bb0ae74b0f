import Verif.Spec.Derivation
import Verif.Lemmas.GoMap
import Verif.Lemmas.Path

/-! # Splitting ATerm text -/

namespace Verif.Derivation
open Verif.GoLib

/-- The scanner runs over `x` without cutting. -/
def Skip (x : Bytes) : Prop :=
  ∀ (n : Int) (cur rest : Bytes), 1 ≤ n → rest ≠ [] →
    itemLoop n false false cur (x ++ rest) = itemLoop n false false (cur ++ x) rest

theorem skip_nil : Skip [] := by intro n cur rest _ _; simp

theorem itemLoop_string {s : Bytes} (h : Closed s) : ∀ (n : Int) (cur rest : Bytes),
    itemLoop n false true cur (s ++ 34 :: rest) = itemLoop n false false (cur ++ s ++ [34]) rest := by
  induction h with
  | nil => intro n cur rest; simp [itemLoop]
  | plain c s h1 h2 _ ih =>
    intro n cur rest
    rw [List.cons_append, itemLoop]
    simp only [h1, h2, if_false, if_true, Bool.false_eq_true]
    rw [ih]; simp
  | esc c s _ ih =>
    intro n cur rest
    rw [List.cons_append, List.cons_append, itemLoop]
    simp only [Bool.false_eq_true, if_false, if_true]
    rw [itemLoop]
    simp only [if_true]
    rw [ih]; simp

theorem skip_quoted {s : Bytes} (h : Closed s) : Skip (quoted s) := by
  intro n cur rest _ _
  have e : quoted s ++ rest = 34 :: (s ++ 34 :: rest) := by simp [quoted]
  rw [e, itemLoop]
  simp only [Bool.false_eq_true, if_false, Bool.not_false]
  rw [if_neg (by decide), if_pos trivial, itemLoop_string h]
  simp [quoted]

theorem itemLoop_inner {l : List Bytes} (h : ∀ x ∈ l, Skip x) : ∀ (n : Int) (cur rest : Bytes), 2 ≤ n → rest ≠ [] →
    itemLoop n false false cur (join l b!"," ++ rest) = itemLoop n false false (cur ++ join l b!",") rest := by
  induction l with
  | nil => intro n cur rest _ _; simp [join]
  | cons a l ih =>
    intro n cur rest hn hr
    cases l with
    | nil => exact h a (by simp) n cur rest (by omega) hr
    | cons b l =>
      have e : join (a :: b :: l) b!"," = a ++ (44 :: join (b :: l) b!",") := by simp [join]
      rw [e, List.append_assoc, h a (by simp) n cur _ (by omega) (by simp), List.cons_append, itemLoop]
      simp only [Bool.false_eq_true, if_false]
      rw [if_neg (by decide), if_neg (by decide), if_neg (by
        rintro (⟨h1, _⟩ | h1)
        · omega
        · simp [hr] at h1)]
      have hd : depthAfter n 44 = n := rfl
      rw [hd, ih (fun x hx => h x (by simp [hx])) n _ rest hn hr]
      simp

theorem skip_enclosed {o c : UInt8} (ho : o = 91 ∨ o = 40) (hc : c = 93 ∨ c = 41) {l : List Bytes}
    (h : ∀ x ∈ l, Skip x) : Skip ([o] ++ join l b!"," ++ [c]) := by
  intro n cur rest hn hr
  have e : [o] ++ join l b!"," ++ [c] ++ rest = o :: (join l b!"," ++ (c :: rest)) := by simp
  rw [e, itemLoop]
  have o1 : o ≠ 92 ∧ o ≠ 34 ∧ o ≠ 44 ∧ depthAfter n o = n + 1 := by
    rcases ho with rfl | rfl <;> exact ⟨by decide, by decide, by decide, rfl⟩
  have c1 : c ≠ 92 ∧ c ≠ 34 ∧ c ≠ 44 ∧ depthAfter (n + 1) c = n := by
    rcases hc with rfl | rfl
    · exact ⟨by decide, by decide, by decide, by show n + 1 - 1 = n; omega⟩
    · exact ⟨by decide, by decide, by decide, by show n + 1 - 1 = n; omega⟩
  simp only [Bool.false_eq_true, if_false, o1.1, o1.2.1]
  rw [if_neg (by
    rintro (⟨_, h1⟩ | h1)
    · exact o1.2.2.1 h1
    · simp at h1), o1.2.2.2, itemLoop_inner h (n + 1) _ _ (by omega) (by simp), itemLoop]
  simp only [Bool.false_eq_true, if_false, c1.1, c1.2.1]
  rw [if_neg (by
    rintro (⟨_, h1⟩ | h1)
    · exact c1.2.2.1 h1
    · exact hr h1), c1.2.2.2]
  simp

theorem skip_bracketed {l : List Bytes} (h : ∀ x ∈ l, Skip x) : Skip (bracketed l) :=
  skip_enclosed (.inl rfl) (.inl rfl) h

theorem skip_tuple {l : List Bytes} (h : ∀ x ∈ l, Skip x) : Skip (tuple l) :=
  skip_enclosed (.inr rfl) (.inr rfl) h

theorem itemLoop_items {c : UInt8} (hc : c = 93 ∨ c = 41) {l : List Bytes} (hl : l ≠ []) (h : ∀ x ∈ l, Skip x) :
    itemLoop 1 false false [] (join l b!"," ++ [c]) = l := by
  have c1 : c ≠ 92 ∧ c ≠ 34 := by rcases hc with rfl | rfl <;> exact ⟨by decide, by decide⟩
  induction l with
  | nil => exact absurd rfl hl
  | cons a l ih =>
    cases l with
    | nil =>
      show itemLoop 1 false false [] (a ++ [c]) = [a]
      rw [h a (by simp) 1 [] [c] (by omega) (by simp), itemLoop]
      simp [c1.1, c1.2, itemLoop]
    | cons b l =>
      have e : join (a :: b :: l) b!"," = a ++ (44 :: join (b :: l) b!",") := by simp [join]
      rw [e, List.append_assoc, h a (by simp) 1 [] _ (by omega) (by simp), List.cons_append, itemLoop]
      simp only [Bool.false_eq_true, if_false]
      rw [if_neg (by decide), if_neg (by decide), if_pos (.inl ⟨trivial, trivial⟩)]
      have hd : depthAfter 1 44 = 1 := rfl
      rw [hd, ih (by simp) (fun x hx => h x (by simp [hx]))]
      simp

theorem arrayItems_enclosed {o c : UInt8} (ho : (o = 91 ∧ c = 93) ∨ (o = 40 ∧ c = 41)) {l : List Bytes}
    (h : ∀ x ∈ l, Skip x) (hne : ∀ x ∈ l, x ≠ []) : arrayItems ([o] ++ join l b!"," ++ [c]) = .ok l := by
  cases l with
  | nil => simp [join, arrayItems]
  | cons a l =>
    have hj : 0 < (join (a :: l) b!",").length := by
      have := hne a (by simp)
      have : 0 < a.length := List.length_pos_iff.2 this
      cases l with
      | nil => simpa [join] using this
      | cons b l => simp [join]; omega
    have hlen : ([o] ++ join (a :: l) b!"," ++ [c]).length = (join (a :: l) b!",").length + 2 := by simp
    have hlast : ([o] ++ join (a :: l) b!"," ++ [c]).getLast? = some c := by
      rw [List.getLast?_append]; simp
    have hhead : ([o] ++ join (a :: l) b!"," ++ [c]).head? = some o := rfl
    have hdrop : ([o] ++ join (a :: l) b!"," ++ [c]).drop 1 = join (a :: l) b!"," ++ [c] := rfl
    have hi := itemLoop_items (c := c) (by rcases ho with h | h; exact .inl h.2; exact .inr h.2)
      (l := a :: l) (by simp) h
    unfold arrayItems
    rw [if_neg (by omega), if_neg (by omega), hhead, hlast, hdrop, hi]
    rcases ho with ⟨rfl, rfl⟩ | ⟨rfl, rfl⟩ <;> simp

theorem arrayItems_bracketed {l : List Bytes} (h : ∀ x ∈ l, Skip x) (hne : ∀ x ∈ l, x ≠ []) :
    arrayItems (bracketed l) = .ok l := arrayItems_enclosed (.inl ⟨rfl, rfl⟩) h hne

theorem arrayItems_tuple {l : List Bytes} (h : ∀ x ∈ l, Skip x) (hne : ∀ x ∈ l, x ≠ []) :
    arrayItems (tuple l) = .ok l := arrayItems_enclosed (.inr ⟨rfl, rfl⟩) h hne

theorem quoted_ne_nil (s : Bytes) : quoted s ≠ [] := by simp [quoted]
theorem bracketed_ne_nil (s : List Bytes) : bracketed s ≠ [] := by simp [bracketed]
theorem tuple_ne_nil (s : List Bytes) : tuple s ≠ [] := by simp [tuple]

/-! ## Strings -/

theorem unquoteSlice_quoted (s : Bytes) : unquoteSlice (quoted s) = .ok s := by
  unfold unquoteSlice quoted
  rw [if_neg (by simp)]
  have : ([34] ++ s ++ [34] : Bytes).getLast? = some 34 := by rw [List.getLast?_append]; simp
  rw [this, if_neg (by simp)]
  simp

theorem unescape_plain {s : Bytes} (h : (92 : UInt8) ∉ s) : unescape s = s := by
  induction s with
  | nil => rfl
  | cons c s ih =>
    have hc : c ≠ 92 := fun e => h (by simp [e])
    have hs : (92 : UInt8) ∉ s := fun e => h (by simp [e])
    cases s with
    | nil => rfl
    | cons d s =>
      rw [unescape]
      simp only [hc, false_and, if_false]
      rw [ih hs]

theorem unquote_quoted (s : Bytes) : unquote (quoted s) = .ok (unescape s) := by
  unfold unquote
  rw [unquoteSlice_quoted, Res.bind_ok]
  split
  · rename_i h
    rw [unescape_plain]
    intro hm
    simp [quoted, hm] at h
  · rfl

theorem escapeByte_eq (c : UInt8) : escapeByte c = escapedChar c := by
  have key : ∀ n : Fin 256, escapeByte (UInt8.ofNat n) = escapedChar (UInt8.ofNat n) := by decide +kernel
  have := key ⟨c.toNat, c.toNat_lt⟩
  simpa using this

theorem escapeString_eq (s : Bytes) : escapeString s = quoted (escaped s) := by
  unfold escapeString quoted escaped
  congr 2
  rw [funext escapeByte_eq]

theorem unescape_escapedChar (c : UInt8) (rest : Bytes) :
    unescape (escapedChar c ++ rest) = c :: unescape rest := by
  unfold escapedChar
  by_cases h : c = 92 ∨ c = 10 ∨ c = 13 ∨ c = 9 ∨ c = 34
  · rcases h with rfl | rfl | rfl | rfl | rfl <;> simp [escapes, unescape]
  · simp only [not_or] at h
    have : escapes.find? (fun e => decide (e.1 = c)) = none := by
      simp [escapes, Ne.symm h.1, Ne.symm h.2.1, Ne.symm h.2.2.1, Ne.symm h.2.2.2.1, Ne.symm h.2.2.2.2]
    rw [this]
    cases rest with
    | nil => rfl
    | cons e rest =>
      show unescape (c :: e :: rest) = _
      rw [unescape]
      simp [h.1]

theorem unescape_escaped (s : Bytes) : unescape (escaped s) = s := by
  induction s with
  | nil => rfl
  | cons c s ih =>
    show unescape (escapedChar c ++ escaped s) = _
    rw [unescape_escapedChar, ih]

theorem closed_append_plain {c : UInt8} {s : Bytes} (h1 : c ≠ 34) (h2 : c ≠ 92) (h : Closed s) : Closed (c :: s) :=
  .plain c s h1 h2 h

theorem closed_escaped (s : Bytes) : Closed (escaped s) := by
  induction s with
  | nil => exact .nil
  | cons c s ih =>
    show Closed (escapedChar c ++ escaped s)
    unfold escapedChar
    by_cases h : c = 92 ∨ c = 10 ∨ c = 13 ∨ c = 9 ∨ c = 34
    · rcases h with rfl | rfl | rfl | rfl | rfl <;> exact .esc _ _ ih
    · simp only [not_or] at h
      have : escapes.find? (fun e => decide (e.1 = c)) = none := by
        simp [escapes, Ne.symm h.1, Ne.symm h.2.1, Ne.symm h.2.2.1, Ne.symm h.2.2.2.1, Ne.symm h.2.2.2.2]
      rw [this]
      exact .plain c _ h.2.2.2.2 h.1 ih

theorem escaped_plain {s : Bytes} (h : ∀ e ∈ escapes, e.1 ∉ s) : escaped s = s := by
  induction s with
  | nil => rfl
  | cons c s ih =>
    have hc : escapes.find? (fun e => decide (e.1 = c)) = none := by
      rw [List.find?_eq_none]
      intro e he hec
      exact h e he (by simp [of_decide_eq_true hec])
    show escapedChar c ++ escaped s = _
    unfold escapedChar
    rw [hc, ih (fun e he hm => h e he (by simp [hm]))]
    rfl

/-! ## Callbacks -/

theorem callEach_strings (l : List Bytes) : ∀ (acc : List Bytes) (i : Nat),
    callEach (fun acc v _ => do let u ← unquoteSlice v; .ok (acc ++ [u])) acc i (l.map quoted) = .ok (acc ++ l) := by
  induction l with
  | nil => intro acc i; simp [callEach]
  | cons a l ih =>
    intro acc i
    rw [List.map_cons, callEach, unquoteSlice_quoted]
    simp only [Res.bind_ok]
    rw [ih]; simp

theorem stringList_bracketed {l : List Bytes} (h : ∀ s ∈ l, Closed s) : stringList (bracketed (l.map quoted)) = .ok l := by
  unfold stringList arrayEach
  rw [arrayItems_bracketed (by
    intro x hx
    obtain ⟨s, hs, rfl⟩ := List.mem_map.1 hx
    exact skip_quoted (h s hs)) (by
    intro x hx
    obtain ⟨s, _, rfl⟩ := List.mem_map.1 hx
    exact quoted_ne_nil s)]
  exact callEach_strings l [] 0

theorem insert_append {α : Type} (m : GoMap α) (k : Bytes) (v : α) (h : k ∉ m.keys) : m.insert k v = m ++ [(k, v)] := by
  induction m with
  | nil => rfl
  | cons p m ih =>
    obtain ⟨a, x⟩ := p
    have h1 : a ≠ k := fun e => h (by simp [GoMap.keys, e])
    have h2 : k ∉ GoMap.keys m := fun e => h (by simp [GoMap.keys] at e ⊢; exact .inr e)
    rw [GoMap.insert, if_neg h1, ih h2]; rfl

/-- A list of keyed items, whose callback checks the order. -/
theorem callEach_keyed {α ι : Type} (f : GoMap α × Bytes → Bytes → Nat → Res (GoMap α × Bytes))
    (enc : ι → Bytes) (key : ι → Bytes) (val : ι → α) (e : Err) (l : List ι)
    (hf : ∀ it ∈ l, ∀ s i, f s (enc it) i = if strLe (key it) s.2 then .err e else .ok (s.1.insert (key it) (val it), key it)) :
    ∀ (m : GoMap α) (prev : Bytes) (i : Nat), (∀ k ∈ m.keys, k ≤ prev) → ∀ r,
      (callEach f (m, prev) i (l.map enc) = .ok r ↔
        (prev :: l.map key).Pairwise (· < ·) ∧ r = (m ++ l.map (fun it => (key it, val it)), (prev :: l.map key).getLast (by simp))) := by
  induction l with
  | nil =>
    intro m prev i _ r
    simp [callEach, eq_comm]
  | cons a l ih =>
    intro m prev i hm r
    rw [List.map_cons, callEach, hf a (by simp)]
    by_cases hle : key a ≤ prev
    · rw [if_pos ((strLe_iff _ _).2 hle)]
      simp only [Res.bind_err, reduceCtorEq, false_iff, not_and]
      intro hp
      exact absurd (List.pairwise_cons.1 hp).1 (fun hall => by
        have := hall (key a) (by simp)
        exact absurd hle (List.not_le.2 this))
    · have hlt : prev < key a := List.not_le.1 hle
      rw [if_neg (fun h => hle ((strLe_iff _ _).1 h)), Res.bind_ok]
      rw [ih (fun it h => hf it (by simp [h])) _ _ _ (by
        intro k hk
        rcases (GoMap.keys_insert_mem m (key a) k (val a)).1 hk with rfl | hk
        · exact List.le_refl _
        · exact List.le_of_lt (List.lt_of_le_of_lt (hm k hk) hlt)) r]
      have hnot : key a ∉ m.keys := fun hk => hle (hm _ hk)
      rw [insert_append m _ _ hnot]
      constructor
      · rintro ⟨h1, h2⟩
        refine ⟨?_, ?_⟩
        · rw [List.map_cons, List.pairwise_cons]
          refine ⟨?_, h1⟩
          intro x hx
          rcases List.mem_cons.1 hx with rfl | hx
          · exact hlt
          · exact List.lt_trans hlt ((List.pairwise_cons.1 h1).1 x hx)
        · rw [h2]; simp
      · rintro ⟨h1, h2⟩
        rw [List.map_cons, List.pairwise_cons] at h1
        refine ⟨h1.2, ?_⟩
        rw [h2]; simp

theorem callEach_keyed_ne_panic {α ι : Type} (f : GoMap α × Bytes → Bytes → Nat → Res (GoMap α × Bytes))
    (enc : ι → Bytes) (key : ι → Bytes) (val : ι → α) (e : Err) (l : List ι)
    (hf : ∀ it ∈ l, ∀ s i, f s (enc it) i = if strLe (key it) s.2 then .err e else .ok (s.1.insert (key it) (val it), key it)) :
    ∀ s i, callEach f s i (l.map enc) ≠ .panic := by
  induction l with
  | nil => intro s i; simp [callEach]
  | cons a l ih =>
    intro s i
    rw [List.map_cons, callEach, hf a (by simp)]
    split
    · simp
    · rw [Res.bind_ok]; exact ih (fun it h => hf it (by simp [h])) _ _

theorem outputItem_tuple {o : Bytes × Bytes × Bytes × Bytes}
    (h : Closed o.1 ∧ Closed o.2.1 ∧ Closed o.2.2.1 ∧ Closed o.2.2.2) (s : GoMap Output × Bytes) (i : Nat) :
    outputItem s (tuple [quoted o.1, quoted o.2.1, quoted o.2.2.1, quoted o.2.2.2]) i =
      if strLe o.1 s.2 then .err (.msg "invalid output order")
      else .ok (s.1.insert o.1 ⟨o.2.1, o.2.2.1, o.2.2.2⟩, o.1) := by
  unfold outputItem arrayEach
  rw [arrayItems_tuple (by
    intro x hx
    simp at hx
    rcases hx with rfl | rfl | rfl | rfl
    · exact skip_quoted h.1
    · exact skip_quoted h.2.1
    · exact skip_quoted h.2.2.1
    · exact skip_quoted h.2.2.2) (by
    intro x hx
    simp at hx
    rcases hx with rfl | rfl | rfl | rfl <;> exact quoted_ne_nil _)]
  simp only [Res.bind_ok, callEach, outputField, unquoteSlice_quoted, if_true]
  split
  · rfl
  · rename_i hlt
    have : o.1 ≠ [] := by
      intro e
      rw [e] at hlt
      exact hlt ((strLe_iff _ _).2 (List.nil_le _))
    simp [this]

theorem inputDrvItem_tuple {d : Bytes × List Bytes} (h : Closed d.1 ∧ ∀ s ∈ d.2, Closed s)
    (s : GoMap (List Bytes) × Bytes) (i : Nat) :
    inputDrvItem s (tuple [quoted d.1, bracketed (d.2.map quoted)]) i =
      if strLe d.1 s.2 then .err (.msg "invalid input derivation order")
      else .ok (s.1.insert d.1 d.2, d.1) := by
  unfold inputDrvItem arrayEach
  rw [arrayItems_tuple (by
    intro x hx
    simp at hx
    rcases hx with rfl | rfl
    · exact skip_quoted h.1
    · apply skip_bracketed
      intro x hx
      obtain ⟨s, hs, rfl⟩ := List.mem_map.1 hx
      exact skip_quoted (h.2 s hs)) (by
    intro x hx
    simp at hx
    rcases hx with rfl | rfl
    · exact quoted_ne_nil _
    · exact bracketed_ne_nil _)]
  simp only [Res.bind_ok, callEach, inputDrvField, unquoteSlice_quoted, if_true, stringList_bracketed h.2]
  split
  · rfl
  · simp

theorem envItem_tuple {e : Bytes × Bytes} (h : Closed e.1 ∧ Closed e.2) (s : GoMap Bytes × Bytes) (i : Nat) :
    envItem s (tuple [quoted e.1, quoted e.2]) i =
      if strLe e.1 s.2 then .err (.msg "invalid env var order")
      else .ok (s.1.insert e.1 (unescape e.2), e.1) := by
  unfold envItem arrayEach
  rw [arrayItems_tuple (by
    intro x hx
    simp at hx
    rcases hx with rfl | rfl
    · exact skip_quoted h.1
    · exact skip_quoted h.2) (by
    intro x hx
    simp at hx
    rcases hx with rfl | rfl <;> exact quoted_ne_nil _)]
  simp only [Res.bind_ok, callEach, envField, unquoteSlice_quoted, unquote_quoted, if_true]
  split
  · rfl
  · simp

/-! ## The whole text -/

/-- The contents of a file as a derivation (without the name from `__json`). -/
def DrvText.drv (t : DrvText) : Derivation :=
  ⟨[], t.outputs.map fun o => (o.1, ⟨o.2.1, o.2.2.1, o.2.2.2⟩), t.inputSrcs, t.inputDrvs, t.platform, t.builder, t.args,
    t.env.map fun e => (e.1, unescape e.2)⟩

theorem parse_text {t : DrvText} (h : t.Closed) (d : Derivation) :
    arrayEach (t.text.drop 6) emptyDrv drvField = .ok d ↔ t.Ordered ∧ d = t.drv := by
  have hdrop : t.text.drop 6 = tuple [
    bracketed (t.outputs.map fun o => tuple [quoted o.1, quoted o.2.1, quoted o.2.2.1, quoted o.2.2.2]),
    bracketed (t.inputDrvs.map fun i => tuple [quoted i.1, bracketed (i.2.map quoted)]),
    bracketed (t.inputSrcs.map quoted), quoted t.platform, quoted t.builder,
    bracketed (t.args.map quoted), bracketed (t.env.map fun e => tuple [quoted e.1, quoted e.2])] := rfl
  have ho : ∀ x ∈ t.outputs.map fun o => tuple [quoted o.1, quoted o.2.1, quoted o.2.2.1, quoted o.2.2.2], Skip x ∧ x ≠ [] := by
    intro x hx
    obtain ⟨o, ho, rfl⟩ := List.mem_map.1 hx
    have := h.outputs o ho
    refine ⟨skip_tuple ?_, tuple_ne_nil _⟩
    intro x hx
    simp at hx
    rcases hx with rfl | rfl | rfl | rfl
    · exact skip_quoted this.1
    · exact skip_quoted this.2.1
    · exact skip_quoted this.2.2.1
    · exact skip_quoted this.2.2.2
  have hs : ∀ l : List Bytes, (∀ s ∈ l, Derivation.Closed s) → ∀ x ∈ l.map quoted, Skip x ∧ x ≠ [] := by
    intro l hl x hx
    obtain ⟨s, hs, rfl⟩ := List.mem_map.1 hx
    exact ⟨skip_quoted (hl s hs), quoted_ne_nil _⟩
  have hi : ∀ x ∈ t.inputDrvs.map fun i => tuple [quoted i.1, bracketed (i.2.map quoted)], Skip x ∧ x ≠ [] := by
    intro x hx
    obtain ⟨i, hi, rfl⟩ := List.mem_map.1 hx
    have := h.inputDrvs i hi
    refine ⟨skip_tuple ?_, tuple_ne_nil _⟩
    intro x hx
    simp at hx
    rcases hx with rfl | rfl
    · exact skip_quoted this.1
    · exact skip_bracketed fun x hx => (hs _ this.2 x hx).1
  have he : ∀ x ∈ t.env.map fun e => tuple [quoted e.1, quoted e.2], Skip x ∧ x ≠ [] := by
    intro x hx
    obtain ⟨e, he, rfl⟩ := List.mem_map.1 hx
    have := h.env e he
    refine ⟨skip_tuple ?_, tuple_ne_nil _⟩
    intro x hx
    simp at hx
    rcases hx with rfl | rfl
    · exact skip_quoted this.1
    · exact skip_quoted this.2
  rw [hdrop]
  unfold arrayEach
  rw [arrayItems_tuple (by
    intro x hx
    simp only [List.mem_cons, List.not_mem_nil, or_false] at hx
    rcases hx with rfl | rfl | rfl | rfl | rfl | rfl | rfl
    · exact skip_bracketed fun x hx => (ho x hx).1
    · exact skip_bracketed fun x hx => (hi x hx).1
    · exact skip_bracketed fun x hx => (hs _ h.inputSrcs x hx).1
    · exact skip_quoted h.platform
    · exact skip_quoted h.builder
    · exact skip_bracketed fun x hx => (hs _ h.args x hx).1
    · exact skip_bracketed fun x hx => (he x hx).1) (by
    intro x hx
    simp only [List.mem_cons, List.not_mem_nil, or_false] at hx
    rcases hx with rfl | rfl | rfl | rfl | rfl | rfl | rfl <;>
      first | exact bracketed_ne_nil _ | exact quoted_ne_nil _)]
  have ko := callEach_keyed outputItem _ (·.1) (fun o : Bytes × Bytes × Bytes × Bytes => (⟨o.2.1, o.2.2.1, o.2.2.2⟩ : Output))
    _ t.outputs (fun o ho s i => outputItem_tuple (h.outputs o ho) s i) [] [] 0 (by simp [GoMap.keys])
  have ki := callEach_keyed inputDrvItem _ (·.1) (fun i : Bytes × List Bytes => i.2)
    _ t.inputDrvs (fun o ho s i => inputDrvItem_tuple (h.inputDrvs o ho) s i) [] [] 0 (by simp [GoMap.keys])
  have ke := callEach_keyed envItem _ (·.1) (fun e : Bytes × Bytes => unescape e.2)
    _ t.env (fun o ho s i => envItem_tuple (h.env o ho) s i) [] [] 0 (by simp [GoMap.keys])
  simp only [Res.bind_ok, callEach, drvField, if_true, Nat.reduceEqDiff, if_false, unquoteSlice_quoted,
    stringList_bracketed h.inputSrcs, stringList_bracketed h.args, arrayEach,
    arrayItems_bracketed (fun x hx => (ho x hx).1) (fun x hx => (ho x hx).2),
    arrayItems_bracketed (fun x hx => (hi x hx).1) (fun x hx => (hi x hx).2),
    arrayItems_bracketed (fun x hx => (he x hx).1) (fun x hx => (he x hx).2), Nat.zero_add, Nat.reduceAdd]
  simp only [Res.bind_eq_ok, Res.ok.injEq]
  constructor
  · rintro ⟨_, ⟨m1, h1, rfl⟩, _, ⟨m2, h2, rfl⟩, _, ⟨m3, h3, rfl⟩, rfl⟩
    obtain ⟨o1, rfl⟩ := (ko m1).1 h1
    obtain ⟨o2, rfl⟩ := (ki m2).1 h2
    obtain ⟨o3, rfl⟩ := (ke m3).1 h3
    refine ⟨⟨o1, o2, o3⟩, ?_⟩
    simp [DrvText.drv, emptyDrv]
  · rintro ⟨⟨o1, o2, o3⟩, rfl⟩
    refine ⟨_, ⟨_, (ko _).2 ⟨o1, rfl⟩, rfl⟩, _, ⟨_, (ki _).2 ⟨o2, rfl⟩, rfl⟩, _, ⟨_, (ke _).2 ⟨o3, rfl⟩, rfl⟩, ?_⟩
    simp [DrvText.drv, emptyDrv]

end Verif.Derivation
