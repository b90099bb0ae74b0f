import Verif.Model.LsText
import Verif.Spec.LsText
import Verif.Lemmas.JsonFold
import Verif.Lemmas.JsonParse
import Verif.Lemmas.Narinfo

/-!
# Lemmas on the decoding of `.ls` listings
-/

namespace Verif.NarLs
open Verif.GoLib Verif.GoJson Verif.Spec

theorem digitsValue_eq (d : Bytes) : ∀ acc, digitsValue acc d = (d.map fun c => c.toNat - 48).foldl (fun acc v => acc * 10 + v) acc := by
  induction d with
  | nil => intro acc; rfl
  | cons c d ih => intro acc; exact ih _

theorem decValue_eq (d : Bytes) : decValue d = digitsValue 0 d := (digitsValue_eq d 0).symm

theorem parseUint_digits (d : Bytes) (n : Nat) : parseUint d = .ok n ↔ Digits d ∧ decValue d < 2 ^ 64 ∧ n = decValue d := by
  rw [parseUint_iff, decValue_eq]
  unfold Digits
  constructor
  · rintro ⟨a, b, c, e⟩; exact ⟨⟨a, b⟩, c, e⟩
  · rintro ⟨⟨a, b⟩, c, e⟩; exact ⟨a, b, c, e⟩

theorem digits_head_ne {d : Bytes} (h : Digits d) : d.head? ≠ some 45 := by
  intro h'
  cases d with
  | nil => simp at h'
  | cons c d =>
    simp only [List.head?_cons, Option.some.injEq] at h'
    subst h'
    exact absurd (h.2 45 List.mem_cons_self) (by decide)

theorem parseInt64_iff (s : Bytes) (a : Int) : parseInt64 s = .ok a ↔ IntText s a := by
  unfold parseInt64 IntText
  split
  · rename_i hs
    obtain ⟨r, rfl⟩ : ∃ r, s = 45 :: r := by
      cases s with
      | nil => simp at hs
      | cons c r => simp only [List.head?_cons, Option.some.injEq] at hs; exact ⟨r, by rw [hs]⟩
    rw [Res.bind_eq_ok]
    simp only [List.tail_cons]
    constructor
    · rintro ⟨n, h1, h2⟩
      rw [parseUint_digits] at h1
      obtain ⟨h1, h3, rfl⟩ := h1
      split at h2
      · cases h2
      · rename_i h4
        cases h2
        refine ⟨r, h1, .inr ⟨rfl, rfl⟩, ?_, ?_⟩ <;> omega
    · rintro ⟨d, hd, (⟨he, ha⟩ | ⟨he, ha⟩), h1, h2⟩
      · exact absurd rfl (he ▸ digits_head_ne hd)
      · simp only [List.cons_append, List.nil_append, List.cons.injEq, true_and] at he
        subst he
        refine ⟨decValue r, (parseUint_digits _ _).2 ⟨hd, by omega, rfl⟩, ?_⟩
        rw [if_neg (by omega), ha]
  · rename_i hs
    rw [Res.bind_eq_ok]
    constructor
    · rintro ⟨n, h1, h2⟩
      rw [parseUint_digits] at h1
      obtain ⟨h1, h3, rfl⟩ := h1
      split at h2
      · cases h2
      · rename_i h4
        cases h2
        refine ⟨s, h1, .inl ⟨rfl, rfl⟩, ?_, ?_⟩ <;> omega
    · rintro ⟨d, hd, (⟨rfl, ha⟩ | ⟨he, ha⟩), h1, h2⟩
      · refine ⟨decValue s, (parseUint_digits _ _).2 ⟨hd, by omega, rfl⟩, ?_⟩
        rw [if_neg (by omega), ha]
      · rw [he] at hs; simp at hs

theorem parseInt64_ne_panic (s : Bytes) : parseInt64 s ≠ .panic := by
  unfold parseInt64
  split
  · cases hu : parseUint s.tail with
    | panic => exact absurd hu (parseUint_ne_panic _)
    | err e => simp
    | ok n => rw [Res.bind_ok]; split <;> simp
  · cases hu : parseUint s with
    | panic => exact absurd hu (parseUint_ne_panic _)
    | err e => simp
    | ok n => rw [Res.bind_ok]; split <;> simp

/-! ## Fields -/

theorem fieldIs_skip {field : Bytes} {V : Json → α → Prop} {d a : α} {ms : List (Bytes × Json)} {k : Bytes} {v : Json}
    (h : FieldIs field V d ms a) (hk : KeyFor field k → v = .null) : FieldIs field V d (ms ++ [(k, v)]) a := by
  rcases h with ⟨h1, h2⟩ | ⟨b, k', v', af, h1, h2, h3, h4⟩
  · refine .inl ⟨h1, ?_⟩
    intro m hm
    rw [List.mem_append, List.mem_singleton] at hm
    rcases hm with hm | rfl
    · exact h2 m hm
    · exact hk
  · refine .inr ⟨b, k', v', af ++ [(k, v)], by simp [h1], h2, h3, ?_⟩
    intro m hm
    rw [List.mem_append, List.mem_singleton] at hm
    rcases hm with hm | rfl
    · exact h4 m hm
    · exact hk

theorem fieldIs_set {field : Bytes} {V : Json → α → Prop} {d a : α} {ms : List (Bytes × Json)} {k : Bytes} {v : Json}
    (hk : KeyFor field k) (hv : V v a) : FieldIs field V d (ms ++ [(k, v)]) a :=
  .inr ⟨ms, k, v, [], rfl, hk, hv, by simp⟩

/-- Two ways to split a list at an element: the same, or one later. -/
theorem split_two {l1 l2 l3 l4 : List β} {x y : β} (h : l1 ++ x :: l2 = l3 ++ y :: l4) :
    (l1 = l3 ∧ x = y ∧ l2 = l4) ∨ y ∈ l2 ∨ x ∈ l4 := by
  induction l1 generalizing l3 with
  | nil =>
    cases l3 with
    | nil => simp only [List.nil_append, List.cons.injEq] at h; exact .inl ⟨rfl, h.1, h.2⟩
    | cons z l3 =>
      simp only [List.nil_append, List.cons_append, List.cons.injEq] at h
      exact .inr (.inl (by rw [h.2]; simp))
  | cons z l1 ih =>
    cases l3 with
    | nil =>
      simp only [List.nil_append, List.cons_append, List.cons.injEq] at h
      exact .inr (.inr (by rw [← h.2]; simp))
    | cons z' l3 =>
      simp only [List.cons_append, List.cons.injEq] at h
      rcases ih h.2 with ⟨a, b, c⟩ | a | a
      · exact .inl ⟨by rw [h.1, a], b, c⟩
      · exact .inr (.inl a)
      · exact .inr (.inr a)

theorem fieldIs_unique {field : Bytes} {V : Json → α → Prop} {d a a' : α} {ms : List (Bytes × Json)}
    (hV : ∀ v x y, V v x → V v y → x = y) (hn : ∀ x, ¬ V .null x)
    (h : FieldIs field V d ms a) (h' : FieldIs field V d ms a') : a = a' := by
  rcases h with ⟨h1, h2⟩ | ⟨b, k, v, af, h1, h2, h3, h4⟩
  · rcases h' with ⟨g1, g2⟩ | ⟨b', k', v', af', g1, g2, g3, g4⟩
    · rw [h1, g1]
    · have := h2 (k', v') (by rw [g1]; simp) g2
      simp only at this
      exact absurd (this ▸ g3) (hn _)
  · rcases h' with ⟨g1, g2⟩ | ⟨b', k', v', af', g1, g2, g3, g4⟩
    · have := g2 (k, v) (by rw [h1]; simp) h2
      simp only at this
      exact absurd (this ▸ h3) (hn _)
    · rcases split_two (h1.symm.trans g1) with ⟨_, e, _⟩ | e | e
      · cases e; exact hV _ _ _ h3 g3
      · have := h4 _ e g2
        simp only at this
        exact absurd (this ▸ g3) (hn _)
      · have := g4 _ e h2
        simp only at this
        exact absurd (this ▸ h3) (hn _)

theorem intText_unique {lit : Bytes} {a a' : Int} (h : IntText lit a) (h' : IntText lit a') : a = a' := by
  rw [← parseInt64_iff] at h h'
  rw [h] at h'
  exact Res.ok.inj h'

theorem isInt_unique (v : Json) (x y : Int) (h : IsInt v x) (h' : IsInt v y) : x = y := by
  obtain ⟨l, rfl, h⟩ := h
  obtain ⟨l', e, h'⟩ := h'
  cases e
  exact intText_unique h h'

theorem isStr_unique (v : Json) (x y : Bytes) (h : IsStr v x) (h' : IsStr v y) : x = y := by
  unfold IsStr at h h'
  rw [h] at h'
  exact Json.str.inj h'

theorem isBool_unique (v : Json) (x y : Bool) (h : IsBool v x) (h' : IsBool v y) : x = y := by
  unfold IsBool at h h'
  rw [h] at h'
  exact Json.bool.inj h'

theorem isInt_null (x : Int) : ¬ IsInt .null x := by rintro ⟨l, e, _⟩; cases e
theorem isStr_null (x : Bytes) : ¬ IsStr .null x := by intro h; cases h
theorem isBool_null (x : Bool) : ¬ IsBool .null x := by intro h; cases h

theorem entriesOf_unique {ms l l' : List (Bytes × Json)} (h : EntriesOf ms l) (h' : EntriesOf ms l') : l = l' := by
  induction h generalizing l' with
  | nil => generalize he : ([] : List (Bytes × Json)) = z at h'; cases h' <;> simp at he; rfl
  | @other ms l k v h hk ih =>
    generalize he : ms ++ [(k, v)] = z at h'
    cases h' with
    | nil => simp at he
    | other h' _ => obtain ⟨e, _⟩ := List.append_inj' he rfl; subst e; exact ih h'
    | null h' hk' => obtain ⟨e, e'⟩ := List.append_inj' he rfl; cases e'; exact absurd hk' hk
    | obj h' hk' => obtain ⟨e, e'⟩ := List.append_inj' he rfl; cases e'; exact absurd hk' hk
  | @null ms l k h hk ih =>
    generalize he : ms ++ [(k, Json.null)] = z at h'
    cases h' with
    | nil => simp at he
    | other h' hk' => obtain ⟨e, e'⟩ := List.append_inj' he rfl; cases e'; exact absurd hk hk'
    | null h' hk' => rfl
    | obj h' hk' => obtain ⟨e, e'⟩ := List.append_inj' he rfl; cases e'
  | @obj ms l k m h hk ih =>
    generalize he : ms ++ [(k, Json.obj m)] = z at h'
    cases h' with
    | nil => simp at he
    | other h' hk' => obtain ⟨e, e'⟩ := List.append_inj' he rfl; cases e'; exact absurd hk hk'
    | null h' hk' => obtain ⟨e, e'⟩ := List.append_inj' he rfl; cases e'
    | obj h' hk' => obtain ⟨e, e'⟩ := List.append_inj' he rfl; cases e'; subst e; rw [ih h']

theorem rootOf_unique {ms l l' : List (Bytes × Json)} (h : RootOf ms l) (h' : RootOf ms l') : l = l' := by
  induction h generalizing l' with
  | nil => generalize he : ([] : List (Bytes × Json)) = z at h'; cases h' <;> simp at he; rfl
  | @other ms l k v h hk ih =>
    generalize he : ms ++ [(k, v)] = z at h'
    cases h' with
    | nil => simp at he
    | other h' _ => obtain ⟨e, _⟩ := List.append_inj' he rfl; subst e; exact ih h'
    | null h' hk' => obtain ⟨e, e'⟩ := List.append_inj' he rfl; cases e'; exact absurd hk' hk
    | obj h' hk' => obtain ⟨e, e'⟩ := List.append_inj' he rfl; cases e'; exact absurd hk' hk
  | @null ms l k h hk ih =>
    generalize he : ms ++ [(k, Json.null)] = z at h'
    cases h' with
    | nil => simp at he
    | other h' hk' => obtain ⟨e, e'⟩ := List.append_inj' he rfl; cases e'; exact absurd hk hk'
    | null h' hk' => obtain ⟨e, e'⟩ := List.append_inj' he rfl; subst e; exact ih h'
    | obj h' hk' => obtain ⟨e, e'⟩ := List.append_inj' he rfl; cases e'
  | @obj ms l k m h hk ih =>
    generalize he : ms ++ [(k, Json.obj m)] = z at h'
    cases h' with
    | nil => simp at he
    | other h' hk' => obtain ⟨e, e'⟩ := List.append_inj' he rfl; cases e'; exact absurd hk hk'
    | null h' hk' => obtain ⟨e, e'⟩ := List.append_inj' he rfl; cases e'
    | obj h' hk' => obtain ⟨e, e'⟩ := List.append_inj' he rfl; cases e'; subst e; rw [ih h']

mutual
theorem says_unique : ∀ {ms : List (Bytes × Json)} {t t' : Node}, Says ms t → Says ms t' → t = t'
  | _, _, _, .mk h1 h2 h3 h4 h5 h6 h7, .mk g1 g2 g3 g4 g5 g6 g7 => by
    cases entriesOf_unique h6 g6
    rw [fieldIs_unique isStr_unique isStr_null h1 g1, fieldIs_unique isInt_unique isInt_null h2 g2,
      fieldIs_unique isStr_unique isStr_null h3 g3, fieldIs_unique isBool_unique isBool_null h4 g4,
      fieldIs_unique isInt_unique isInt_null h5 g5, saysMap_unique h7 g7]
theorem saysMap_unique : ∀ {l : List (Bytes × Json)} {es es' : Entries}, SaysMap l es → SaysMap l es' → es = es'
  | _, _, _, .nil, h' => by cases h'; rfl
  | _, _, _, .again hm h, h' => by
    cases h' with
    | again _ h' => exact saysMap_unique h h'
    | null hn h' => exact absurd hm (hn _)
    | node hn _ h' => exact absurd hm (hn _)
  | _, _, _, .null hn h, h' => by
    cases h' with
    | again hm h' => exact absurd hm (hn _)
    | null _ h' => rw [saysMap_unique h h']
  | _, _, _, .node hn ht h, h' => by
    cases h' with
    | again hm h' => exact absurd hm (hn _)
    | node _ ht' h' => rw [saysMap_unique h h', says_unique ht ht']
end

/-! ## Decoding -/

theorem key_ne {f g k : Bytes} (hf : ∀ c ∈ f, c.toNat < 0x80) (hg : ∀ c ∈ g, c.toNat < 0x80) (hne : foldName f ≠ foldName g)
    (h : KeyFor f k) : ¬ KeyFor g k := by
  intro h'
  rw [← sameField_iff hf] at h
  rw [← sameField_iff hg] at h'
  unfold sameField at h h'
  simp only [beq_iff_eq] at h h'
  exact hne (h.symm.trans h')

theorem strValue_cases (old : Bytes) (v : Json) :
    (∃ a, strValue old v = .ok a ∧ ((v = .null ∧ a = old) ∨ IsStr v a)) ∨
    ((∃ e, strValue old v = .err e) ∧ ¬ (v = .null ∨ ∃ a, IsStr v a)) := by
  cases v with
  | null => exact .inl ⟨old, rfl, .inl ⟨rfl, rfl⟩⟩
  | str s => exact .inl ⟨s, rfl, .inr rfl⟩
  | _ => exact .inr ⟨⟨_, rfl⟩, by simp [IsStr]⟩

theorem boolValue_cases (old : Bool) (v : Json) :
    (∃ a, boolValue old v = .ok a ∧ ((v = .null ∧ a = old) ∨ IsBool v a)) ∨
    ((∃ e, boolValue old v = .err e) ∧ ¬ (v = .null ∨ ∃ a, IsBool v a)) := by
  cases v with
  | null => exact .inl ⟨old, rfl, .inl ⟨rfl, rfl⟩⟩
  | bool s => exact .inl ⟨s, rfl, .inr rfl⟩
  | _ => exact .inr ⟨⟨_, rfl⟩, by simp [IsBool]⟩

theorem intValue_cases (old : Int) (v : Json) :
    (∃ a, intValue old v = .ok a ∧ ((v = .null ∧ a = old) ∨ IsInt v a)) ∨
    ((∃ e, intValue old v = .err e) ∧ ¬ (v = .null ∨ ∃ a, IsInt v a)) := by
  cases v with
  | null => exact .inl ⟨old, rfl, .inl ⟨rfl, rfl⟩⟩
  | num s =>
    rw [intValue]
    cases h : parseInt64 s with
    | panic => exact absurd h (parseInt64_ne_panic s)
    | ok a => exact .inl ⟨a, rfl, .inr ⟨s, rfl, (parseInt64_iff s a).1 h⟩⟩
    | err e =>
      refine .inr ⟨⟨e, rfl⟩, ?_⟩
      rintro (h' | ⟨a, l, h', h''⟩)
      · cases h'
      · cases h'
        rw [(parseInt64_iff s a).2 h''] at h
        cases h
  | _ => exact .inr ⟨⟨_, rfl⟩, by simp [IsInt]⟩

theorem fieldIs_step {field : Bytes} {V : Json → α → Prop} {d old a : α} {ms : List (Bytes × Json)} {k : Bytes} {v : Json}
    (h : FieldIs field V d ms old) (hk : KeyFor field k) (hv : (v = .null ∧ a = old) ∨ V v a) :
    FieldIs field V d (ms ++ [(k, v)]) a := by
  rcases hv with ⟨h1, rfl⟩ | hv
  · exact fieldIs_skip h fun _ => h1
  · exact fieldIs_set hk hv

/-- A member with the key of a field and a value of its kind; but for objects of entries. -/
def FieldOk (k : Bytes) (v : Json) : Prop :=
  (KeyFor b!"type" k ∧ (v = .null ∨ ∃ a, IsStr v a)) ∨ (KeyFor b!"target" k ∧ (v = .null ∨ ∃ a, IsStr v a)) ∨
    (KeyFor b!"size" k ∧ (v = .null ∨ ∃ a, IsInt v a)) ∨ (KeyFor b!"narOffset" k ∧ (v = .null ∨ ∃ a, IsInt v a)) ∨
    (KeyFor b!"executable" k ∧ (v = .null ∨ ∃ a, IsBool v a)) ∨ (KeyFor b!"entries" k ∧ EntriesOk v)

theorem entries_key {k : Bytes} (h : KeyFor b!"entries" k) : ¬ KeyFor b!"type" k ∧ ¬ KeyFor b!"target" k ∧ ¬ KeyFor b!"size" k ∧
    ¬ KeyFor b!"narOffset" k ∧ ¬ KeyFor b!"executable" k :=
  ⟨key_ne (by decide) (by decide) (by decide) h, key_ne (by decide) (by decide) (by decide) h,
    key_ne (by decide) (by decide) (by decide) h, key_ne (by decide) (by decide) (by decide) h,
    key_ne (by decide) (by decide) (by decide) h⟩

theorem says_entries {ms l : List (Bytes × Json)} {t : Node} {es : Entries} {k : Bytes} {v : Json} (hk : KeyFor b!"entries" k)
    (hs : Says ms t) (he : EntriesOf (ms ++ [(k, v)]) l) (hm : SaysMap l es) : Says (ms ++ [(k, v)]) (t.setEntries es) := by
  obtain ⟨k1, k2, k3, k4, k5⟩ := entries_key hk
  cases hs with
  | mk h1 h2 h3 h4 h5 h6 h7 =>
    exact .mk (fieldIs_skip h1 fun h => absurd h k1) (fieldIs_skip h2 fun h => absurd h k3) (fieldIs_skip h3 fun h => absurd h k2)
      (fieldIs_skip h4 fun h => absurd h k5) (fieldIs_skip h5 fun h => absurd h k4) he hm

theorem decodeField_cases (t : Node) (k : Bytes) (v : Json) (hno : KeyFor b!"entries" k → ∀ m, v ≠ .obj m) :
    (FieldOk k v ∧ ∃ t', decodeField t k v = .ok t' ∧ ∀ pre, Says pre t → Says (pre ++ [(k, v)]) t') ∨
    (¬ FieldOk k v ∧ ∃ e, decodeField t k v = .err e) := by
  obtain ⟨typ, es, size, lt, x, o⟩ := t
  have sf : ∀ f : Bytes, (∀ c ∈ f, c.toNat < 0x80) → ∀ b, sameField f k = b → (b = true ↔ KeyFor f k) := by
    intro f hf b hb
    rw [← hb]
    exact sameField_iff hf
  rw [decodeField]
  cases h1 : sameField b!"type" k with
  | true =>
    have hk := (sf _ (by decide) _ h1).1 rfl
    have n2 : ¬ KeyFor b!"target" k := key_ne (by decide) (by decide) (by decide) hk
    have n3 : ¬ KeyFor b!"size" k := key_ne (by decide) (by decide) (by decide) hk
    have n4 : ¬ KeyFor b!"narOffset" k := key_ne (by decide) (by decide) (by decide) hk
    have n5 : ¬ KeyFor b!"executable" k := key_ne (by decide) (by decide) (by decide) hk
    have n6 : ¬ KeyFor b!"entries" k := key_ne (by decide) (by decide) (by decide) hk
    rw [if_pos rfl]
    rcases strValue_cases typ v with ⟨a, e, hv⟩ | ⟨⟨e, he⟩, hv⟩
    · refine .inl ⟨.inl ⟨hk, ?_⟩, .mk a es size lt x o, by rw [e]; rfl, ?_⟩
      · rcases hv with hv | hv
        · exact .inl hv.1
        · exact .inr ⟨a, hv⟩
      · rintro pre (⟨g1, g2, g3, g4, g5, g6, g7⟩)
        exact .mk (fieldIs_step g1 hk hv) (fieldIs_skip g2 fun h => absurd h n3) (fieldIs_skip g3 fun h => absurd h n2)
          (fieldIs_skip g4 fun h => absurd h n5) (fieldIs_skip g5 fun h => absurd h n4) (.other g6 n6) g7
    · refine .inr ⟨?_, e, by rw [he]; rfl⟩
      unfold FieldOk
      simp only [hv, n2, n3, n4, n5, n6, and_false, false_and, or_self, not_false_eq_true]
  | false =>
  have n1 : ¬ KeyFor b!"type" k := fun h => by have := (sf _ (by decide) _ h1).2 h; cases this
  rw [if_neg (by simp)]
  cases h6 : sameField b!"entries" k with
  | true =>
    have hk := (sf _ (by decide) _ h6).1 rfl
    obtain ⟨_, n2, n3, n4, n5⟩ := entries_key hk
    rw [if_pos rfl]
    by_cases hv : v = .null
    · subst hv
      rw [if_pos rfl]
      refine .inl ⟨.inr (.inr (.inr (.inr (.inr ⟨hk, trivial⟩)))), _, rfl, ?_⟩
      intro pre hs
      have he : ∃ l, EntriesOf pre l := by cases hs with | mk _ _ _ _ _ h _ => exact ⟨_, h⟩
      obtain ⟨l, he⟩ := he
      exact says_entries hk hs (.null he hk) .nil
    · rw [if_neg hv]
      refine .inr ⟨?_, _, rfl⟩
      unfold FieldOk
      have : ¬ EntriesOk v := by
        have := hno hk
        cases v with
        | null => exact absurd rfl hv
        | obj m => exact absurd rfl (this m)
        | _ => simp [EntriesOk]
      simp only [this, n1, n2, n3, n4, n5, and_false, false_and, or_self, not_false_eq_true]
  | false =>
  have n6 : ¬ KeyFor b!"entries" k := fun h => by have := (sf _ (by decide) _ h6).2 h; cases this
  rw [if_neg (by simp)]
  cases h3 : sameField b!"size" k with
  | true =>
    have hk := (sf _ (by decide) _ h3).1 rfl
    have n2 : ¬ KeyFor b!"target" k := key_ne (by decide) (by decide) (by decide) hk
    have n4 : ¬ KeyFor b!"narOffset" k := key_ne (by decide) (by decide) (by decide) hk
    have n5 : ¬ KeyFor b!"executable" k := key_ne (by decide) (by decide) (by decide) hk
    rw [if_pos rfl]
    rcases intValue_cases size v with ⟨a, e, hv⟩ | ⟨⟨e, he⟩, hv⟩
    · refine .inl ⟨.inr (.inr (.inl ⟨hk, ?_⟩)), .mk typ es a lt x o, by rw [e]; rfl, ?_⟩
      · rcases hv with hv | hv
        · exact .inl hv.1
        · exact .inr ⟨a, hv⟩
      · rintro pre (⟨g1, g2, g3, g4, g5, g6, g7⟩)
        exact .mk (fieldIs_skip g1 fun h => absurd h n1) (fieldIs_step g2 hk hv) (fieldIs_skip g3 fun h => absurd h n2)
          (fieldIs_skip g4 fun h => absurd h n5) (fieldIs_skip g5 fun h => absurd h n4) (.other g6 n6) g7
    · refine .inr ⟨?_, e, by rw [he]; rfl⟩
      unfold FieldOk
      simp only [hv, n1, n2, n4, n5, n6, and_false, false_and, or_self, not_false_eq_true]
  | false =>
  have n3 : ¬ KeyFor b!"size" k := fun h => by have := (sf _ (by decide) _ h3).2 h; cases this
  rw [if_neg (by simp)]
  cases h2 : sameField b!"target" k with
  | true =>
    have hk := (sf _ (by decide) _ h2).1 rfl
    have n4 : ¬ KeyFor b!"narOffset" k := key_ne (by decide) (by decide) (by decide) hk
    have n5 : ¬ KeyFor b!"executable" k := key_ne (by decide) (by decide) (by decide) hk
    rw [if_pos rfl]
    rcases strValue_cases lt v with ⟨a, e, hv⟩ | ⟨⟨e, he⟩, hv⟩
    · refine .inl ⟨.inr (.inl ⟨hk, ?_⟩), .mk typ es size a x o, by rw [e]; rfl, ?_⟩
      · rcases hv with hv | hv
        · exact .inl hv.1
        · exact .inr ⟨a, hv⟩
      · rintro pre (⟨g1, g2, g3, g4, g5, g6, g7⟩)
        exact .mk (fieldIs_skip g1 fun h => absurd h n1) (fieldIs_skip g2 fun h => absurd h n3) (fieldIs_step g3 hk hv)
          (fieldIs_skip g4 fun h => absurd h n5) (fieldIs_skip g5 fun h => absurd h n4) (.other g6 n6) g7
    · refine .inr ⟨?_, e, by rw [he]; rfl⟩
      unfold FieldOk
      simp only [hv, n1, n3, n4, n5, n6, and_false, false_and, or_self, not_false_eq_true]
  | false =>
  have n2 : ¬ KeyFor b!"target" k := fun h => by have := (sf _ (by decide) _ h2).2 h; cases this
  rw [if_neg (by simp)]
  cases h5 : sameField b!"executable" k with
  | true =>
    have hk := (sf _ (by decide) _ h5).1 rfl
    have n4 : ¬ KeyFor b!"narOffset" k := key_ne (by decide) (by decide) (by decide) hk
    rw [if_pos rfl]
    rcases boolValue_cases x v with ⟨a, e, hv⟩ | ⟨⟨e, he⟩, hv⟩
    · refine .inl ⟨.inr (.inr (.inr (.inr (.inl ⟨hk, ?_⟩)))), .mk typ es size lt a o, by rw [e]; rfl, ?_⟩
      · rcases hv with hv | hv
        · exact .inl hv.1
        · exact .inr ⟨a, hv⟩
      · rintro pre (⟨g1, g2, g3, g4, g5, g6, g7⟩)
        exact .mk (fieldIs_skip g1 fun h => absurd h n1) (fieldIs_skip g2 fun h => absurd h n3) (fieldIs_skip g3 fun h => absurd h n2)
          (fieldIs_step g4 hk hv) (fieldIs_skip g5 fun h => absurd h n4) (.other g6 n6) g7
    · refine .inr ⟨?_, e, by rw [he]; rfl⟩
      unfold FieldOk
      simp only [hv, n1, n2, n3, n4, n6, and_false, false_and, or_self, not_false_eq_true]
  | false =>
  have n5 : ¬ KeyFor b!"executable" k := fun h => by have := (sf _ (by decide) _ h5).2 h; cases this
  rw [if_neg (by simp)]
  cases h4 : sameField b!"narOffset" k with
  | true =>
    have hk := (sf _ (by decide) _ h4).1 rfl
    rw [if_pos rfl]
    rcases intValue_cases o v with ⟨a, e, hv⟩ | ⟨⟨e, he⟩, hv⟩
    · refine .inl ⟨.inr (.inr (.inr (.inl ⟨hk, ?_⟩))), .mk typ es size lt x a, by rw [e]; rfl, ?_⟩
      · rcases hv with hv | hv
        · exact .inl hv.1
        · exact .inr ⟨a, hv⟩
      · rintro pre (⟨g1, g2, g3, g4, g5, g6, g7⟩)
        exact .mk (fieldIs_skip g1 fun h => absurd h n1) (fieldIs_skip g2 fun h => absurd h n3) (fieldIs_skip g3 fun h => absurd h n2)
          (fieldIs_skip g4 fun h => absurd h n5) (fieldIs_step g5 hk hv) (.other g6 n6) g7
    · refine .inr ⟨?_, e, by rw [he]; rfl⟩
      unfold FieldOk
      simp only [hv, n1, n2, n3, n5, n6, and_false, false_and, or_self, not_false_eq_true]
  | false =>
  have n4 : ¬ KeyFor b!"narOffset" k := fun h => by have := (sf _ (by decide) _ h4).2 h; cases this
  rw [if_neg (by simp)]
  refine .inr ⟨?_, _, rfl⟩
  unfold FieldOk
  simp only [n1, n2, n3, n4, n5, n6, false_and, or_self, not_false_eq_true]

theorem saysMap_put {k : Bytes} {v : Json} {p : Option Node}
    (hv : (v = .null ∧ p = none) ∨ ∃ m t, v = .obj m ∧ Says (memberList m) t ∧ p = some t) :
    ∀ (l : List (Bytes × Json)) (es : Entries), SaysMap l es → SaysMap (l ++ [(k, v)]) (es.put k p) := by
  intro l
  induction l with
  | nil =>
    intro es h
    cases h
    rcases hv with ⟨rfl, rfl⟩ | ⟨m, t, rfl, ht, rfl⟩
    · exact .null (by simp) .nil
    · exact .node (by simp) ht .nil
  | cons x l ih =>
    intro es h
    have notin : ∀ {k0 : Bytes}, (∀ v', (k0, v') ∉ l) → k0 ≠ k → ∀ v', (k0, v') ∉ l ++ [(k, v)] := by
      intro k0 h1 h2 v' h3
      rw [List.mem_append, List.mem_singleton] at h3
      rcases h3 with h3 | h3
      · exact h1 v' h3
      · cases h3; exact h2 rfl
    cases h with
    | again hm h => exact .again (List.mem_append_left _ hm) (ih es h)
    | @null k0 _ es0 hn h =>
      by_cases hk : k0 = k
      · have e : (Entries.null k0 es0).put k p = es0.put k p := by simp [Entries.put, Entries.remove, hk]
        rw [e]
        exact .again (v' := v) (by simp [hk]) (ih es0 h)
      · have e : (Entries.null k0 es0).put k p = .null k0 (es0.put k p) := by simp [Entries.put, Entries.remove, Entries.snoc, hk]
        rw [e]
        exact .null (notin hn hk) (ih es0 h)
    | @node k0 m t _ es0 hn ht h =>
      by_cases hk : k0 = k
      · have e : (Entries.cons k0 t es0).put k p = es0.put k p := by simp [Entries.put, Entries.remove, hk]
        rw [e]
        exact .again (v' := v) (by simp [hk]) (ih es0 h)
      · have e : (Entries.cons k0 t es0).put k p = .cons k0 t (es0.put k p) := by simp [Entries.put, Entries.remove, Entries.snoc, hk]
        rw [e]
        exact .node (notin hn hk) ht (ih es0 h)

theorem says_zero : Says [] zeroNode :=
  .mk (.inl ⟨rfl, by simp⟩) (.inl ⟨rfl, by simp⟩) (.inl ⟨rfl, by simp⟩) (.inl ⟨rfl, by simp⟩) (.inl ⟨rfl, by simp⟩) .nil .nil

theorem nodeMembersOk_cons {k : Bytes} {v : Json} {l : Members} :
    NodeMembersOk (.cons k v l) ↔ FieldOk k v ∧ NodeMembersOk l := by
  rw [NodeMembersOk]; rfl

mutual
theorem decodeMembers_cases : ∀ (l : Members) (t : Node),
    (NodeMembersOk l ∧ ∃ t', decodeMembers t l = .ok t' ∧ ∀ pre, Says pre t → Says (pre ++ memberList l) t') ∨
    (¬ NodeMembersOk l ∧ ∃ e, decodeMembers t l = .err e)
  | .nil, t => .inl ⟨by simp [NodeMembersOk], t, by simp [decodeMembers], fun pre h => by simpa [memberList] using h⟩
  | .cons k v l, t => by
    have ih := decodeMembers_cases l
    rw [nodeMembersOk_cons]
    have field : (KeyFor b!"entries" k → ∀ m, v ≠ .obj m) →
        decodeMembers t (.cons k v l) = (do let t' ← decodeField t k v; decodeMembers t' l) →
        ((FieldOk k v ∧ NodeMembersOk l) ∧ ∃ t', decodeMembers t (.cons k v l) = .ok t' ∧
          ∀ pre, Says pre t → Says (pre ++ memberList (.cons k v l)) t') ∨
        (¬ (FieldOk k v ∧ NodeMembersOk l) ∧ ∃ e, decodeMembers t (.cons k v l) = .err e) := by
      intro hno he
      rw [he]
      rcases decodeField_cases t k v hno with ⟨h1, t1, h2, h3⟩ | ⟨h1, e, h2⟩
      · rw [h2, Res.bind_ok]
        rcases ih t1 with ⟨g1, t2, g2, g3⟩ | ⟨g1, e, g2⟩
        · refine .inl ⟨⟨h1, g1⟩, t2, g2, ?_⟩
          intro pre hs
          have := g3 _ (h3 pre hs)
          rw [List.append_assoc] at this
          exact this
        · exact .inr ⟨fun h => g1 h.2, e, g2⟩
      · exact .inr ⟨fun h => h1 h.1, e, by rw [h2]; rfl⟩
    cases v with
    | obj m =>
      have hm := decodeMap_cases m
      have hsame := sameField_iff (field := b!"entries") (key := k) (by decide)
      cases hs : sameField b!"entries" k with
      | false =>
        refine field (fun h => by rw [hsame.2 h] at hs; cases hs) ?_
        rw [decodeMembers, if_neg (by simp [hs])]
      | true =>
        have hk := hsame.1 hs
        have e : decodeMembers t (.cons k (.obj m) l) = (do let es ← decodeMap t.entries m; decodeMembers (t.setEntries es) l) := by
          rw [decodeMembers, if_pos hs]
        obtain ⟨k1, k2, k3, k4, k5⟩ := entries_key hk
        have hf : FieldOk k (.obj m) ↔ NodesOk m := by
          unfold FieldOk
          simp only [k1, k2, k3, k4, k5, hk, false_and, true_and, false_or, EntriesOk]
        rw [e, hf]
        rcases hm t.entries with ⟨h1, es, h2, h3⟩ | ⟨h1, e, h2⟩
        · rw [h2, Res.bind_ok]
          rcases ih (t.setEntries es) with ⟨g1, t2, g2, g3⟩ | ⟨g1, e, g2⟩
          · refine .inl ⟨⟨h1, g1⟩, t2, g2, ?_⟩
            intro pre hs
            have : Says (pre ++ [(k, .obj m)]) (t.setEntries es) := by
              have hx : ∃ lx, EntriesOf pre lx ∧ SaysMap lx t.entries := by
                cases hs with
                | mk _ _ _ _ _ g6 g7 => exact ⟨_, g6, g7⟩
              obtain ⟨lx, g6, g7⟩ := hx
              exact says_entries hk hs (.obj g6 hk) (h3 _ g7)
            have := g3 _ this
            rw [List.append_assoc] at this
            exact this
          · exact .inr ⟨fun h => g1 h.2, e, g2⟩
        · exact .inr ⟨fun h => h1 h.1, e, by rw [h2]; rfl⟩
    | null => exact field (fun _ m h => by cases h) (by rw [decodeMembers]; simp)
    | bool b => exact field (fun _ m h => by cases h) (by rw [decodeMembers]; simp)
    | num b => exact field (fun _ m h => by cases h) (by rw [decodeMembers]; simp)
    | str b => exact field (fun _ m h => by cases h) (by rw [decodeMembers]; simp)
    | arr b => exact field (fun _ m h => by cases h) (by rw [decodeMembers]; simp)
theorem decodeMap_cases : ∀ (l : Members) (es : Entries),
    (NodesOk l ∧ ∃ es', decodeMap es l = .ok es' ∧ ∀ pre, SaysMap pre es → SaysMap (pre ++ memberList l) es') ∨
    (¬ NodesOk l ∧ ∃ e, decodeMap es l = .err e)
  | .nil, es => .inl ⟨by simp [NodesOk], es, by simp [decodeMap], fun pre h => by simpa [memberList] using h⟩
  | .cons k v l, es => by
    have ih := decodeMap_cases l
    rw [NodesOk]
    have bad : ¬ NodeOk v → (∃ e, decodeMap es (.cons k v l) = .err e) →
        ((NodeOk v ∧ NodesOk l) ∧ ∃ es', decodeMap es (.cons k v l) = .ok es' ∧
          ∀ pre, SaysMap pre es → SaysMap (pre ++ memberList (.cons k v l)) es') ∨
        (¬ (NodeOk v ∧ NodesOk l) ∧ ∃ e, decodeMap es (.cons k v l) = .err e) :=
      fun h1 h2 => .inr ⟨fun h => h1 h.1, h2⟩
    cases v with
    | null =>
      have e : decodeMap es (.cons k .null l) = decodeMap (es.put k none) l := by rw [decodeMap]
      rw [e]
      rcases ih (es.put k none) with ⟨g1, es', g2, g3⟩ | ⟨g1, e, g2⟩
      · refine .inl ⟨⟨by simp [NodeOk], g1⟩, es', g2, ?_⟩
        intro pre hs
        have := g3 _ (saysMap_put (k := k) (v := .null) (p := none) (.inl ⟨rfl, rfl⟩) pre es hs)
        rw [List.append_assoc] at this
        exact this
      · exact .inr ⟨fun h => g1 h.2, e, g2⟩
    | obj m =>
      have hm := decodeMembers_cases m zeroNode
      have e : decodeMap es (.cons k (.obj m) l) = (do let t ← decodeMembers zeroNode m; decodeMap (es.put k (some t)) l) := by
        rw [decodeMap]
      rw [e, NodeOk]
      rcases hm with ⟨h1, t, h2, h3⟩ | ⟨h1, e, h2⟩
      · rw [h2, Res.bind_ok]
        rcases ih (es.put k (some t)) with ⟨g1, es', g2, g3⟩ | ⟨g1, e, g2⟩
        · refine .inl ⟨⟨h1, g1⟩, es', g2, ?_⟩
          intro pre hs
          have := g3 _ (saysMap_put (k := k) (v := .obj m) (p := some t) (.inr ⟨m, t, rfl, h3 [] says_zero, rfl⟩) pre es hs)
          rw [List.append_assoc] at this
          exact this
        · exact .inr ⟨fun h => g1 h.2, e, g2⟩
      · exact .inr ⟨fun h => h1 h.1, e, by rw [h2]; rfl⟩
    | bool b => exact bad (by simp [NodeOk]) ⟨_, by rw [decodeMap] <;> simp⟩
    | num b => exact bad (by simp [NodeOk]) ⟨_, by rw [decodeMap] <;> simp⟩
    | str b => exact bad (by simp [NodeOk]) ⟨_, by rw [decodeMap] <;> simp⟩
    | arr b => exact bad (by simp [NodeOk]) ⟨_, by rw [decodeMap] <;> simp⟩
end

end Verif.NarLs
