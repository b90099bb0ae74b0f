import Verif.Spec.StoreUri
import Verif.Lemmas.GoUrl

/-!
# Lemmas about printing a URL and parsing it again
-/

namespace Verif.GoUrl
open Verif.GoLib

/-! ### Splitting at the last occurrence -/

theorem splitLast_none {s : Bytes} {c : UInt8} : splitLast s c = none ↔ c ∉ s := by
  induction s with
  | nil => simp [splitLast]
  | cons x s ih =>
    unfold splitLast
    cases h : splitLast s c with
    | none =>
      have := ih.1 h
      by_cases hx : x = c
      · subst hx; simp
      · simp [hx, this, Ne.symm hx]
    | some ab =>
      have : c ∈ s := by
        apply Decidable.byContradiction; intro hn; rw [ih.2 hn] at h; simp at h
      simp [this]

theorem splitLast_append {a b : Bytes} {c : UInt8} (h : c ∉ b) : splitLast (a ++ c :: b) c = some (a, b) := by
  induction a with
  | nil =>
    show splitLast (c :: b) c = _
    unfold splitLast
    rw [splitLast_none.2 h]; simp
  | cons x a ih =>
    show splitLast (x :: (a ++ c :: b)) c = _
    rw [splitLast, ih]

theorem splitLast_some {s a b : Bytes} {c : UInt8} (h : splitLast s c = some (a, b)) : s = a ++ c :: b ∧ c ∉ b := by
  induction s generalizing a b with
  | nil => simp [splitLast] at h
  | cons x s ih =>
    unfold splitLast at h
    cases hs : splitLast s c with
    | none =>
      rw [hs] at h
      simp only at h
      split at h
      · rename_i hx
        simp only [Option.some.injEq, Prod.mk.injEq] at h
        have hx := beq_iff_eq.1 hx
        rw [← h.1, ← h.2, hx]
        exact ⟨rfl, splitLast_none.1 hs⟩
      · simp at h
    | some ab =>
      obtain ⟨a', b'⟩ := ab
      rw [hs] at h
      simp only [Option.some.injEq, Prod.mk.injEq] at h
      obtain ⟨h1, h2⟩ := ih hs
      rw [← h.1, ← h.2]
      exact ⟨by rw [h1]; rfl, h2⟩

/-! ### Escaping and unescaping parts -/

theorem escape_append (m : Mode) (a b : Bytes) : escape m (a ++ b) = escape m a ++ escape m b := by
  unfold escape; exact List.flatMap_append

theorem escape_plain {m : Mode} {s : Bytes} (h : ∀ c ∈ s, shouldEscape c m = false) : escape m s = s := by
  induction s with
  | nil => rfl
  | cons c s ih =>
    obtain ⟨h1, h2⟩ := List.forall_mem_cons.1 h
    rw [escape_cons, ih h2]
    unfold escapeByte
    rw [h1]; rfl

/-- `unescape` at a byte that is no percent sign and cannot be the result of, or belong to, an escape in a host. -/
theorem unescape_cons_ok {m : Mode} {c : UInt8} {s t : Bytes} (hc : c ≠ 37) (h : unescape m (c :: s) = .ok t) :
    badByte m c = false ∧ ∃ t', t = c :: t' ∧ unescape m s = .ok t' := by
  rw [unescape_other hc] at h
  split at h
  · simp at h
  · rename_i hb
    rw [Res.bind_eq_ok] at h
    obtain ⟨t', h1, h2⟩ := h
    exact ⟨by simpa using hb, t', (Res.ok.inj h2).symm, h1⟩

theorem unescape_append_ok {m : Mode} {a b : Bytes} {c : UInt8} (hc : hexVal c = none) (hc' : c ≠ 37) {t : Bytes}
    (h : unescape m (a ++ c :: b) = .ok t) :
    ∃ ta tb, unescape m a = .ok ta ∧ unescape m b = .ok tb ∧ t = ta ++ c :: tb := by
  induction hn : a.length using Nat.strongRecOn generalizing a t with
  | ind n ih =>
  match a with
  | [] =>
    obtain ⟨_, t', h1, h2⟩ := unescape_cons_ok hc' h
    exact ⟨[], t', rfl, h2, h1⟩
  | x :: a =>
    by_cases hx : x = 37
    · subst hx
      match a with
      | [] =>
        exfalso
        match b with
        | [] => rw [List.cons_append, List.nil_append, unescape.eq_def] at h; simp at h
        | y :: b =>
          rw [List.cons_append, List.nil_append, unescape.eq_def] at h
          simp [escapedByte, hc] at h
      | [y] =>
        exfalso
        rw [List.cons_append, List.cons_append, List.nil_append, unescape.eq_def] at h
        simp [escapedByte, hc] at h
      | y :: z :: a =>
        rw [List.cons_append, List.cons_append, List.cons_append, unescape.eq_def] at h
        simp only [if_true] at h
        cases he : escapedByte m y z with
        | none => rw [he] at h; simp at h
        | some w =>
          rw [he] at h
          simp only at h
          rw [Res.bind_eq_ok] at h
          obtain ⟨t', h1, h2⟩ := h
          obtain ⟨ta, tb, g1, g2, g3⟩ := ih _ (by rw [← hn]; simp; omega) h1 rfl
          refine ⟨w :: ta, tb, ?_, g2, ?_⟩
          · rw [unescape.eq_def]; simp [he, g1]
          · rw [← Res.ok.inj h2, g3]; rfl
    · obtain ⟨h1, t', h2, h3⟩ := unescape_cons_ok hx h
      obtain ⟨ta, tb, g1, g2, g3⟩ := ih _ (by rw [← hn]; simp) h3 rfl
      refine ⟨x :: ta, tb, ?_, g2, ?_⟩
      · rw [unescape_other hx, h1]; simp [g1]
      · rw [h2, g3]; rfl

/-- The bytes that an escape can stand for in a host. -/
theorem escapedByte_host {a b x : UInt8} (h : escapedByte .host a b = some x) : x = 37 ∨ 128 ≤ x := by
  unfold escapedByte at h
  split at h
  · rename_i u v hu hv
    split at h
    · simp at h
    · rename_i hb
      have h := Option.some.inj h
      have hu' := hexVal_lt hu
      have hv' := hexVal_lt hv
      unfold badEscape at hb
      simp only [Bool.and_eq_true, decide_eq_true_eq, bne_iff_ne, ne_eq, not_and, Decidable.not_not] at hb
      have hx : x.toNat = 16 * u + v := by rw [← h, UInt8.toNat_ofNat']; omega
      by_cases h8 : (16 * u + v) / 16 < 8
      · left
        rw [← h, hb h8]; rfl
      · right
        rw [UInt8.le_iff_toNat_le, hx]; simp; omega
  · simp at h

theorem unescape_host_mem {s t : Bytes} (h : unescape .host s = .ok t) {c : UInt8} (hc : c ≠ 37) (hc' : c < 128)
    (hm : c ∈ t) : c ∈ s := by
  fun_induction unescape Mode.host s generalizing t with
  | case1 => simp at h; subst h; exact hm
  | case2 a b r hb => simp at h
  | case3 a b r x hb ih =>
    rw [Res.bind_eq_ok] at h
    obtain ⟨t', h1, h2⟩ := h
    rw [← Res.ok.inj h2] at hm
    rcases List.mem_cons.1 hm with rfl | hm
    · rcases escapedByte_host hb with h | h
      · exact absurd h hc
      · rw [UInt8.le_iff_toNat_le] at h; rw [UInt8.lt_iff_toNat_lt] at hc'; simp at h hc'; omega
    · simp [ih h1 hm]
  | case4 => simp at h
  | case5 => simp at h
  | case6 x s hx hb ih =>
    rw [Res.bind_eq_ok] at h
    obtain ⟨t', h1, h2⟩ := h
    rw [← Res.ok.inj h2] at hm
    rcases List.mem_cons.1 hm with rfl | hm
    · simp
    · simp [ih h1 hm]

/-- No escaped percent sign in a host that does not contain one. -/
theorem index_escape {s : Bytes} (h : (37 : UInt8) ∉ s) (r : Bytes) :
    index (escape .host s ++ r) b!"%25" = (index r b!"%25").map (· + (escape .host s).length) := by
  induction s with
  | nil => simp [escape]
  | cons c s ih =>
    simp only [List.mem_cons, not_or] at h
    rw [escape_cons, List.append_assoc]
    unfold escapeByte
    have step : ∀ (x : UInt8) (l : Bytes), x ≠ 37 → index (x :: l) b!"%25" = (index l b!"%25").map (· + 1) := by
      intro x l hx
      rw [index]
      have : List.isPrefixOf b!"%25" (x :: l) = false := by
        simp [List.isPrefixOf, Ne.symm hx]
      rw [this]; rfl
    split
    · rename_i hs
      have hc16 := c.toNat_lt
      have n1 : upperhex.getD (c.toNat / 16) 0 ≠ 37 := by
        intro e
        have := upper_alnum (c.toNat / 16) (by omega)
        rw [e] at this; simp [isAlnum, isAlpha] at this
      have n2 : upperhex.getD (c.toNat % 16) 0 ≠ 37 := by
        intro e
        have := upper_alnum (c.toNat % 16) (by omega)
        rw [e] at this; simp [isAlnum, isAlpha] at this
      show index (37 :: _ :: _ :: (escape .host s ++ r)) b!"%25" = _
      have first : index (37 :: upperhex.getD (c.toNat / 16) 0 :: upperhex.getD (c.toNat % 16) 0 :: (escape .host s ++ r)) b!"%25" =
          (index (upperhex.getD (c.toNat / 16) 0 :: upperhex.getD (c.toNat % 16) 0 :: (escape .host s ++ r)) b!"%25").map (· + 1) := by
        rw [index]
        have : List.isPrefixOf b!"%25" (37 :: upperhex.getD (c.toNat / 16) 0 :: upperhex.getD (c.toNat % 16) 0 :: (escape .host s ++ r)) = false := by
          apply Bool.eq_false_iff.2
          intro hp
          simp only [List.isPrefixOf, Bool.and_eq_true, beq_iff_eq] at hp
          have hh := hex_upper c
          rw [← hp.2.1, ← hp.2.2.1] at hh
          have e1 : hexVal 50 = some 2 := by decide
          have e2 : hexVal 53 = some 5 := by decide
          rw [e1, e2] at hh
          simp only [Option.some.injEq] at hh
          apply h.1
          have : c = UInt8.ofNat c.toNat := by simp
          rw [this]
          have : c.toNat = 37 := by omega
          rw [this]; rfl
        rw [this]; rfl
      rw [first, step _ _ n1, step _ _ n2, ih h.2]
      simp only [Option.map_map]
      congr 1
    · show index (c :: (escape .host s ++ r)) b!"%25" = _
      rw [step _ _ (Ne.symm h.1), ih h.2]
      simp only [Option.map_map]
      congr 1

theorem index_none_take {s p : Bytes} : index s p = none ↔ ∀ a b, s ≠ a ++ (p ++ b) := by
  induction s with
  | nil =>
    unfold index
    cases p with
    | nil => simp
    | cons c p => simp
  | cons c s ih =>
    unfold index
    by_cases hp : p.isPrefixOf (c :: s) = true
    · rw [if_pos hp]
      simp only [reduceCtorEq, false_iff]
      intro hn
      obtain ⟨t, ht⟩ := List.isPrefixOf_iff_prefix.1 hp
      exact hn [] t (by simp [ht])
    · rw [if_neg hp]
      rw [Option.map_eq_none_iff, ih]
      constructor
      · intro h a b hab
        cases a with
        | nil => exact hp (List.isPrefixOf_iff_prefix.2 ⟨b, by simpa using hab.symm⟩)
        | cons x a =>
          simp only [List.cons_append, List.cons.injEq] at hab
          exact h a b hab.2
      · intro h a b hab
        exact h (c :: a) b (by rw [hab]; rfl)

theorem index_some_split {s p : Bytes} {i : Nat} (h : index s p = some i) : ∃ b, s = s.take i ++ (p ++ b) ∧
    s.drop i = p ++ b ∧ index (s.take i) p = none ∨ p = [] := by
  induction s generalizing i with
  | nil =>
    unfold index at h
    cases p with
    | nil => exact ⟨[], .inr rfl⟩
    | cons c p => simp at h
  | cons c s ih =>
    by_cases hp0 : p = []
    · exact ⟨[], .inr hp0⟩
    unfold index at h
    split at h
    · rename_i hp
      obtain ⟨t, ht⟩ := List.isPrefixOf_iff_prefix.1 hp
      have := Option.some.inj h
      subst this
      refine ⟨t, .inl ⟨by simp [ht], by simp [ht], ?_⟩⟩
      cases p with
      | nil => exact absurd rfl hp0
      | cons => simp [index]
    · rename_i hp
      rw [Option.map_eq_some_iff] at h
      obtain ⟨j, hj, rfl⟩ := h
      obtain ⟨b, hb⟩ := ih hj
      rcases hb with ⟨h1, h2, h3⟩ | hb
      · refine ⟨b, .inl ⟨by simp [← h1], by simpa using h2, ?_⟩⟩
        rw [List.take_succ_cons]
        unfold index
        rw [if_neg, h3]; rfl
        intro hpre
        obtain ⟨t, ht⟩ := List.isPrefixOf_iff_prefix.1 hpre
        apply hp
        refine List.isPrefixOf_iff_prefix.2 ⟨t ++ s.drop j, ?_⟩
        rw [← List.append_assoc, ht]
        simp
      · exact absurd hb hp0

/-! ### Hosts -/

theorem mem_escape_plain {m : Mode} {s : Bytes} {c : UInt8} (h : hexVal c = none) (h' : c ≠ 37) (hm : c ∈ escape m s) :
    c ∈ s := by
  unfold escape at hm
  rw [List.mem_flatMap] at hm
  obtain ⟨x, hx, hc⟩ := hm
  unfold escapeByte at hc
  have hh := hex_upper x
  split at hc
  · simp only [List.mem_cons, List.not_mem_nil, or_false] at hc
    rcases hc with rfl | rfl | rfl
    · exact absurd rfl h'
    · rw [hh.1] at h; simp at h
    · rw [hh.2] at h; simp at h
  · simp only [List.mem_cons, List.not_mem_nil, or_false] at hc
    subst hc; exact hx

theorem digit_alnum {c : UInt8} (h : (48 ≤ c && c ≤ 57) = true) : isAlnum c = true := by
  unfold isAlnum; simp only [h, Bool.or_true]

/-- A port is not changed. -/
theorem port_plain {s : Bytes} (h : validOptionalPort s = true) :
    (∀ c ∈ s, shouldEscape c .host = false ∧ c ≠ 37 ∧ c ≠ 93) ∧ unescape .host s = .ok s ∧ escape .host s = s := by
  have key : ∀ c ∈ s, shouldEscape c .host = false ∧ c ≠ 37 ∧ c ≠ 93 := by
    cases s with
    | nil => simp
    | cons x s =>
      simp only [validOptionalPort, Bool.and_eq_true, beq_iff_eq, List.all_eq_true] at h
      obtain ⟨rfl, h⟩ := h
      intro c hc
      rcases List.mem_cons.1 hc with rfl | hc
      · decide
      · have hd := h c hc
        have := digit_alnum (by simpa using hd)
        refine ⟨alnum_plain this _, ?_, ?_⟩ <;> rintro rfl <;> simp [isAlnum, isAlpha] at this
  refine ⟨key, unescape_plain (fun hm => (key _ hm).2.1 rfl) ?_, escape_plain fun c hc => (key c hc).1⟩
  intro c hc
  unfold badByte
  simp [(key c hc).1]

theorem digits_plain {s : Bytes} (h : validOptionalPort (58 :: s) = true) :
    (58 : UInt8) ∉ s ∧ unescape .host s = .ok s ∧ escape .host s = s := by
  have hs : ∀ c ∈ s, shouldEscape c .host = false ∧ c ≠ 37 := fun c hc =>
    ⟨((port_plain h).1 c (by simp [hc])).1, ((port_plain h).1 c (by simp [hc])).2.1⟩
  refine ⟨?_, unescape_plain (fun hm => (hs _ hm).2 rfl) ?_, escape_plain fun c hc => (hs c hc).1⟩
  · intro hm
    simp only [validOptionalPort, Bool.and_eq_true, List.all_eq_true] at h
    have := h.2 58 hm
    simp at this
  · intro c hc
    unfold badByte
    simp [(hs c hc).1]

theorem unescape_head {s t : Bytes} (h : unescape .host s = .ok t) : t.head? = some 91 ↔ s.head? = some 91 := by
  cases s with
  | nil => simp [unescape] at h; subst h; simp
  | cons c s =>
    by_cases hc : c = 37
    · subst hc
      rw [unescape.eq_def] at h
      simp only [if_true] at h
      split at h
      · rename_i a b r
        cases he : escapedByte .host a b with
        | none => rw [he] at h; simp at h
        | some x =>
          rw [he] at h
          simp only at h
          rw [Res.bind_eq_ok] at h
          obtain ⟨t', h1, h2⟩ := h
          rw [← Res.ok.inj h2]
          have : x ≠ 91 := by
            rintro rfl
            rcases escapedByte_host he with h | h
            · exact absurd h (by decide)
            · exact absurd h (by decide)
          simp [this]
      · simp at h
    · obtain ⟨_, t', h1, _⟩ := unescape_cons_ok hc h
      rw [h1]; simp

theorem escape_head {s : Bytes} : (escape .host s).head? = some 91 ↔ s.head? = some 91 := by
  cases s with
  | nil => simp [escape]
  | cons c s =>
    rw [escape_cons]
    unfold escapeByte
    split
    · rename_i hs
      have : c ≠ 91 := by rintro rfl; revert hs; decide
      simp [this]
    · simp

theorem hexVal_eq {c : UInt8} : (hexVal c = some 2 → c = 50) ∧ (hexVal c = some 5 → c = 53) := by
  have key : ∀ n : Fin 256, (hexVal (UInt8.ofNat n) = some 2 → UInt8.ofNat n = 50) ∧
      (hexVal (UInt8.ofNat n) = some 5 → UInt8.ofNat n = 53) := by decide +kernel
  exact byte_cases (P := fun c => (hexVal c = some 2 → c = 50) ∧ (hexVal c = some 5 → c = 53)) key c

theorem escapedByte_percent {m : Mode} {a b : UInt8} (h : escapedByte m a b = some 37) : a = 50 ∧ b = 53 := by
  unfold escapedByte at h
  split at h
  · rename_i u v hu hv
    split at h
    · simp at h
    · have h := Option.some.inj h
      have hu' := hexVal_lt hu
      have hv' := hexVal_lt hv
      have hx : (UInt8.ofNat (16 * u + v)).toNat = 37 := by rw [h]; rfl
      rw [UInt8.toNat_ofNat'] at hx
      have h2 : u = 2 := by omega
      have h5 : v = 5 := by omega
      subst h2; subst h5
      exact ⟨hexVal_eq.1 hu, hexVal_eq.2 hv⟩
  · simp at h

theorem no_percent {s t : Bytes} (h : unescape .host s = .ok t) (hi : index s b!"%25" = none) : (37 : UInt8) ∉ t := by
  rw [index_none_take] at hi
  fun_induction unescape Mode.host s generalizing t with
  | case1 => simp at h; subst h; simp
  | case2 a b r hb => simp at h
  | case3 a b r x hb ih =>
    rw [Res.bind_eq_ok] at h
    obtain ⟨t', h1, h2⟩ := h
    rw [← Res.ok.inj h2]
    simp only [List.mem_cons, not_or]
    refine ⟨?_, ih h1 (fun a' b' e => hi (37 :: a :: b :: a') b' (by rw [e]; rfl))⟩
    rintro rfl
    obtain ⟨rfl, rfl⟩ := escapedByte_percent hb
    exact hi [] r rfl
  | case4 => simp at h
  | case5 => simp at h
  | case6 x s hx hb ih =>
    rw [Res.bind_eq_ok] at h
    obtain ⟨t', h1, h2⟩ := h
    rw [← Res.ok.inj h2]
    simp only [List.mem_cons, not_or]
    exact ⟨Ne.symm hx, ih h1 fun a' b' e => hi (x :: a') b' (by rw [e]; rfl)⟩

theorem shouldEscape_zone (c : UInt8) : shouldEscape c .zone = shouldEscape c .host := by
  unfold shouldEscape; simp

theorem escape_zone (s : Bytes) : escape .zone s = escape .host s := by
  unfold escape
  congr 1
  funext c
  unfold escapeByte
  rw [shouldEscape_zone]

/-- What can be read back has been readable. -/
theorem readable_of_unescape {m : Mode} {s t : Bytes} (h : unescape m (escape m s) = .ok t) : ∀ c ∈ s, Readable m c := by
  induction s generalizing t with
  | nil => simp
  | cons c s ih =>
    rw [escape_cons] at h
    unfold escapeByte at h
    rw [List.forall_mem_cons]
    by_cases hs : shouldEscape c m = true
    · rw [if_pos hs] at h
      have h : unescape m (37 :: _ :: _ :: escape m s) = _ := h
      rw [unescape, if_pos rfl] at h
      unfold escapedByte at h
      rw [(hex_upper c).1, (hex_upper c).2] at h
      simp only at h
      rw [Nat.div_add_mod] at h
      by_cases hb : badEscape m c.toNat = true
      · rw [if_pos hb] at h; simp at h
      · rw [if_neg hb] at h
        simp only at h
        rw [Res.bind_eq_ok] at h
        obtain ⟨t', h1, h2⟩ := h
        exact ⟨by unfold Readable; rw [if_pos hs]; simpa using hb, ih h1⟩
    · rw [if_neg hs] at h
      have hc : c ≠ 37 := by rintro rfl; exact hs (shouldEscape_percent m)
      obtain ⟨h1, t', h2, h3⟩ := unescape_cons_ok hc h
      exact ⟨by unfold Readable; rw [if_neg hs]; exact h1, ih h3⟩

/-- A byte is readable in a zone exactly if it needs no escape in a host or is a space or a percent sign. -/
theorem readable_zone (c : UInt8) : Readable .zone c ↔ shouldEscape c .host = false ∨ c = 37 ∨ c = 32 := by
  have hn : c.toNat = 37 ↔ c = 37 := by rw [← UInt8.toNat_inj]; rfl
  have hn' : c.toNat = 32 ↔ c = 32 := by rw [← UInt8.toNat_inj]; rfl
  unfold Readable badEscape badByte
  rw [shouldEscape_zone]
  by_cases hs : shouldEscape c .host = true
  · simp [hs, ← hn, ← hn', Decidable.or_iff_not_imp_left]
  · simp [hs]

theorem unescape_zone_mem {s t : Bytes} (h : unescape .zone s = .ok t) :
    ∀ c ∈ t, c < 128 → Readable .zone c := by
  fun_induction unescape Mode.zone s generalizing t with
  | case1 => simp at h; subst h; simp
  | case2 a b r hb => simp at h
  | case3 a b r x hb ih =>
    rw [Res.bind_eq_ok] at h
    obtain ⟨t', h1, h2⟩ := h
    rw [← Res.ok.inj h2, List.forall_mem_cons]
    refine ⟨fun _ => ?_, ih h1⟩
    unfold escapedByte at hb
    split at hb
    · rename_i u v hu hv
      split at hb
      · simp at hb
      · rename_i hbad
        have hb := Option.some.inj hb
        have hu' := hexVal_lt hu
        have hv' := hexVal_lt hv
        have hx : x.toNat = 16 * u + v := by rw [← hb, UInt8.toNat_ofNat']; omega
        have hbad : badEscape .zone (16 * u + v) = false := by simpa using hbad
        unfold Readable
        split
        · rw [hx]; exact hbad
        · rename_i hs
          unfold badByte
          simp only [hs]; simp
    · simp at hb
  | case4 => simp at h
  | case5 => simp at h
  | case6 c s hc hb ih =>
    rw [Res.bind_eq_ok] at h
    obtain ⟨t', h1, h2⟩ := h
    rw [← Res.ok.inj h2, List.forall_mem_cons]
    refine ⟨fun h128 => ?_, ih h1⟩
    have hb' : badByte .zone c = false := by simpa using hb
    unfold badByte at hb'
    simp [h128, shouldEscape_zone] at hb'
    exact (readable_zone c).2 (.inl hb')

theorem shouldEscape_high {c : UInt8} (h : ¬ c < 128) (m : Mode) : shouldEscape c m = true := by
  have key : ∀ n : Fin 256, ¬ UInt8.ofNat n < 128 → ∀ m ∈ [Mode.path, .host, .zone, .userPassword, .fragment],
      shouldEscape (UInt8.ofNat n) m = true := by decide +kernel
  exact byte_cases (P := fun c => ¬ c < 128 → ∀ m ∈ [Mode.path, .host, .zone, .userPassword, .fragment],
      shouldEscape c m = true) key c h m (by cases m <;> simp)

/-- A host can be printed and read again, unless it has a zone that is not ASCII. -/
theorem parseHost_again {x h : Bytes} (hp : parseHost x = .ok h) :
    (ZoneOk h → parseHost (escape .host h) = .ok h) ∧ ∀ h', parseHost (escape .host h) = .ok h' → ZoneOk h := by
  unfold parseHost at hp
  split at hp
  · rename_i hx
    unfold bracketHost at hp
    cases hsp : splitLast x 93 with
    | none => rw [hsp] at hp; simp at hp
    | some ab =>
      obtain ⟨before, port⟩ := ab
      rw [hsp] at hp
      simp only at hp
      obtain ⟨hx', h93⟩ := splitLast_some hsp
      split at hp
      · simp at hp
      rename_i hport
      have hport : validOptionalPort port = true := by simpa using hport
      obtain ⟨_, hpu, hpe⟩ := port_plain hport
      cases hi : index before b!"%25" with
      | none =>
        rw [hi] at hp
        simp only at hp
        have hrd := unescape_readable hp
        have hhead : (escape .host h).head? = some 91 := by rw [escape_head, unescape_head hp]; exact hx
        have hp' := hp
        rw [hx'] at hp'
        obtain ⟨ta, tb, g1, g2, g3⟩ := unescape_append_ok (by decide) (by decide) hp'
        rw [hpu] at g2
        have := Res.ok.inj g2
        subst this
        have hn := no_percent g1 hi
        have hesc : escape .host h = escape .host ta ++ 93 :: port := by
          rw [g3, escape_append, escape_cons, hpe]; rfl
        have hok : parseHost (escape .host h) = .ok h := by
          unfold parseHost
          rw [if_pos hhead]
          unfold bracketHost
          have hspl : splitLast (escape .host h) 93 = some (escape .host ta, port) := by
            rw [hesc]; exact splitLast_append h93
          rw [hspl]
          simp only
          rw [hport]
          have := index_escape hn []
          rw [List.append_nil] at this
          rw [this]
          simp only [Bool.not_true, Bool.false_eq_true, if_false, index, List.isEmpty_cons, Option.map_none]
          exact unescape_escape hrd
        refine ⟨fun _ => hok, fun h' _ _ c hc => ?_⟩
        have hnh : (37 : UInt8) ∉ h := by
          rw [g3]
          simp only [List.mem_append, List.mem_cons, not_or]
          exact ⟨hn, by decide, fun hm => ((port_plain hport).1 _ hm).2.1 rfl⟩
        have : h.dropWhile (· != 37) = [] := by
          have := List.dropWhile_append_of_pos (p := (· != 37)) (l₁ := h) (l₂ := []) (by
            intro y hy; simp; rintro rfl; exact hnh hy)
          simpa using this
        rw [this] at hc; simp at hc
      | some z =>
        rw [hi] at hp
        simp only at hp
        obtain ⟨b, hb⟩ := index_some_split hi
        obtain ⟨h1, h2, h3⟩ := hb.resolve_right (by simp)
        rw [h2] at hp
        generalize before.take z = a at hp h1 h3
        unfold zoneHost at hp
        rw [Res.bind_eq_ok] at hp
        obtain ⟨ta, ga, hp⟩ := hp
        rw [Res.bind_eq_ok] at hp
        obtain ⟨ty, gy, hp⟩ := hp
        rw [Res.bind_eq_ok] at hp
        obtain ⟨tz, gz, hp⟩ := hp
        have hp := Res.ok.inj hp
        have htz : tz = 93 :: port := by
          obtain ⟨_, t', e1, e2⟩ := unescape_cons_ok (by decide) gz
          rw [hpu] at e2
          rw [e1, Res.ok.inj e2]
        obtain ⟨y, hy⟩ : ∃ y, ty = 37 :: y := by
          have gy' : unescape .zone (37 :: 50 :: 53 :: b) = .ok ty := gy
          rw [unescape, if_pos rfl] at gy'
          have : escapedByte .zone 50 53 = some 37 := by decide
          rw [this] at gy'
          simp only at gy'
          rw [Res.bind_eq_ok] at gy'
          obtain ⟨t', _, e⟩ := gy'
          exact ⟨t', (Res.ok.inj e).symm⟩
        have hna := no_percent ga h3
        have hrda := unescape_readable ga
        have haN : a.head? = some 91 := by
          rw [hx', h1] at hx
          cases a with
          | nil => simp at hx
          | cons w a => simpa using hx
        have hta : ta.head? = some 91 := (unescape_head ga).2 haN
        have hh : h.head? = some 91 := by
          rw [← hp]
          cases ta with
          | nil => simp at hta
          | cons w ta => simpa using hta
        have hesc : escape .host h = escape .host ta ++ escape .host ty ++ 93 :: port := by
          rw [← hp, htz, escape_append, escape_append, escape_cons, hpe]; rfl
        have hety : escape .host ty = b!"%25" ++ escape .host y := by rw [hy, escape_cons]; rfl
        have hidx : index (escape .host ta ++ escape .host ty) b!"%25" = some (escape .host ta).length := by
          rw [index_escape hna, hety]
          have : index (b!"%25" ++ escape .host y) b!"%25" = some 0 := rfl
          rw [this]; simp
        have hval : parseHost (escape .host h) =
            zoneHost (escape .host ta) (escape .host ty) (93 :: port) := by
          unfold parseHost
          rw [if_pos (escape_head.2 hh)]
          unfold bracketHost
          rw [hesc, splitLast_append h93]
          simp only
          rw [hport, hidx]
          simp
        have hdrop : h.dropWhile (· != 37) = ty ++ 93 :: port := by
          rw [← hp, htz, hy, List.append_assoc, List.dropWhile_append_of_pos]
          · simp
          · intro w hw; simp; rintro rfl; exact hna hw
        rw [hval]
        constructor
        · intro hz
          have hz := hz hh
          rw [hdrop] at hz
          have hrd : ∀ c ∈ ty, Readable .zone c := fun c hc =>
            unescape_zone_mem gy c hc (hz c (List.mem_append_left _ hc))
          unfold zoneHost
          rw [unescape_escape hrda, ← escape_zone, unescape_escape hrd, gz]
          show Res.ok (ta ++ ty ++ tz) = _
          rw [hp]
        · intro h' hz _
          unfold zoneHost at hz
          rw [unescape_escape hrda, Res.bind_ok, Res.bind_eq_ok] at hz
          obtain ⟨t', hz, _⟩ := hz
          rw [← escape_zone] at hz
          have hrd := readable_of_unescape hz
          rw [hdrop]
          intro c hc
          rcases List.mem_append.1 hc with hc | hc
          · apply Decidable.byContradiction
            intro hn
            rcases (readable_zone c).1 (hrd c hc) with h | rfl | rfl
            · rw [shouldEscape_high hn] at h; simp at h
            · exact hn (by decide)
            · exact hn (by decide)
          · apply Decidable.byContradiction
            intro hn
            rcases List.mem_cons.1 hc with rfl | hc
            · exact hn (by decide)
            · have := ((port_plain hport).1 c hc).1
              rw [shouldEscape_high hn] at this; simp at this
  · rename_i hx
    have hun : unescape .host x = .ok h := by
      split at hp
      · exact hp
      · split at hp
        · simp at hp
        · exact hp
    have hhh : h.head? ≠ some 91 := by rw [Ne, unescape_head hun]; exact hx
    refine ⟨fun _ => ?_, fun _ _ h91 => absurd h91 hhh⟩
    unfold parseHost
    rw [if_neg (by rw [escape_head]; exact hhh)]
    cases hsp : splitLast x 58 with
    | none =>
      have h58 : (58 : UInt8) ∉ escape .host h := fun hm =>
        splitLast_none.1 hsp (unescape_host_mem hun (by decide) (by decide) (mem_escape_plain (by decide) (by decide) hm))
      rw [splitLast_none.2 h58]
      exact unescape_escape (unescape_readable hun)
    | some ab =>
      obtain ⟨a, port⟩ := ab
      rw [hsp] at hp
      simp only at hp
      obtain ⟨hx', _⟩ := splitLast_some hsp
      split at hp
      · simp at hp
      rename_i hport
      have hport : validOptionalPort (58 :: port) = true := by simpa using hport
      obtain ⟨h58, hpu, hpe⟩ := digits_plain hport
      have hun' := hun
      rw [hx'] at hun'
      obtain ⟨ta, tb, g1, g2, g3⟩ := unescape_append_ok (by decide) (by decide) hun'
      rw [hpu] at g2
      have := Res.ok.inj g2
      subst this
      have hesc : escape .host h = escape .host ta ++ 58 :: port := by
        rw [g3, escape_append, escape_cons, hpe]; rfl
      have hspl : splitLast (escape .host h) 58 = some (escape .host ta, port) := by
        rw [hesc]; exact splitLast_append h58
      rw [hspl]
      simp only
      rw [hport]
      exact unescape_escape (unescape_readable hun)

/-! ### Users -/

theorem userByte_ok {c : UInt8} (h : c = 37 ∨ shouldEscape c .userPassword = false) :
    (isAlnum c || decide (c ∈ b!"-._:~!$&'()*+,;=%@")) = true := by
  have key : ∀ n : Fin 256, (UInt8.ofNat n = 37 ∨ shouldEscape (UInt8.ofNat n) .userPassword = false) →
      (isAlnum (UInt8.ofNat n) || decide (UInt8.ofNat n ∈ b!"-._:~!$&'()*+,;=%@")) = true := by decide +kernel
  exact byte_cases (P := fun c => (c = 37 ∨ shouldEscape c .userPassword = false) →
    (isAlnum c || decide (c ∈ b!"-._:~!$&'()*+,;=%@")) = true) key c h

theorem validUserinfo_escape (s : Bytes) : validUserinfo (escape .userPassword s) = true := by
  unfold validUserinfo
  rw [List.all_eq_true]
  intro c hc
  exact userByte_ok (mem_escape hc)

/-- The text of the authority. -/
theorem parseAuthority_again {x h : Bytes} {user : Option (Bytes × Option Bytes)} (hp : parseAuthority x = .ok (user, h)) :
    (ZoneOk h → parseAuthority (userText user ++ escape .host h) = .ok (user, h)) ∧
    ∀ r, parseAuthority (userText user ++ escape .host h) = .ok r → ZoneOk h := by
  obtain ⟨y, hy⟩ : ∃ y, parseHost y = .ok h := by
    unfold parseAuthority at hp
    split at hp
    · rw [Res.bind_eq_ok] at hp
      obtain ⟨h', h1, h2⟩ := hp
      have := Res.ok.inj h2
      simp only [Prod.mk.injEq] at this
      exact ⟨_, by rw [h1, this.2]⟩
    · rw [Res.bind_eq_ok] at hp
      obtain ⟨h', h1, h2⟩ := hp
      split at h2
      · simp at h2
      · rw [Res.bind_eq_ok] at h2
        obtain ⟨u, _, h3⟩ := h2
        have := Res.ok.inj h3
        simp only [Prod.mk.injEq] at this
        exact ⟨_, by rw [h1, this.2]⟩
  have hg := parseHost_again hy
  have n64 : (64 : UInt8) ∉ escape .host h := not_mem_escape (by decide) (by decide)
  have key : ∀ info, ∀ usr, user = some usr → userText user = info ++ b!"@" → validUserinfo info = true → parseUser info = .ok usr →
      parseAuthority (userText user ++ escape .host h) = parseHost (escape .host h) >>= fun h => .ok (user, h) := by
    intro info usr hu hi hv hpu
    rw [hi, hu]
    unfold parseAuthority
    have : info ++ b!"@" ++ escape .host h = info ++ 64 :: escape .host h := by simp
    rw [this, splitLast_append n64]
    simp only
    rw [hv, hpu]
    rfl
  have hall : parseAuthority (userText user ++ escape .host h) = parseHost (escape .host h) >>= fun h => .ok (user, h) := by
    match user with
    | none =>
      show parseAuthority ([] ++ escape .host h) = _
      rw [List.nil_append]
      unfold parseAuthority
      rw [splitLast_none.2 n64]
    | some (n, none) =>
      refine key (escape .userPassword n) (n, none) rfl rfl (validUserinfo_escape n) ?_
      unfold parseUser
      rw [if_neg (not_mem_escape (by decide) (by decide)),
        unescape_escape (fun c _ => readable_path _ (by decide) (by decide) c)]
      rfl
    | some (n, some pw) =>
      refine key (escape .userPassword n ++ b!":" ++ escape .userPassword pw) (n, some pw) rfl rfl ?_ ?_
      · have h1 := validUserinfo_escape n
        have h2 := validUserinfo_escape pw
        unfold validUserinfo at *
        rw [List.all_append, List.all_append, h1, h2]
        decide
      · unfold parseUser
        have : escape .userPassword n ++ b!":" ++ escape .userPassword pw =
          escape .userPassword n ++ 58 :: escape .userPassword pw := by simp
        rw [this, if_pos (by simp), cut_append (not_mem_escape (by decide) (by decide)),
          unescape_escape (fun c _ => readable_path _ (by decide) (by decide) c),
          unescape_escape (fun c _ => readable_path _ (by decide) (by decide) c)]
        rfl
  rw [hall]
  constructor
  · intro hz
    rw [hg.1 hz]; rfl
  · intro r hr
    rw [Res.bind_eq_ok] at hr
    obtain ⟨h', h1, _⟩ := hr
    exact hg.2 h' h1

/-! ### What `Parse` delivers -/

/-- The parts of a URL with a host. -/
structure Parsed (u : URL) : Prop where
  authority : ∃ x, parseAuthority x = .ok (u.user, u.host)
  opaq : u.opaq = []
  omitHost : u.omitHost = false
  raw : u.rawPath = [] ∨ u.rawPath.head? = some 47
  path : u.path = [] ∨ u.path.head? = some 47
  query : ∀ c ∈ u.rawQuery, 32 ≤ c ∧ c ≠ 127 ∧ c ≠ 35
  force : u.forceQuery = true → u.rawQuery = []

theorem splitQuery_mem (s : Bytes) : (∀ c ∈ (splitQuery s).2.2, c ∈ s) ∧ ((splitQuery s).2.1 = true → (splitQuery s).2.2 = []) := by
  unfold splitQuery
  split
  · simp
  · refine ⟨?_, by simp⟩
    intro c hc
    simp only at hc
    unfold cut at hc
    exact (List.dropWhile_sublist _).subset (List.mem_of_mem_drop hc)

theorem getScheme_mem {s : Bytes} {x : Bytes × Bytes} (h : getScheme s = .ok x) : ∀ c ∈ x.2, c ∈ s := by
  unfold getScheme at h
  rw [Res.bind_eq_ok] at h
  obtain ⟨o, h1, h2⟩ := h
  cases o with
  | none => simp at h2; subst h2; simp
  | some j =>
    simp at h2; subst h2
    intro c hc
    exact List.mem_of_mem_drop hc

theorem cut_fst_mem (s : Bytes) (c : UInt8) : (∀ x ∈ (cut s c).1, x ∈ s) ∧ c ∉ (cut s c).1 := by
  rcases cut_eq s c with ⟨h1, h2⟩ | ⟨a, b, h1, h2, h3⟩
  · rw [h2]; exact ⟨fun _ h => h, h1⟩
  · rw [h3]; exact ⟨fun x hx => by rw [h2]; simp [hx], h1⟩

theorem hasPrefix_iff {s p : Bytes} : hasPrefix s p = true ↔ p <+: s := by
  unfold hasPrefix; exact List.isPrefixOf_iff_prefix

theorem hasPrefix_false {s p : Bytes} : hasPrefix s p = false ↔ ¬ p <+: s := by
  rw [← hasPrefix_iff]; simp

theorem isCtl_iff (c : UInt8) : isCtl c = true ↔ ¬ (32 ≤ c ∧ c ≠ 127) := by
  unfold isCtl
  simp only [Bool.or_eq_true, decide_eq_true_eq, beq_iff_eq, UInt8.le_iff_toNat_le, UInt8.lt_iff_toNat_lt]
  constructor
  · rintro (h | h) ⟨h1, h2⟩
    · simp at h h1; omega
    · exact h2 h
  · intro h
    by_cases h1 : c = 127
    · exact .inr h1
    · left
      simp only [not_and] at h
      simp at h ⊢
      by_cases h2 : 32 ≤ c.toNat
      · exact absurd (h h2) h1
      · omega

theorem any_isCtl (p : Bytes) : p.any isCtl = false ↔ ∀ c ∈ p, 32 ≤ c ∧ c ≠ 127 := by
  rw [List.any_eq_false]
  apply forall_congr'; intro c
  apply imp_congr_right; intro _
  rw [isCtl_iff, Decidable.not_not]


theorem setPath_raw {u v : URL} {p : Bytes} (h : setPath u p = .ok v) (hp : p = [] ∨ p.head? = some 47) :
    (v.rawPath = [] ∨ v.rawPath.head? = some 47) ∧ (v.path = [] ∨ v.path.head? = some 47) := by
  unfold setPath at h
  rw [Res.bind_eq_ok] at h
  obtain ⟨q, h1, h2⟩ := h
  have := Res.ok.inj h2
  subst this
  simp only
  constructor
  · split
    · exact .inl rfl
    · rename_i hne
      rcases hp with rfl | hp
      · exact .inl rfl
      · exact .inr hp
  · rcases hp with rfl | hp
    · left; exact (Res.ok.inj h1).symm
    · right
      cases p with
      | nil => simp at hp
      | cons c p =>
        have hc : c = 47 := by simpa using hp
        subst hc
        obtain ⟨_, t', h3, _⟩ := unescape_cons_ok (by decide) h1
        rw [h3]; rfl

theorem dropWhile_slash (s : Bytes) : s.dropWhile (· != 47) = [] ∨ (s.dropWhile (· != 47)).head? = some 47 := by
  induction s with
  | nil => exact .inl rfl
  | cons c s ih =>
    by_cases h : c = 47
    · subst h; right; rfl
    · rw [List.dropWhile_cons, if_pos (by simpa using h)]; exact ih

theorem parseRest_parsed {u v : URL} {s : Bytes} (h : parseRest u s = .ok v) (h0 : u.host = []) (h1 : u.opaq = [])
    (h2 : u.omitHost = false) (hv : v.host ≠ []) (h3 : ∀ c ∈ u.rawQuery, 32 ≤ c ∧ c ≠ 127 ∧ c ≠ 35)
    (h4 : u.forceQuery = true → u.rawQuery = []) : Parsed v := by
  unfold parseRest at h
  split at h
  · split at h
    · rw [← Res.ok.inj h] at hv; exact absurd h0 hv
    · split at h
      · simp at h
      · have := (setPath_ok h).2
        rw [this] at hv; exact absurd h0 hv
  · split at h
    · rw [Res.bind_eq_ok] at h
      obtain ⟨uh, g1, g2⟩ := h
      obtain ⟨g3, g4⟩ := setPath_raw g2 (dropWhile_slash _)
      have g5 := (setPath_ok g2).2
      refine ⟨⟨(s.drop 2).takeWhile (· != 47), ?_⟩, ?_, ?_, g3, g4, ?_, ?_⟩
      · rw [g5]; exact g1
      · rw [g5]; exact h1
      · rw [g5]; exact h2
      · rw [g5]; exact h3
      · rw [g5]; exact h4
    · have := (setPath_ok h).2
      rw [this] at hv; exact absurd h0 hv

theorem parse_parsed {uri : Bytes} {u : URL} (h : parse uri = .ok u) (hh : u.host ≠ []) : Parsed u := by
  unfold parse at h
  rw [Res.bind_eq_ok] at h
  obtain ⟨v, h1, h2⟩ := h
  suffices hv : v.host ≠ [] → Parsed v by
    split at h2
    · rw [← Res.ok.inj h2] at hh ⊢; exact hv hh
    · have e := setFragment_ok h2
      rw [e] at hh ⊢
      obtain ⟨a, b, c, d, e, f, g⟩ := hv hh
      exact ⟨a, b, c, d, e, f, g⟩
  intro hv
  obtain ⟨_, n35⟩ := cut_fst_mem uri 35
  unfold parseNoFrag at h1
  split at h1
  · simp at h1
  rename_i hctl
  have hctl : (cut uri 35).1.any isCtl = false := by simpa using hctl
  rw [any_isCtl] at hctl
  split at h1
  · rw [← Res.ok.inj h1] at hv; exact absurd rfl hv
  rw [Res.bind_eq_ok] at h1
  obtain ⟨sr, h3, h4⟩ := h1
  refine parseRest_parsed h4 rfl rfl rfl hv ?_ ?_
  · intro c hc
    have := getScheme_mem h3 c ((splitQuery_mem sr.2).1 c hc)
    refine ⟨(hctl c this).1, (hctl c this).2, ?_⟩
    rintro rfl; exact n35 this
  · exact (splitQuery_mem sr.2).2

/-! ### Printing -/

/-- Bytes that can stand in the text before a query. -/
def TextByte (c : UInt8) : Prop := 32 ≤ c ∧ c ≠ 127 ∧ c ≠ 35 ∧ c ≠ 63

instance (c : UInt8) : Decidable (TextByte c) := by unfold TextByte; infer_instance

theorem escape_text (m : Mode) (hm : m ≠ .fragment) (s : Bytes) : ∀ c ∈ escape m s, TextByte c := by
  intro c hc
  have key : ∀ n : Fin 256, ∀ m ∈ [Mode.path, .host, .zone, .userPassword],
      (UInt8.ofNat n = 37 ∨ shouldEscape (UInt8.ofNat n) m = false) → TextByte (UInt8.ofNat n) := by decide +kernel
  exact byte_cases (P := fun c => ∀ m ∈ [Mode.path, .host, .zone, .userPassword],
      (c = 37 ∨ shouldEscape c m = false) → TextByte c) key c m (by cases m <;> simp_all) (mem_escape hc)

theorem valid_text {s : Bytes} (h : validEncoded .path s = true) : ∀ c ∈ s, TextByte c := by
  intro c hc
  unfold validEncoded at h
  rw [List.all_eq_true] at h
  have key : ∀ n : Fin 256, (decide (UInt8.ofNat n ∈ b!"!$&'()*+,;=:@[]%") || !shouldEscape (UInt8.ofNat n) .path) = true →
      TextByte (UInt8.ofNat n) := by decide +kernel
  exact byte_cases (P := fun c => (decide (c ∈ b!"!$&'()*+,;=:@[]%") || !shouldEscape c .path) = true → TextByte c) key c (h c hc)

/-- What is printed for the path. -/
theorem escapedPath_props (u : URL) (hp : u.path ≠ []) (hr : u.rawPath = [] ∨ u.rawPath.head? = some 47) :
    unescape .path u.escapedPath = .ok u.path ∧ (∀ c ∈ u.escapedPath, TextByte c) ∧ u.escapedPath ≠ [] ∧
    (u.escapedPath.head? = some 47 ↔ u.path.head? = some 47) := by
  have hne : ∀ e : Bytes, unescape .path e = .ok u.path → e ≠ [] := by
    rintro e h rfl
    exact hp (Res.ok.inj h).symm
  have hesc : unescape .path (escape .path u.path) = .ok u.path :=
    unescape_escape (fun c _ => readable_path _ (by decide) (by decide) c)
  unfold URL.escapedPath
  split
  · rename_i h
    obtain ⟨h1, h2, h3⟩ := h
    refine ⟨h3, valid_text h2, h1, ?_⟩
    have h4 := hr.resolve_left h1
    cases hx : u.rawPath with
    | nil => exact absurd hx h1
    | cons c s =>
      rw [hx] at h3 h4
      have : c = 47 := by simpa using h4
      subst this
      obtain ⟨_, t', h5, _⟩ := unescape_cons_ok (by decide) h3
      rw [h5]; simp
  · split
    · rename_i hs
      rw [hs]
      refine ⟨by decide, by decide, by decide, by simp⟩
    · refine ⟨hesc, escape_text _ (by decide) _, escape_ne_nil hp, ?_⟩
      cases hx : u.path with
      | nil => exact absurd hx hp
      | cons c s =>
        rw [escape_cons]
        unfold escapeByte
        split
        · rename_i hc
          have : c ≠ 47 := by rintro rfl; revert hc; decide
          simp [this]
        · simp

theorem escapedFragment_props (u : URL) (h : u.fragment ≠ []) : u.escapedFragment ≠ [] ∧
    unescape .fragment u.escapedFragment = .ok u.fragment := by
  have hu : unescape .fragment u.escapedFragment = .ok u.fragment := by
    unfold URL.escapedFragment
    split
    · rename_i h; exact h.2.2
    · exact unescape_escape (fun c _ => readable_path _ (by decide) (by decide) c)
  refine ⟨?_, hu⟩
  intro e
  rw [e] at hu
  exact h (Res.ok.inj hu).symm

/-- The text of a query. -/
def queryText (u : URL) : Bytes := if u.forceQuery = true ∨ u.rawQuery ≠ [] then b!"?" ++ u.rawQuery else []

theorem splitQuery_text {a : Bytes} (u : URL) (ha : (63 : UInt8) ∉ a) (hf : u.forceQuery = true → u.rawQuery = []) :
    splitQuery (a ++ queryText u) = (a, u.forceQuery, u.rawQuery) := by
  unfold queryText
  by_cases hr : u.rawQuery = []
  · cases hq : u.forceQuery with
    | false => simp [hr, splitQuery_none ha]
    | true =>
      rw [if_pos (.inl rfl), hr]
      unfold splitQuery
      rw [if_pos]
      · simp
      · constructor
        · simp
        · simp [List.count_eq_zero.2 ha]
  · have hq : u.forceQuery = false := by
      cases h : u.forceQuery with
      | false => rfl
      | true => exact absurd (hf h) hr
    rw [if_pos (.inr hr), hq]
    unfold splitQuery
    rw [if_neg, show a ++ (b!"?" ++ u.rawQuery) = a ++ 63 :: u.rawQuery from rfl, cut_append ha]
    rintro ⟨h1, h2⟩
    rw [List.count_append, List.count_append, List.count_eq_zero.2 ha] at h2
    have h3 : List.count 63 u.rawQuery = 0 := by simpa using h2
    rw [List.count_eq_zero] at h3
    apply h3
    rw [← List.append_assoc] at h1
    rw [List.getLast?_append] at h1
    cases hl : u.rawQuery.getLast? with
    | none => exact absurd (List.getLast?_eq_none_iff.1 hl) hr
    | some x =>
      rw [hl] at h1
      simp at h1
      rw [← h1]
      exact List.mem_of_getLast? hl

/-- A URL with a host and another path, printed and parsed again. -/
theorem parse_string {u : URL} (hu : Parsed u) (hs : u.scheme = b!"http" ∨ u.scheme = b!"https") (hh : u.host ≠ [])
    (P : Bytes) (hP : P ≠ []) :
    (ZoneOk u.host → ∃ r, parse (URL.string { u with path := P }) = .ok r ∧ r.scheme = u.scheme ∧ r.opaq = [] ∧
      r.user = u.user ∧ r.host = u.host ∧ r.path = (if P.head? = some 47 then P else b!"/" ++ P) ∧ r.omitHost = false ∧
      r.forceQuery = u.forceQuery ∧ r.rawQuery = u.rawQuery ∧ r.fragment = u.fragment) ∧
    ∀ r, parse (URL.string { u with path := P }) = .ok r → ZoneOk u.host := by
  obtain ⟨x, hx⟩ := hu.authority
  have hag := parseAuthority_again hx
  obtain ⟨e1, e2, e3, e4⟩ := escapedPath_props { u with path := P } hP hu.raw
  generalize hE : URL.escapedPath { u with path := P } = E at e1 e2 e3 e4
  simp only at e1 e4
  have hs0 : u.scheme ≠ [] := by rcases hs with h | h <;> rw [h] <;> decide
  -- the path text
  let PT : Bytes := if P.head? = some 47 then E else b!"/" ++ E
  have hPT : PT.head? = some 47 ∧ unescape .path PT = .ok (if P.head? = some 47 then P else b!"/" ++ P) ∧
      (∀ c ∈ PT, TextByte c) := by
    by_cases h47 : P.head? = some 47
    · simp only [PT, if_pos h47]
      exact ⟨e4.2 h47, e1, e2⟩
    · simp only [PT, if_neg h47]
      refine ⟨rfl, ?_, ?_⟩
      · show unescape .path (47 :: E) = _
        rw [unescape_other (by decide), e1]
        rfl
      · intro c hc
        rcases List.mem_append.1 hc with hc | hc
        · simp at hc; subst hc; decide
        · exact e2 c hc
  let A : Bytes := b!"//" ++ (userText u.user ++ escape .host u.host ++ PT)
  let F : Bytes := if u.fragment ≠ [] then b!"#" ++ u.escapedFragment else []
  have hstr : URL.string { u with path := P } = u.scheme ++ b!":" ++ (A ++ queryText u) ++ F := by
    unfold URL.string URL.authorityText URL.pathText
    simp only [hE]
    have h1 : ¬ ((u.omitHost = true) ∧ u.host = [] ∧ u.user = none) := fun h => hh h.2.1
    have hF : URL.escapedFragment { u with path := P } = u.escapedFragment := rfl
    rw [if_pos hs0, if_neg (by simp [hu.opaq]), if_pos (.inl hs0), if_neg h1, if_pos (.inl hh), hF]
    have hp : (if E ≠ [] ∧ E.head? ≠ some 47 ∧ u.host ≠ [] then b!"/" else []) = if P.head? = some 47 then [] else b!"/" := by
      by_cases h47 : P.head? = some 47
      · rw [if_pos h47, if_neg (fun h => h.2.1 (e4.2 h47))]
      · rw [if_neg h47, if_pos ⟨e3, fun h => h47 (e4.1 h), hh⟩]
    rw [hp]
    have hb : ¬ ((u.scheme ++ b!":" ++ (b!"//" ++ userText u.user ++ escape .host u.host) ++
        (if P.head? = some 47 then [] else b!"/") = []) ∧ (58 : UInt8) ∈ (cut E 47).1) := by
      intro h; simp at h
    rw [if_neg hb]
    simp only [A, F, PT, queryText]
    by_cases h47 : P.head? = some 47
    · simp only [if_pos h47]; simp
    · simp only [if_neg h47]; simp
  have hut : ∀ c ∈ userText u.user, TextByte c ∧ c ≠ 47 := by
    have he : ∀ s, ∀ c ∈ escape .userPassword s, TextByte c ∧ c ≠ 47 := fun s c hc =>
      ⟨escape_text _ (by decide) s c hc, by rintro rfl; exact not_mem_escape (by decide) (by decide) hc⟩
    intro c hc
    match hu : u.user, hc with
    | none, hc => simp [userText] at hc
    | some (n, none), hc =>
      simp only [userText] at hc
      rcases List.mem_append.1 hc with hc | hc
      · exact he n c hc
      · simp at hc; subst hc; decide
    | some (n, some pw), hc =>
      simp only [userText, List.append_assoc] at hc
      rcases List.mem_append.1 hc with hc | hc
      · exact he n c hc
      rcases List.mem_append.1 hc with hc | hc
      · simp at hc; subst hc; decide
      rcases List.mem_append.1 hc with hc | hc
      · exact he pw c hc
      · simp at hc; subst hc; decide
  have hht : ∀ c ∈ escape .host u.host, TextByte c ∧ c ≠ 47 := fun c hc =>
    ⟨escape_text _ (by decide) _ c hc, by rintro rfl; exact not_mem_escape (by decide) (by decide) hc⟩
  have hA : ∀ c ∈ A, TextByte c := by
    intro c hc
    simp only [A, List.mem_append] at hc
    rcases hc with hc | (hc | hc) | hc
    · simp at hc; subst hc; decide
    · exact (hut c hc).1
    · exact (hht c hc).1
    · exact hPT.2.2 c hc
  have hSt : ∀ c ∈ u.scheme ++ b!":", TextByte c := by
    rcases hs with h | h <;> rw [h] <;> decide
  have hQ : ∀ c ∈ queryText u, 32 ≤ c ∧ c ≠ 127 ∧ c ≠ 35 := by
    intro c hc
    unfold queryText at hc
    split at hc
    · rcases List.mem_append.1 hc with hc | hc
      · simp at hc; subst hc; decide
      · exact hu.query c hc
    · simp at hc
  have hall : ∀ c ∈ u.scheme ++ b!":" ++ (A ++ queryText u), 32 ≤ c ∧ c ≠ 127 ∧ c ≠ 35 := by
    intro c hc
    rcases List.mem_append.1 hc with hc | hc
    · exact ⟨(hSt c hc).1, (hSt c hc).2.1, (hSt c hc).2.2.1⟩
    rcases List.mem_append.1 hc with hc | hc
    · exact ⟨(hA c hc).1, (hA c hc).2.1, (hA c hc).2.2.1⟩
    · exact hQ c hc
  have n35 : (35 : UInt8) ∉ u.scheme ++ b!":" ++ (A ++ queryText u) := fun hm => (hall _ hm).2.2 rfl
  have hcut : cut (URL.string { u with path := P }) 35 =
      (u.scheme ++ b!":" ++ (A ++ queryText u), if u.fragment ≠ [] then u.escapedFragment else []) := by
    rw [hstr]
    simp only [F]
    split
    · exact cut_append n35
    · rw [List.append_nil]; exact cut_none n35
  have hsch : getScheme (u.scheme ++ b!":" ++ (A ++ queryText u)) = .ok (u.scheme, A ++ queryText u) := by
    rcases hs with h | h <;> rw [h] <;> rfl
  have hlow : u.scheme.map lowerByte = u.scheme := by
    rcases hs with h | h <;> rw [h] <;> decide
  have hstar : u.scheme ++ b!":" ++ (A ++ queryText u) ≠ b!"*" := by
    rcases hs with h | h <;> rw [h] <;> simp
  -- everything before the fragment
  let base : URL := { URL.zero with scheme := u.scheme, forceQuery := u.forceQuery, rawQuery := u.rawQuery }
  have hno : parseNoFrag (u.scheme ++ b!":" ++ (A ++ queryText u)) =
      parseAuthority (userText u.user ++ escape .host u.host) >>= fun uh =>
        setPath { base with user := uh.1, host := uh.2 } PT := by
    unfold parseNoFrag
    rw [(any_isCtl _).2 fun c hc => ⟨(hall c hc).1, (hall c hc).2.1⟩]
    rw [if_neg (by simp), if_neg hstar, hsch, Res.bind_ok]
    simp only
    rw [splitQuery_text u (fun hm => (hA _ hm).2.2.2 rfl) hu.force, hlow]
    unfold parseRest
    simp only
    rw [if_neg (by simp [A]), if_pos ⟨.inl hs0, rfl⟩]
    have hd : A.drop 2 = userText u.user ++ escape .host u.host ++ PT := rfl
    have hpos : ∀ c ∈ userText u.user ++ escape .host u.host, (c != 47) = true := by
      intro c hc
      rcases List.mem_append.1 hc with hc | hc
      · simpa using (hut c hc).2
      · simpa using (hht c hc).2
    obtain ⟨q, hq⟩ : ∃ q, PT = 47 :: q := by
      have := hPT.1
      cases h : PT with
      | nil => rw [h] at this; simp at this
      | cons c q => rw [h] at this; simp at this; subst this; exact ⟨q, rfl⟩
    rw [hd, List.takeWhile_append_of_pos hpos, List.dropWhile_append_of_pos hpos, hq]
    simp [base]
  constructor
  · intro hz
    unfold parse
    rw [hcut]
    simp only
    rw [hno, hag.1 hz, Res.bind_ok]
    simp only
    unfold setPath
    rw [hPT.2.1, Res.bind_ok, Res.bind_ok]
    by_cases hf : u.fragment = []
    · have hff : (if u.fragment ≠ [] then u.escapedFragment else []) = [] := if_neg (by simp [hf])
      rw [hff, if_pos rfl]
      exact ⟨_, rfl, rfl, rfl, rfl, rfl, rfl, rfl, rfl, rfl, by rw [hf]; rfl⟩
    · obtain ⟨f1, f2⟩ := escapedFragment_props u hf
      have hff : (if u.fragment ≠ [] then u.escapedFragment else []) = u.escapedFragment := if_pos hf
      rw [hff, if_neg f1]
      unfold setFragment
      rw [f2, Res.bind_ok]
      exact ⟨_, rfl, rfl, rfl, rfl, rfl, rfl, rfl, rfl, rfl, rfl⟩
  · intro r hr
    unfold parse at hr
    rw [hcut] at hr
    simp only at hr
    rw [hno, Res.bind_eq_ok] at hr
    obtain ⟨v, h1, _⟩ := hr
    rw [Res.bind_eq_ok] at h1
    obtain ⟨uh, h2, _⟩ := h1
    exact hag.2 uh h2

end Verif.GoUrl
