import Verif.Lemmas.JsonUtf8
import Verif.Lemmas.HashText

/-! # Lemmas: JSON strings, read -/

namespace Verif.GoJson
open Verif.Spec Verif.GoLib

theorem hex4_iff {s r : Bytes} {n : Nat} : hex4 s = some (n, r) ↔ ∃ h, s = h ++ r ∧ Hex4 h n := by
  constructor
  · intro h
    match s, h with
    | a :: b :: c :: d :: r', h =>
      simp only [hex4, Option.bind_eq_bind, Option.bind_eq_some_iff, Option.some.injEq, Prod.mk.injEq] at h
      obtain ⟨w, hw, x, hx, y, hy, z, hz, hn, rfl⟩ := h
      rw [Nixhash.hexVal_iff] at hw hx hy hz
      exact ⟨[a, b, c, d], rfl, a, b, c, d, w, x, y, z, rfl, hw, hx, hy, hz, by omega⟩
    | [], h => simp [hex4] at h
    | [_], h => simp [hex4] at h
    | [_, _], h => simp [hex4] at h
    | [_, _, _], h => simp [hex4] at h
  · rintro ⟨h, rfl, a, b, c, d, w, x, y, z, rfl, hw, hx, hy, hz, rfl⟩
    rw [← Nixhash.hexVal_iff] at hw hx hy hz
    simp only [List.cons_append, List.nil_append, hex4, hw, hx, hy, hz, Option.bind_eq_bind, Option.bind_some]

theorem hex4_len {h : Bytes} {n : Nat} (hh : Hex4 h n) : h.length = 4 := by
  obtain ⟨a, b, c, d, w, x, y, z, rfl, _⟩ := hh
  rfl

theorem hex4_lt {h : Bytes} {n : Nat} (hh : Hex4 h n) : n < 0x10000 := by
  obtain ⟨a, b, c, d, w, x, y, z, rfl, hw, hx, hy, hz, rfl⟩ := hh
  have lt : ∀ {c : UInt8} {v : Nat}, HexDigit c v → v < 16 := by
    intro c v h
    rcases h with h | h
    · have := (List.getElem?_eq_some_iff.1 h).1; simpa using this
    · have := (List.getElem?_eq_some_iff.1 h).1; simpa using this
  have := lt hw
  have := lt hx
  have := lt hy
  have := lt hz
  omega

theorem hexDigit_ne {c : UInt8} {v : Nat} (h : HexDigit c v) : c ≠ 34 ∧ c ≠ 92 := by
  rw [← Nixhash.hexVal_iff] at h
  constructor
  · rintro rfl; revert h; simp [hexVal]
  · rintro rfl; revert h; simp [hexVal]

theorem hex4_no {h : Bytes} {n : Nat} (hh : Hex4 h n) : 34 ∉ h := by
  obtain ⟨a, b, c, d, w, x, y, z, rfl, hw, hx, hy, hz, rfl⟩ := hh
  have := (hexDigit_ne hw).1
  have := (hexDigit_ne hx).1
  have := (hexDigit_ne hy).1
  have := (hexDigit_ne hz).1
  simp only [List.mem_cons, List.not_mem_nil, or_false]
  rintro (h | h | h | h) <;> simp_all

theorem lowSurrogate_iff {s r : Bytes} {n : Nat} : lowSurrogate s = some (n, r) ↔
    ∃ h, s = b!"\\u" ++ h ++ r ∧ Hex4 h n ∧ 0xDC00 ≤ n ∧ n < 0xE000 := by
  constructor
  · intro h
    unfold lowSurrogate at h
    split at h
    · split at h
      · rename_i hx
        split at h
        · rename_i hr
          cases h
          obtain ⟨g, hg, hh⟩ := hex4_iff.1 hx
          exact ⟨g, by rw [hg]; rfl, hh, hr⟩
        · cases h
      · cases h
    · cases h
  · rintro ⟨h, rfl, hh, hr⟩
    have e : b!"\\u" ++ h ++ r = 92 :: 117 :: (h ++ r) := rfl
    rw [e]
    simp only [lowSurrogate, hex4_iff.2 ⟨h, rfl, hh⟩]
    rw [if_pos hr]

theorem lowSurrogate_none {s : Bytes} : lowSurrogate s = none ↔ ¬ StartsLow s := by
  constructor
  · rintro h ⟨g, n, s', hs, hh, hr⟩
    rw [lowSurrogate_iff.2 ⟨g, hs, hh, hr⟩] at h
    cases h
  · intro h
    cases he : lowSurrogate s with
    | none => rfl
    | some x =>
      obtain ⟨n, r⟩ := x
      obtain ⟨g, hs, hh, hr⟩ := lowSurrogate_iff.1 he
      exact absurd ⟨g, n, r, hs, hh, hr⟩ h

theorem simpleEsc_iff {e x : UInt8} : simpleEsc e = some x ↔ (e, x) ∈ escapeTable := by
  unfold simpleEsc escapeTable
  simp only [List.mem_cons, Prod.mk.injEq, List.not_mem_nil, or_false]
  constructor
  · intro h
    repeat' split at h
    all_goals first | cases h; simp_all | cases h
  · rintro (⟨rfl, rfl⟩ | ⟨rfl, rfl⟩ | ⟨rfl, rfl⟩ | ⟨rfl, rfl⟩ | ⟨rfl, rfl⟩ | ⟨rfl, rfl⟩ | ⟨rfl, rfl⟩ | ⟨rfl, rfl⟩) <;> rfl

/-- characters do not contain quotes after their first byte -/
theorem utf8_tail {c : Nat} (hc : IsScalar c) {a : UInt8} {r : Bytes} (h : utf8 c = a :: r) : ∀ x ∈ r, 0x80 ≤ x.toNat := by
  unfold IsScalar at hc
  unfold utf8 at h
  repeat' split at h
  all_goals
    simp only [List.map_cons, List.map_nil, List.cons.injEq] at h
    obtain ⟨_, rfl⟩ := h
    intro x hx
    simp only [List.mem_cons, List.not_mem_nil, or_false] at hx
  · rcases hx with rfl
    rw [toNat_ofNat_lt (by omega)]; omega
  · rcases hx with rfl | rfl
    · rw [toNat_ofNat_lt (by omega)]; omega
    · rw [toNat_ofNat_lt (by omega)]; omega
  · rcases hx with rfl | rfl | rfl
    · rw [toNat_ofNat_lt (by omega)]; omega
    · rw [toNat_ofNat_lt (by omega)]; omega
    · rw [toNat_ofNat_lt (by omega)]; omega

theorem prefix_quote {p s r : Bytes} {q : UInt8} (hp : q ∉ p) (h : p <+: s ++ q :: r) : p <+: s := by
  induction s generalizing p with
  | nil =>
    cases p with
    | nil => exact List.nil_prefix
    | cons x p =>
      obtain ⟨t, ht⟩ := h
      simp only [List.cons_append, List.nil_append, List.cons.injEq] at ht
      exact absurd (ht.1 ▸ List.mem_cons_self) hp
  | cons y s ih =>
    cases p with
    | nil => exact List.nil_prefix
    | cons x p =>
      rw [List.cons_append, List.cons_prefix_cons] at h
      rw [List.cons_prefix_cons]
      exact ⟨h.1, ih (fun hm => hp (List.mem_cons_of_mem _ hm)) h.2⟩

theorem noRune_quote {b : UInt8} {s r : Bytes} : NoRune (b :: (s ++ 34 :: r)) ↔ NoRune (b :: s) := by
  constructor
  · rintro h c hc ⟨t, ht⟩
    refine h c hc ⟨t ++ 34 :: r, ?_⟩
    rw [← List.append_assoc, ht, List.cons_append]
  · intro h c hc hp
    refine h c hc ?_
    obtain ⟨a, q, hq, _⟩ := utf8_head hc
    rw [hq, List.cons_prefix_cons] at hp ⊢
    refine ⟨hp.1, prefix_quote (fun hm => ?_) hp.2⟩
    have := utf8_tail hc hq 34 hm
    have e : (34 : UInt8).toNat = 34 := rfl
    omega

theorem startsLow_quote {s r : Bytes} : StartsLow (s ++ 34 :: r) ↔ StartsLow s := by
  constructor
  · rintro ⟨h, n, s', hs, hh, hr⟩
    have hp : b!"\\u" ++ h <+: s := by
      apply prefix_quote (q := 34) (r := r)
      · have := hex4_no hh
        simp [this]
      · exact ⟨s', hs.symm⟩
    obtain ⟨s'', hs''⟩ := hp
    exact ⟨h, n, s'', hs''.symm, hh, hr⟩
  · rintro ⟨h, n, s', rfl, hh, hr⟩
    exact ⟨h, n, s' ++ 34 :: r, by simp, hh, hr⟩

theorem replacement_eq : replacement = utf8 0xFFFD := by decide

theorem parseChars_sound {f : Nat} {s v r : Bytes} (h : parseChars f s = some (v, r)) :
    ∃ t, s = t ++ 34 :: r ∧ JChars false t v := by
  induction f generalizing s v r with
  | zero => simp [parseChars] at h
  | succ f ih =>
    cases s with
    | nil => simp [parseChars] at h
    | cons c s =>
      simp only [parseChars] at h
      split at h
      · rename_i hc
        cases h
        exact ⟨[], by rw [hc]; rfl, .nil⟩
      · rename_i hc
        split at h
        · rename_i hb
          subst hb
          cases s with
          | nil => simp at h
          | cons e s =>
            simp only [] at h
            split at h
            · rename_i x hx
              simp only [Option.bind_eq_bind, Option.bind_eq_some_iff, Option.some.injEq, Prod.mk.injEq] at h
              obtain ⟨⟨v', r'⟩, hp, rfl, rfl⟩ := h
              obtain ⟨t, rfl, ht⟩ := ih hp
              exact ⟨92 :: e :: t, rfl, .escape (simpleEsc_iff.1 hx) ht⟩
            · split at h
              · rename_i he
                subst he
                split at h
                · cases h
                · rename_i n s' hx
                  obtain ⟨g, rfl, hg⟩ := hex4_iff.1 hx
                  split at h
                  · rename_i hn
                    split at h
                    · rename_i m s'' hl
                      split at hl
                      · rename_i hlt
                        obtain ⟨g', rfl, hg', hr'⟩ := lowSurrogate_iff.1 hl
                        simp only [Option.bind_eq_bind, Option.bind_eq_some_iff, Option.some.injEq, Prod.mk.injEq] at h
                        obtain ⟨⟨v', r'⟩, hp, rfl, rfl⟩ := h
                        obtain ⟨t, rfl, ht⟩ := ih hp
                        refine ⟨b!"\\u" ++ g ++ (b!"\\u" ++ g' ++ t), by simp, ?_⟩
                        rw [encodeRune_eq]
                        exact .pair hg hg' hn.1 hlt hr'.1 hr'.2 ht
                      · cases hl
                    · rename_i hl
                      simp only [Option.bind_eq_bind, Option.bind_eq_some_iff, Option.some.injEq, Prod.mk.injEq] at h
                      obtain ⟨⟨v', r'⟩, hp, rfl, rfl⟩ := h
                      obtain ⟨t, rfl, ht⟩ := ih hp
                      refine ⟨b!"\\u" ++ g ++ t, by simp, ?_⟩
                      rw [replacement_eq]
                      refine .badPair rfl hg hn.1 hn.2 (fun hlt => ?_) ht
                      rw [if_pos hlt, lowSurrogate_none, startsLow_quote] at hl
                      exact hl
                  · rename_i hn
                    simp only [Option.bind_eq_bind, Option.bind_eq_some_iff, Option.some.injEq, Prod.mk.injEq] at h
                    obtain ⟨⟨v', r'⟩, hp, rfl, rfl⟩ := h
                    obtain ⟨t, rfl, ht⟩ := ih hp
                    refine ⟨b!"\\u" ++ g ++ t, by simp, ?_⟩
                    rw [encodeRune_eq]
                    refine .unicode hg ?_ ht
                    have := hex4_lt hg
                    unfold IsScalar
                    omega
              · cases h
        · rename_i hb
          split at h
          · cases h
          · rename_i hge
            split at h
            · rename_i k hk
              simp only [Option.bind_eq_bind, Option.bind_eq_some_iff, Option.some.injEq, Prod.mk.injEq] at h
              obtain ⟨⟨v', r'⟩, hp, rfl, rfl⟩ := h
              obtain ⟨t, ht', ht⟩ := ih hp
              obtain ⟨n, hn, htk, hkl⟩ := runeSize_some hk
              refine ⟨utf8 n ++ t, ?_, ?_⟩
              · rw [← htk, List.append_assoc, ← ht', List.take_append_drop]
              · rw [htk]
                obtain ⟨a, q, hq, hlo, hhi⟩ := utf8_head hn
                have hca : c = a := by
                  have : 0 < k := by rw [hkl]; exact utf8_pos n
                  obtain ⟨k', rfl⟩ : ∃ k', k = k' + 1 := ⟨k - 1, by omega⟩
                  rw [List.take_succ_cons, hq] at htk
                  exact (List.cons.inj htk).1
                subst hca
                have h32 : ¬ c.toNat < 32 := by
                  intro hlt; exact hge (by rw [UInt8.lt_iff_toNat_lt]; exact hlt)
                have h34 : c.toNat ≠ 34 := fun he => hc (UInt8.toNat_inj.1 he)
                have h92 : c.toNat ≠ 92 := fun he => hb (UInt8.toNat_inj.1 he)
                refine .char hn ?_ ?_ ?_ ht
                · by_cases h80 : n < 0x80
                  · have := (hlo h80).1; omega
                  · omega
                · intro he; have := (hlo (by omega)).1; omega
                · intro he; have := (hlo (by omega)).1; omega
            · rename_i hk
              simp only [Option.bind_eq_bind, Option.bind_eq_some_iff, Option.some.injEq, Prod.mk.injEq] at h
              obtain ⟨⟨v', r'⟩, hp, rfl, rfl⟩ := h
              obtain ⟨t, rfl, ht⟩ := ih hp
              refine ⟨c :: t, rfl, ?_⟩
              rw [replacement_eq]
              refine .badByte rfl ?_ ?_ ht
              · rw [UInt8.le_iff_toNat_le]
                have e : (0x80 : UInt8).toNat = 0x80 := rfl
                rw [e]
                apply Nat.le_of_not_lt
                intro hlt
                simp only [runeSize] at hk
                rw [if_pos hlt] at hk
                cases hk
              · rw [runeSize_none_iff, noRune_quote] at hk
                exact hk

theorem parseChars_complete {t v : Bytes} (ht : JChars false t v) (r : Bytes) :
    ∀ f, t.length < f → parseChars f (t ++ 34 :: r) = some (v, r) := by
  induction ht with
  | nil =>
    intro f hf
    obtain ⟨f, rfl⟩ : ∃ k, f = k + 1 := ⟨f - 1, by omega⟩
    simp [parseChars]
  | @char c t v hc h20 h34 h92 _ ih =>
    intro f hf
    obtain ⟨f, rfl⟩ : ∃ k, f = k + 1 := ⟨f - 1, by omega⟩
    have hrs := runeSize_utf8 hc (t ++ 34 :: r)
    obtain ⟨a, q, hq, hlo, hhi⟩ := utf8_head hc
    have hpos := utf8_pos c
    have hlen : f > t.length := by rw [List.length_append] at hf; omega
    rw [List.append_assoc]
    have e : ∀ x, utf8 c ++ x = a :: (q ++ x) := fun x => by rw [hq]; rfl
    rw [e]
    simp only [parseChars]
    have t34 : (34 : UInt8).toNat = 34 := rfl
    have t92 : (92 : UInt8).toNat = 92 := rfl
    have t32 : (32 : UInt8).toNat = 32 := rfl
    have ha : a.toNat ≠ 34 ∧ a.toNat ≠ 92 ∧ ¬ a.toNat < 32 := by
      by_cases h80 : c < 0x80
      · have := (hlo h80).1; omega
      · have := hhi (by omega); omega
    rw [if_neg (fun h => ha.1 (by rw [h]; exact t34)), if_neg (fun h => ha.2.1 (by rw [h]; exact t92)),
      if_neg (fun h => ha.2.2 (by rw [UInt8.lt_iff_toNat_lt, t32] at h; exact h))]
    rw [← e, hrs]
    simp only []
    rw [List.drop_left, List.take_left, ih f hlen]
    rfl
  | @escape e x t v he _ ih =>
    intro f hf
    obtain ⟨f, rfl⟩ : ∃ k, f = k + 1 := ⟨f - 1, by omega⟩
    simp only [List.length_cons] at hf
    simp only [List.cons_append, parseChars]
    rw [if_neg (by decide), if_pos trivial, simpleEsc_iff.2 he]
    simp only []
    rw [ih f (by omega)]
    rfl
  | @unicode h n t v hh hn _ ih =>
    intro f hf
    obtain ⟨f, rfl⟩ : ∃ k, f = k + 1 := ⟨f - 1, by omega⟩
    have hl := hex4_len hh
    simp only [List.length_append, hl] at hf
    have e : b!"\\u" ++ h ++ t ++ 34 :: r = 92 :: 117 :: (h ++ (t ++ 34 :: r)) := by simp
    rw [e]
    simp only [parseChars]
    have hx : hex4 (h ++ (t ++ 34 :: r)) = some (n, t ++ 34 :: r) := hex4_iff.2 ⟨h, rfl, hh⟩
    have hs : simpleEsc 117 = none := by decide
    rw [if_neg (by decide), if_pos trivial, hs]
    simp only []
    rw [if_pos trivial, hx]
    simp only []
    rw [if_neg (by unfold IsScalar at hn; omega), ih f (by omega), encodeRune_eq]
    rfl
  | @pair h h' n m t v hh hh' h1 h2 h3 h4 _ ih =>
    intro f hf
    obtain ⟨f, rfl⟩ : ∃ k, f = k + 1 := ⟨f - 1, by omega⟩
    have hl := hex4_len hh
    have hl' := hex4_len hh'
    simp only [List.length_append, hl, hl'] at hf
    have e : b!"\\u" ++ h ++ (b!"\\u" ++ h' ++ t) ++ 34 :: r = 92 :: 117 :: (h ++ (b!"\\u" ++ h' ++ (t ++ 34 :: r))) := by
      simp
    rw [e]
    simp only [parseChars]
    have hx : hex4 (h ++ (b!"\\u" ++ h' ++ (t ++ 34 :: r))) = some (n, b!"\\u" ++ h' ++ (t ++ 34 :: r)) :=
      hex4_iff.2 ⟨h, rfl, hh⟩
    have hs : simpleEsc 117 = none := by decide
    rw [if_neg (by decide), if_pos trivial, hs]
    simp only []
    rw [if_pos trivial, hx]
    simp only []
    have hlow : lowSurrogate (b!"\\u" ++ h' ++ (t ++ 34 :: r)) = some (m, t ++ 34 :: r) :=
      lowSurrogate_iff.2 ⟨h', rfl, hh', h3, h4⟩
    rw [if_pos (by omega), if_pos h2, hlow]
    simp only []
    rw [ih f (by omega), encodeRune_eq]
    rfl
  | @badByte b t v _ hb hn _ ih =>
    intro f hf
    obtain ⟨f, rfl⟩ : ∃ k, f = k + 1 := ⟨f - 1, by omega⟩
    simp only [List.length_cons] at hf
    have hrs := (runeSize_none_iff _).2 ((noRune_quote (r := r)).2 hn)
    simp only [List.cons_append, parseChars]
    rw [UInt8.le_iff_toNat_le] at hb
    have t80 : (0x80 : UInt8).toNat = 0x80 := rfl
    have t34 : (34 : UInt8).toNat = 34 := rfl
    have t92 : (92 : UInt8).toNat = 92 := rfl
    have t32 : (32 : UInt8).toNat = 32 := rfl
    rw [t80] at hb
    rw [if_neg (fun h => by rw [h, t34] at hb; omega), if_neg (fun h => by rw [h, t92] at hb; omega),
      if_neg (fun h => by rw [UInt8.lt_iff_toNat_lt, t32] at h; omega), hrs]
    simp only []
    rw [ih f (by omega), replacement_eq]
    rfl
  | @badPair h n t v _ hh h1 h2 hs' _ ih =>
    intro f hf
    obtain ⟨f, rfl⟩ : ∃ k, f = k + 1 := ⟨f - 1, by omega⟩
    have hl := hex4_len hh
    simp only [List.length_append, hl] at hf
    have e : b!"\\u" ++ h ++ t ++ 34 :: r = 92 :: 117 :: (h ++ (t ++ 34 :: r)) := by simp
    rw [e]
    simp only [parseChars]
    have hx : hex4 (h ++ (t ++ 34 :: r)) = some (n, t ++ 34 :: r) := hex4_iff.2 ⟨h, rfl, hh⟩
    have hs : simpleEsc 117 = none := by decide
    rw [if_neg (by decide), if_pos trivial, hs]
    simp only []
    rw [if_pos trivial, hx]
    simp only []
    have hlow : (if n < 0xDC00 then lowSurrogate (t ++ 34 :: r) else none) = none := by
      split
      · rename_i hlt
        rw [lowSurrogate_none, startsLow_quote]
        exact hs' hlt
      · rfl
    rw [if_pos (by omega), hlow]
    simp only []
    rw [ih f (by omega), replacement_eq]
    rfl

theorem parseStr_iff {s v r : Bytes} : parseStr s = some (v, r) ↔ ∃ t, s = t ++ 34 :: r ∧ JChars false t v := by
  constructor
  · exact parseChars_sound
  · rintro ⟨t, rfl, ht⟩
    exact parseChars_complete ht r _ (by rw [List.length_append, List.length_cons]; omega)

theorem jchars_weaken {t v : Bytes} (h : JChars true t v) : JChars false t v := by
  induction h with
  | nil => exact .nil
  | char a b c d _ ih => exact .char a b c d ih
  | escape a _ ih => exact .escape a ih
  | unicode a b _ ih => exact .unicode a b ih
  | pair a b c d e f _ ih => exact .pair a b c d e f ih
  | badByte h => cases h
  | badPair h => cases h

theorem jchars_strict {st : Bool} {t v : Bytes} (h : JChars st t v) : JChars false t v := by
  cases st
  · exact h
  · exact jchars_weaken h

end Verif.GoJson
