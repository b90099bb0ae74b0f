import Verif.Lemmas.JsonStr

/-! # Lemmas: JSON texts, written -/

namespace Verif.GoJson
open Verif.Spec Verif.GoLib

theorem repaired_total : ∀ (n : Nat) (s : Bytes), s.length ≤ n → ∃ v, Repaired s v := by
  intro n
  induction n with
  | zero =>
    intro s hs
    cases s with
    | nil => exact ⟨_, .nil⟩
    | cons a s => simp at hs
  | succ n ih =>
    intro s hs
    cases s with
    | nil => exact ⟨_, .nil⟩
    | cons a s =>
      cases hk : runeSize (a :: s) with
      | none =>
        obtain ⟨v, hv⟩ := ih s (by simp at hs; omega)
        exact ⟨_, .bad ((runeSize_none_iff _).1 hk) hv⟩
      | some k =>
        obtain ⟨c, hc, ht, hl⟩ := runeSize_some hk
        have := utf8_pos c
        obtain ⟨v, hv⟩ := ih ((a :: s).drop k) (by rw [List.length_drop]; omega)
        have h := Repaired.char hc hv
        rw [← ht, List.take_append_drop] at h
        exact ⟨_, h⟩

theorem utf8_noRune {c : Nat} (hc : IsScalar c) {s : Bytes} : ¬ NoRune (utf8 c ++ s) :=
  fun h => h c hc ⟨s, rfl⟩

/-- no character is a prefix of another -/
theorem utf8_unique {c c' : Nat} (hc : IsScalar c) (hc' : IsScalar c') {s s' : Bytes} (h : utf8 c ++ s = utf8 c' ++ s') :
    utf8 c = utf8 c' ∧ s = s' := by
  have h1 := runeSize_utf8 hc s
  have h2 := runeSize_utf8 hc' s'
  rw [h] at h1
  rw [h1] at h2
  have hl := Option.some.inj h2
  exact List.append_inj h hl

theorem repaired_unique {s v v' : Bytes} (h : Repaired s v) (h' : Repaired s v') : v = v' := by
  induction h generalizing v' with
  | nil =>
    generalize hs : ([] : Bytes) = s at h'
    cases h' with
    | nil => rfl
    | char hc _ =>
      obtain ⟨a, q, hq, _⟩ := utf8_head hc
      rw [hq] at hs; simp at hs
    | bad => simp at hs
  | @char c s v hc hr ih =>
    generalize hs : utf8 c ++ s = x at h'
    cases h' with
    | nil =>
      obtain ⟨a, q, hq, _⟩ := utf8_head hc
      rw [hq] at hs; simp at hs
    | char hc' h' =>
      obtain ⟨e1, rfl⟩ := utf8_unique hc hc' hs
      rw [e1, ih h']
    | bad hn _ => exact absurd (hs ▸ hn) (utf8_noRune hc)
  | @bad b s v hn hr ih =>
    generalize hs : b :: s = x at h'
    cases h' with
    | nil => simp at hs
    | char hc' _ => exact absurd (hs ▸ hn) (utf8_noRune hc')
    | bad _ h' =>
      rw [List.cons.injEq] at hs
      obtain ⟨_, rfl⟩ := hs
      rw [ih h']

/-- the string with U+FFFD for every byte that belongs to no character -/
noncomputable def repair (s : Bytes) : Bytes := Classical.choose (repaired_total s.length s (Nat.le_refl _))

theorem repair_spec (s : Bytes) : Repaired s (repair s) := Classical.choose_spec (repaired_total s.length s (Nat.le_refl _))

theorem repaired_iff {s v : Bytes} : Repaired s v ↔ v = repair s :=
  ⟨fun h => repaired_unique h (repair_spec s), fun h => h ▸ repair_spec s⟩

theorem repaired_self {s : Bytes} (h : IsUtf8 s) : Repaired s s := by
  obtain ⟨cs, hcs, rfl⟩ := h
  induction cs with
  | nil => exact .nil
  | cons c cs ih =>
    rw [List.flatMap_cons]
    exact .char (hcs c List.mem_cons_self) (ih fun x hx => hcs x (List.mem_cons_of_mem _ hx))

theorem repaired_utf8 {s v : Bytes} (h : Repaired s v) : IsUtf8 v := by
  induction h with
  | nil => exact ⟨[], by simp, rfl⟩
  | @char c s v hc _ ih =>
    obtain ⟨cs, hcs, rfl⟩ := ih
    exact ⟨c :: cs, by simpa using ⟨hc, hcs⟩, by simp⟩
  | @bad b s v hn _ ih =>
    obtain ⟨cs, hcs, rfl⟩ := ih
    exact ⟨0xFFFD :: cs, by simpa using ⟨.inr (by omega), hcs⟩, by simp⟩

theorem repair_self {s : Bytes} (h : IsUtf8 s) : repair s = s := (repaired_iff.1 (repaired_self h)).symm

theorem hexLower_digit {n : Nat} (h : n < 16) : HexDigit (hexLower.getD n 0) n := by
  have key : ∀ n : Fin 16, b!"0123456789abcdef"[n.val]? = some (hexLower.getD n.val 0) := by decide +kernel
  exact .inl (key ⟨n, h⟩)

theorem jchars_escU {c : UInt8} (hc : c.toNat < 0x80) {st : Bool} {t v : Bytes} (h : JChars st t v) :
    JChars st (escU c ++ t) (c :: v) := by
  have hd0 : HexDigit 48 0 := .inl rfl
  have h1 : Hex4 [48, 48, hexLower.getD (c.toNat / 16) 0, hexLower.getD (c.toNat % 16) 0] c.toNat :=
    ⟨_, _, _, _, _, _, _, _, rfl, hd0, hd0, hexLower_digit (by omega), hexLower_digit (by omega), by omega⟩
  have h2 := JChars.unicode (strict := st) h1 (.inl (by omega)) h
  have e : utf8 c.toNat = [c] := by
    unfold utf8
    rw [if_pos hc]
    simp
  rw [e] at h2
  have e' : escU c ++ t = b!"\\u" ++ [48, 48, hexLower.getD (c.toNat / 16) 0, hexLower.getD (c.toNat % 16) 0] ++ t := by
    unfold escU
    simp only [List.append_assoc]
    rfl
  rw [e']
  exact h2

/-- what is written for a character -/
theorem jchars_seg (short : Bool) {c : Nat} (hc : IsScalar c) {t v : Bytes} (h : JChars true t v) :
    JChars true (quoteSeg short (utf8 c, true) ++ t) (utf8 c ++ v) := by
  obtain ⟨a, q, hq, hlo, hhi⟩ := utf8_head hc
  by_cases h80 : c < 0x80
  · obtain ⟨ha, rfl⟩ := hlo h80
    have hu : utf8 c = [a] := hq
    have esc : ∀ e : UInt8, (e, a) ∈ escapeTable → JChars true ([92, e] ++ t) ([a] ++ v) := fun e he => .escape he h
    have eu : JChars true (escU a ++ t) ([a] ++ v) := jchars_escU (by omega) h
    rw [hu]
    unfold quoteSeg
    rw [if_neg (by simp)]
    simp only []
    split
    · rename_i hx; exact esc 34 (by rw [hx]; decide)
    · rename_i h34
      split
      · rename_i hx; exact esc 92 (by rw [hx]; decide)
      · rename_i h92
        split
        · rename_i hx
          split
          · exact esc 98 (by rw [hx]; decide)
          · exact eu
        · split
          · rename_i hx
            split
            · exact esc 102 (by rw [hx]; decide)
            · exact eu
          · split
            · rename_i hx; exact esc 110 (by rw [hx]; decide)
            · split
              · rename_i hx; exact esc 114 (by rw [hx]; decide)
              · split
                · rename_i hx; exact esc 116 (by rw [hx]; decide)
                · split
                  · exact eu
                  · rename_i hx
                    rw [← hu]
                    have h32 : ¬ a < 32 := fun hlt => hx (.inl hlt)
                    rw [UInt8.lt_iff_toNat_lt] at h32
                    have t32 : (32 : UInt8).toNat = 32 := rfl
                    refine .char hc (by omega) ?_ ?_ h
                    · intro he; exact h34 (UInt8.toNat_inj.1 (by rw [ha, he]; rfl))
                    · intro he; exact h92 (UInt8.toNat_inj.1 (by rw [ha, he]; rfl))
  · have hlen : ∀ x, utf8 c ≠ [x] := by
      unfold utf8
      rw [if_neg h80]
      intro x
      repeat' split
      all_goals simp
    unfold quoteSeg
    rw [if_neg (by simp)]
    simp only []
    · split
      · rename_i hx
        have e : utf8 c = utf8 0x2028 := by rw [hx]; decide
        rw [e]
        have h1 : Hex4 b!"2028" 0x2028 := by
          refine ⟨_, _, _, _, 2, 0, 2, 8, rfl, .inl rfl, .inl rfl, .inl rfl, .inl rfl, rfl⟩
        exact .unicode h1 (.inl (by omega)) h
      · split
        · rename_i hx
          have e : utf8 c = utf8 0x2029 := by rw [hx]; decide
          rw [e]
          have h1 : Hex4 b!"2029" 0x2029 := by
            refine ⟨_, _, _, _, 2, 0, 2, 9, rfl, .inl rfl, .inl rfl, .inl rfl, .inl rfl, rfl⟩
          exact .unicode h1 (.inl (by omega)) h
        · exact .char hc (by omega) (by omega) (by omega) h

theorem segsF_chars (short : Bool) {s v : Bytes} (h : Repaired s v) :
    ∀ f, s.length ≤ f → JChars true ((segsF f s).flatMap (quoteSeg short)) v := by
  induction h with
  | nil =>
    intro f _
    cases f <;> exact .nil
  | @char c s v hc _ ih =>
    intro f hf
    have hpos := utf8_pos c
    rw [List.length_append] at hf
    obtain ⟨f, rfl⟩ : ∃ k, f = k + 1 := ⟨f - 1, by omega⟩
    have hrs := runeSize_utf8 hc s
    obtain ⟨a, q, hq, _⟩ := utf8_head hc
    have e : utf8 c ++ s = a :: (q ++ s) := by rw [hq]; rfl
    rw [e] at hrs ⊢
    simp only [segsF, hrs]
    rw [← e, List.take_left, List.drop_left, List.flatMap_cons]
    exact jchars_seg short hc (ih f (by omega))
  | @bad b s v hn _ ih =>
    intro f hf
    rw [List.length_cons] at hf
    obtain ⟨f, rfl⟩ : ∃ k, f = k + 1 := ⟨f - 1, by omega⟩
    have hrs := (runeSize_none_iff _).2 hn
    simp only [segsF, hrs]
    rw [List.flatMap_cons]
    have h1 : Hex4 b!"fffd" 0xFFFD := by
      refine ⟨_, _, _, _, 15, 15, 15, 13, rfl, .inl rfl, .inl rfl, .inl rfl, .inl rfl, rfl⟩
    exact .unicode h1 (.inr (by omega)) (ih f (by omega))

theorem quote_text (short : Bool) (s : Bytes) :
    ∃ t, quote short s = b!"\"" ++ t ++ b!"\"" ∧ JChars true t (repair s) :=
  ⟨_, rfl, segsF_chars short (repair_spec s) _ (Nat.le_refl _)⟩

theorem ws_nil : Ws [] := by intro c hc; simp at hc

theorem ws_newline (n : Nat) : Ws (newline n) := by
  intro c hc
  unfold newline at hc
  rw [List.mem_append, List.mem_replicate] at hc
  rcases hc with hc | ⟨_, rfl⟩
  · revert hc; simp; intro h; exact .inr (.inr (.inl h))
  · decide

theorem ws_space : Ws b!" " := by unfold Ws; decide

mutual
theorem text_sound (short : Bool) : ∀ (v : Json), JNums v → JText true (v.text short) (mapStr repair v)
  | .null, _ => by rw [mapStr, Json.text]; exact .null
  | .bool true, _ => by rw [mapStr, Json.text]; exact .true
  | .bool false, _ => by rw [mapStr, Json.text]; exact .false
  | .num l, h => by rw [mapStr, Json.text]; rw [JNums] at h; exact .num h
  | .str s, _ => by
    rw [mapStr, Json.text]
    obtain ⟨t, e, ht⟩ := quote_text short s
    rw [e]
    exact .str ht
  | .arr l, h => by
    rw [mapStr, Json.text]
    rw [JNums] at h
    by_cases hl : l = .nil
    · rw [hl, mapStrs, Jsons.text]; exact .emptyArr ws_nil
    · exact .arr (texts_sound short l h hl)
  | .obj l, h => by
    rw [mapStr, Json.text]
    rw [JNums] at h
    by_cases hl : l = .nil
    · rw [hl, mapStrm, Members.text]; exact .emptyObj ws_nil
    · exact .obj (textm_sound short l h hl)
theorem texts_sound (short : Bool) : ∀ (l : Jsons), JNumss l → l ≠ .nil → JItems true (l.text short) (mapStrs repair l)
  | .nil, _, hn => absurd rfl hn
  | .cons v l, h, _ => by
    rw [JNumss] at h
    have hv := text_sound short v h.1
    by_cases hl : l = .nil
    · rw [hl, Jsons.text, mapStrs, mapStrs]
      have := JItems.one ws_nil hv ws_nil
      simpa using this
    · rw [Jsons.text, mapStrs]
      · have := JItems.cons ws_nil hv ws_nil (texts_sound short l h.2 hl)
        simpa using this
      · exact hl
theorem textm_sound (short : Bool) : ∀ (l : Members), JNumsm l → l ≠ .nil → JMembers true (l.text short) (mapStrm repair l)
  | .nil, _, hn => absurd rfl hn
  | .cons k v l, h, _ => by
    rw [JNumsm] at h
    obtain ⟨t, e, ht⟩ := quote_text short k
    have hv := text_sound short v h.1
    by_cases hl : l = .nil
    · rw [hl, Members.text, mapStrm, mapStrm, e]
      have := JMembers.one ws_nil ht ws_nil ws_nil hv ws_nil
      simpa using this
    · rw [Members.text, mapStrm, e]
      · have := JMembers.cons ws_nil ht ws_nil ws_nil hv ws_nil (textm_sound short l h.2 hl)
        simpa using this
      · exact hl
end

theorem ws_append {w w' : Bytes} (h : Ws w) (h' : Ws w') : Ws (w ++ w') :=
  fun c hc => (List.mem_append.1 hc).elim (h c) (h' c)

theorem items_ws {st : Bool} {w : Bytes} (hw : Ws w) : ∀ {l : Jsons} {t : Bytes}, JItems st t l → JItems st (t ++ w) l
  | .nil, _, h => by cases h
  | .cons v l, t, h => by
    cases h with
    | one h1 h2 h3 =>
      rw [List.append_assoc]
      exact .one h1 h2 (ws_append h3 hw)
    | cons h1 h2 h3 h4 =>
      rw [List.append_assoc]
      exact .cons h1 h2 h3 (items_ws hw h4)

theorem members_ws {st : Bool} {w : Bytes} (hw : Ws w) :
    ∀ {l : Members} {t : Bytes}, JMembers st t l → JMembers st (t ++ w) l
  | .nil, _, h => by cases h
  | .cons k v l, t, h => by
    cases h with
    | one h1 h2 h3 h4 h5 h6 =>
      rw [List.append_assoc]
      exact .one h1 h2 h3 h4 h5 (ws_append h6 hw)
    | cons h1 h2 h3 h4 h5 h6 h7 =>
      rw [List.append_assoc]
      exact .cons h1 h2 h3 h4 h5 h6 (members_ws hw h7)

mutual
theorem pretty_sound (short : Bool) : ∀ (v : Json) (n : Nat), JNums v → JText true (v.pretty short n) (mapStr repair v)
  | .null, _, _ => by rw [mapStr, Json.pretty]; exact .null
  | .bool true, _, _ => by rw [mapStr, Json.pretty]; exact .true
  | .bool false, _, _ => by rw [mapStr, Json.pretty]; exact .false
  | .num l, _, h => by rw [mapStr, Json.pretty]; rw [JNums] at h; exact .num h
  | .str s, _, _ => by
    rw [mapStr, Json.pretty]
    obtain ⟨t, e, ht⟩ := quote_text short s
    rw [e]
    exact .str ht
  | .arr l, n, h => by
    rw [mapStr]
    rw [JNums] at h
    by_cases hl : l = .nil
    · rw [hl, mapStrs, Json.pretty]; exact .emptyArr ws_nil
    · rw [Json.pretty]
      · have := JText.arr (items_ws (ws_newline n) (prettys_sound short l (n + 1) h hl))
        simpa using this
      · exact hl
  | .obj l, n, h => by
    rw [mapStr]
    rw [JNums] at h
    by_cases hl : l = .nil
    · rw [hl, mapStrm, Json.pretty]; exact .emptyObj ws_nil
    · rw [Json.pretty]
      · have := JText.obj (members_ws (ws_newline n) (prettym_sound short l (n + 1) h hl))
        simpa using this
      · exact hl
theorem prettys_sound (short : Bool) : ∀ (l : Jsons) (n : Nat), JNumss l → l ≠ .nil →
    JItems true (l.pretty short n) (mapStrs repair l)
  | .nil, _, _, hn => absurd rfl hn
  | .cons v l, n, h, _ => by
    rw [JNumss] at h
    have hv := pretty_sound short v n h.1
    by_cases hl : l = .nil
    · rw [hl, Jsons.pretty, mapStrs, mapStrs]
      have := JItems.one (ws_newline n) hv ws_nil
      simpa using this
    · rw [Jsons.pretty, mapStrs]
      · have := JItems.cons (ws_newline n) hv ws_nil (prettys_sound short l n h.2 hl)
        simpa using this
      · exact hl
theorem prettym_sound (short : Bool) : ∀ (l : Members) (n : Nat), JNumsm l → l ≠ .nil →
    JMembers true (l.pretty short n) (mapStrm repair l)
  | .nil, _, _, hn => absurd rfl hn
  | .cons k v l, n, h, _ => by
    rw [JNumsm] at h
    obtain ⟨t, e, ht⟩ := quote_text short k
    have hv := pretty_sound short v n h.1
    by_cases hl : l = .nil
    · rw [hl, Members.pretty, mapStrm, mapStrm, e]
      have := JMembers.one (ws_newline n) ht ws_nil ws_space hv ws_nil
      simpa using this
    · rw [Members.pretty, mapStrm, e]
      · have := JMembers.cons (ws_newline n) ht ws_nil ws_space hv ws_nil (prettym_sound short l n h.2 hl)
        simpa using this
      · exact hl
end

mutual
theorem mapStr_valid : ∀ (v : Json), JValid v → mapStr repair v = v
  | .null, _ => rfl
  | .bool _, _ => rfl
  | .num _, _ => rfl
  | .str s, h => by rw [JValid] at h; rw [mapStr, repair_self h]
  | .arr l, h => by rw [JValid] at h; rw [mapStr, mapStrs_valid l h]
  | .obj l, h => by rw [JValid] at h; rw [mapStr, mapStrm_valid l h]
theorem mapStrs_valid : ∀ (l : Jsons), JValids l → mapStrs repair l = l
  | .nil, _ => rfl
  | .cons v l, h => by rw [JValids] at h; rw [mapStrs, mapStr_valid v h.1, mapStrs_valid l h.2]
theorem mapStrm_valid : ∀ (l : Members), JValidm l → mapStrm repair l = l
  | .nil, _ => rfl
  | .cons k v l, h => by
    rw [JValidm] at h; rw [mapStrm, repair_self h.1, mapStr_valid v h.2.1, mapStrm_valid l h.2.2]
end

mutual
theorem valid_nums : ∀ (v : Json), JValid v → JNums v
  | .null, _ => trivial
  | .bool _, _ => trivial
  | .num _, h => by rw [JValid] at h; rw [JNums]; exact h
  | .str _, _ => trivial
  | .arr l, h => by rw [JValid] at h; rw [JNums]; exact valids_nums l h
  | .obj l, h => by rw [JValid] at h; rw [JNums]; exact validm_nums l h
theorem valids_nums : ∀ (l : Jsons), JValids l → JNumss l
  | .nil, _ => trivial
  | .cons v l, h => by rw [JValids] at h; rw [JNumss]; exact ⟨valid_nums v h.1, valids_nums l h.2⟩
theorem validm_nums : ∀ (l : Members), JValidm l → JNumsm l
  | .nil, _ => trivial
  | .cons k v l, h => by rw [JValidm] at h; rw [JNumsm]; exact ⟨valid_nums v h.2.1, validm_nums l h.2.2⟩
end

end Verif.GoJson
