import Verif.Lemmas.JsonParse
import Verif.Lemmas.JsonFold
import Verif.Spec.ShowAlike

/-! # When two values have the same JSON text -/

namespace Verif.Spec
open Verif.GoLib Verif.GoJson

/-- the text between the quotes -/
def chars (short : Bool) (s : Bytes) : Bytes := (segs s).flatMap (quoteSeg short)

theorem chars_repair (short : Bool) (s : Bytes) : JChars true (chars short s) (repair s) :=
  segsF_chars short (repair_spec s) _ (Nat.le_refl _)

theorem chars_char (short : Bool) {c : Nat} (hc : IsScalar c) (s : Bytes) :
    chars short (utf8 c ++ s) = quoteSeg short (utf8 c, true) ++ chars short s := by
  unfold chars
  rw [segs_char hc, List.flatMap_cons]

theorem chars_bad (short : Bool) {b : UInt8} {s : Bytes} (h : NoRune (b :: s)) :
    chars short (b :: s) = b!"\\ufffd" ++ chars short s := by
  unfold chars
  rw [segs_bad h, List.flatMap_cons]
  rfl

theorem str_prefix {t t' v v' r r' : Bytes} (h : JChars true t v) (h' : JChars true t' v') (e : t ++ 34 :: r = t' ++ 34 :: r') :
    t = t' ∧ v = v' ∧ r = r' := by
  have h1 : parseStr (t ++ 34 :: r) = some (v, r) := parseStr_iff.2 ⟨t, rfl, jchars_weaken h⟩
  have h2 : parseStr (t' ++ 34 :: r') = some (v', r') := parseStr_iff.2 ⟨t', rfl, jchars_weaken h'⟩
  rw [e, h2] at h1
  injection h1 with h1
  injection h1 with h1 h3
  subst h3
  exact ⟨List.append_cancel_right e, h1.symm, rfl⟩

theorem chars_repair_eq {short : Bool} {s s' : Bytes} (h : chars short s = chars short s') : repair s = repair s' :=
  (str_prefix (r := []) (r' := []) (chars_repair short s) (chars_repair short s') (by rw [h])).2.1

theorem repair_char {c : Nat} (hc : IsScalar c) (s : Bytes) : repair (utf8 c ++ s) = utf8 c ++ repair s :=
  (repaired_iff.1 (.char hc (repair_spec s))).symm

theorem repair_bad {b : UInt8} {s : Bytes} (h : NoRune (b :: s)) : repair (b :: s) = utf8 0xFFFD ++ repair s :=
  (repaired_iff.1 (.bad h (repair_spec s))).symm

theorem repair_nil : repair [] = [] := (repaired_iff.1 .nil).symm

theorem scalar_fffd : IsScalar 0xFFFD := .inr (by omega)

theorem utf8_ne (c : Nat) (s : Bytes) : utf8 c ++ s ≠ [] := by
  intro h
  have := utf8_pos c
  rw [List.append_eq_nil_iff] at h
  rw [h.1] at this
  exact absurd this (by decide)

theorem alike_of_chars {short : Bool} {s v : Bytes} (h : Repaired s v) :
    ∀ {s' v' : Bytes}, Repaired s' v' → chars short s = chars short s' → Alike s s' := by
  induction h with
  | nil =>
    intro s' v' h' e
    have e := chars_repair_eq e
    cases h' with
    | nil => exact .nil
    | char hc _ => rw [repair_nil, repair_char hc] at e; exact absurd e.symm (utf8_ne _ _)
    | bad hn _ => rw [repair_nil, repair_bad hn] at e; exact absurd e.symm (utf8_ne _ _)
  | @char c s v hc _ ih =>
    intro s' v' h' e
    have er := chars_repair_eq e
    cases h' with
    | nil => rw [repair_nil, repair_char hc] at er; exact absurd er (utf8_ne _ _)
    | @char c' s' v' hc' h' =>
      rw [repair_char hc, repair_char hc'] at er
      obtain ⟨e1, _⟩ := utf8_unique hc hc' er
      rw [e1] at e ⊢
      rw [chars_char short hc', chars_char short hc'] at e
      exact .char hc' (ih h' (List.append_cancel_left e))
    | @bad b s' v' hn h' =>
      exfalso
      rw [repair_char hc, repair_bad hn] at er
      obtain ⟨e1, _⟩ := utf8_unique hc scalar_fffd er
      rw [chars_char short hc, e1, chars_bad short hn] at e
      have : quoteSeg short (utf8 0xFFFD, true) = [0xEF, 0xBF, 0xBD] := by cases short <;> decide
      rw [this] at e
      injection e with e _
      exact absurd e (by decide)
  | @bad b s v hn _ ih =>
    intro s' v' h' e
    have er := chars_repair_eq e
    cases h' with
    | nil => rw [repair_nil, repair_bad hn] at er; exact absurd er (utf8_ne _ _)
    | @char c' s' v' hc' h' =>
      exfalso
      rw [repair_char hc', repair_bad hn] at er
      obtain ⟨e1, _⟩ := utf8_unique scalar_fffd hc' er
      rw [chars_char short hc', ← e1, chars_bad short hn] at e
      have : quoteSeg short (utf8 0xFFFD, true) = [0xEF, 0xBF, 0xBD] := by cases short <;> decide
      rw [this] at e
      injection e with e _
      exact absurd e (by decide)
    | @bad b' s' v' hn' h' =>
      rw [chars_bad short hn, chars_bad short hn'] at e
      exact .bad hn hn' (ih h' (List.append_cancel_left e))

theorem chars_iff {short : Bool} {s s' : Bytes} : chars short s = chars short s' ↔ Alike s s' := by
  constructor
  · exact alike_of_chars (repair_spec s) (repair_spec s')
  · intro h
    induction h with
    | nil => rfl
    | char hc _ ih => rw [chars_char short hc, chars_char short hc, ih]
    | bad hn hn' _ ih => rw [chars_bad short hn, chars_bad short hn', ih]

theorem quote_chars (short : Bool) (s : Bytes) : quote short s = 34 :: (chars short s ++ [34]) := rfl

theorem value_prefix {t t' r r' : Bytes} {v v' : Json} (h : JText true t v) (h' : JText true t' v') (hr : NumEnd r) (hr' : NumEnd r')
    (e : t ++ r = t' ++ r') : t = t' ∧ v = v' ∧ r = r' := by
  have h1 := parseValue_complete v t (jtext_weaken _ h) (2 * t.length + 2 * t'.length) (jdepth v + jdepth v') r (by omega) (by omega) fun _ => hr
  have h2 := parseValue_complete v' t' (jtext_weaken _ h') (2 * t.length + 2 * t'.length) (jdepth v + jdepth v') r' (by omega) (by omega) fun _ => hr'
  rw [e, h2] at h1
  injection h1 with h1
  injection h1 with h1 h3
  subst h3
  exact ⟨List.append_cancel_right e, h1.symm, rfl⟩

theorem numEnd_cons {c : UInt8} (hc : c ∉ b!"0123456789.eE") (r : Bytes) : NumEnd (c :: r) := numEnd_ws ws_nil hc r

theorem numEnd_nil : NumEnd [] := numEnd_ws' ws_nil

theorem repair_chars {short : Bool} {s s' : Bytes} {r r' : Bytes} (e : quote short s ++ r = quote short s' ++ r') :
    chars short s = chars short s' ∧ r = r' := by
  have := str_prefix (chars_repair short s) (chars_repair short s') (r := r) (r' := r')
    (by simpa [quote_chars] using e)
  exact ⟨this.1, this.2.2⟩

theorem jt (short : Bool) (v w : Json) (l : Jsons) :
    (Jsons.cons v (.cons w l)).text short = v.text short ++ b!"," ++ (Jsons.cons w l).text short := by
  rw [Jsons.text]; simp

theorem mt (short : Bool) (k j : Bytes) (v w : Json) (l : Members) : (Members.cons k v (.cons j w l)).text short =
    quote short k ++ b!":" ++ v.text short ++ b!"," ++ (Members.cons j w l).text short := by
  rw [Members.text]; simp

theorem js (g : Bytes → Bytes) (v w v' w' : Json) (l l' : Jsons) :
    mapStrs g (.cons v (.cons w l)) = mapStrs g (.cons v' (.cons w' l')) ↔
      mapStr g v = mapStr g v' ∧ mapStrs g (.cons w l) = mapStrs g (.cons w' l') := by
  rw [mapStrs, mapStrs.eq_2 g v', Jsons.cons.injEq]

theorem ms (g : Bytes → Bytes) (k j k' j' : Bytes) (v w v' w' : Json) (l l' : Members) :
    mapStrm g (.cons k v (.cons j w l)) = mapStrm g (.cons k' v' (.cons j' w' l')) ↔
      g k = g k' ∧ mapStr g v = mapStr g v' ∧ mapStrm g (.cons j w l) = mapStrm g (.cons j' w' l') := by
  rw [mapStrm, mapStrm.eq_2 g k', Members.cons.injEq]

mutual
theorem text_alike (short : Bool) : ∀ (v v' : Json), JNums v → JNums v' → mapStr repair v = mapStr repair v' →
    v.text short = v'.text short → mapStr (chars short) v = mapStr (chars short) v'
  | .null, .null, _, _, _, _ => rfl
  | .bool _, .bool _, _, _, h, _ => by simpa [mapStr] using h
  | .num _, .num _, _, _, h, _ => by simpa [mapStr] using h
  | .str s, .str s', _, _, _, e => by
    rw [Json.text, Json.text] at e
    rw [mapStr, mapStr, (repair_chars (short := short) (s := s) (s' := s') (r := []) (r' := []) (by rw [e])).1]
  | .arr l, .arr l', hn, hn', h, e => by
    rw [Json.text, Json.text] at e
    rw [mapStr, mapStr] at h ⊢
    rw [texts_alike short l l' hn hn' (Json.arr.inj h) (List.append_cancel_left (List.append_cancel_right e))]
  | .obj l, .obj l', hn, hn', h, e => by
    rw [Json.text, Json.text] at e
    rw [mapStr, mapStr] at h ⊢
    rw [textm_alike short l l' hn hn' (Json.obj.inj h) (List.append_cancel_left (List.append_cancel_right e))]
  | .null, .bool _, _, _, h, _ | .null, .num _, _, _, h, _ | .null, .str _, _, _, h, _ | .null, .arr _, _, _, h, _
  | .null, .obj _, _, _, h, _ | .bool _, .null, _, _, h, _ | .bool _, .num _, _, _, h, _ | .bool _, .str _, _, _, h, _
  | .bool _, .arr _, _, _, h, _ | .bool _, .obj _, _, _, h, _ | .num _, .null, _, _, h, _ | .num _, .bool _, _, _, h, _
  | .num _, .str _, _, _, h, _ | .num _, .arr _, _, _, h, _ | .num _, .obj _, _, _, h, _ | .str _, .null, _, _, h, _
  | .str _, .bool _, _, _, h, _ | .str _, .num _, _, _, h, _ | .str _, .arr _, _, _, h, _ | .str _, .obj _, _, _, h, _
  | .arr _, .null, _, _, h, _ | .arr _, .bool _, _, _, h, _ | .arr _, .num _, _, _, h, _ | .arr _, .str _, _, _, h, _
  | .arr _, .obj _, _, _, h, _ | .obj _, .null, _, _, h, _ | .obj _, .bool _, _, _, h, _ | .obj _, .num _, _, _, h, _
  | .obj _, .str _, _, _, h, _ | .obj _, .arr _, _, _, h, _ => by simp [mapStr] at h
theorem texts_alike (short : Bool) : ∀ (l l' : Jsons), JNumss l → JNumss l' → mapStrs repair l = mapStrs repair l' →
    l.text short = l'.text short → mapStrs (chars short) l = mapStrs (chars short) l'
  | .nil, .nil, _, _, _, _ => rfl
  | .nil, .cons _ _, _, _, h, _ | .cons _ _, .nil, _, _, h, _ => by simp [mapStrs] at h
  | .cons _ .nil, .cons _ (.cons _ _), _, _, h, _ | .cons _ (.cons _ _), .cons _ .nil, _, _, h, _ => by simp [mapStrs] at h
  | .cons v .nil, .cons v' .nil, hn, hn', h, e => by
    rw [Jsons.text, Jsons.text] at e
    simp only [mapStrs, Jsons.cons.injEq, and_true] at h ⊢
    exact text_alike short v v' hn.1 hn'.1 h e
  | .cons v (.cons w l), .cons v' (.cons w' l'), hn, hn', h, e => by
    rw [jt, jt] at e
    rw [js] at h ⊢
    simp only [List.append_assoc] at e
    obtain ⟨e1, _, e2⟩ := value_prefix (text_sound short v hn.1) (text_sound short v' hn'.1) (numEnd_cons (by decide) _)
      (numEnd_cons (by decide) _) e
    exact ⟨text_alike short v v' hn.1 hn'.1 h.1 e1, texts_alike short (.cons w l) (.cons w' l') hn.2 hn'.2 h.2 (List.cons.inj e2).2⟩
theorem textm_alike (short : Bool) : ∀ (l l' : Members), JNumsm l → JNumsm l' → mapStrm repair l = mapStrm repair l' →
    l.text short = l'.text short → mapStrm (chars short) l = mapStrm (chars short) l'
  | .nil, .nil, _, _, _, _ => rfl
  | .nil, .cons _ _ _, _, _, h, _ | .cons _ _ _, .nil, _, _, h, _ => by simp [mapStrm] at h
  | .cons _ _ .nil, .cons _ _ (.cons _ _ _), _, _, h, _ | .cons _ _ (.cons _ _ _), .cons _ _ .nil, _, _, h, _ => by simp [mapStrm] at h
  | .cons k v .nil, .cons k' v' .nil, hn, hn', h, e => by
    rw [Members.text, Members.text] at e
    simp only [List.append_assoc] at e
    obtain ⟨e1, e2⟩ := repair_chars e
    simp only [mapStrm, Members.cons.injEq, and_true] at h ⊢
    exact ⟨e1, text_alike short v v' hn.1 hn'.1 h.2 (List.append_cancel_left e2)⟩
  | .cons k v (.cons j w l), .cons k' v' (.cons j' w' l'), hn, hn', h, e => by
    rw [mt, mt] at e
    rw [ms] at h ⊢
    simp only [List.append_assoc] at e
    obtain ⟨e1, e2⟩ := repair_chars e
    obtain ⟨e3, _, e4⟩ := value_prefix (text_sound short v hn.1) (text_sound short v' hn'.1) (numEnd_cons (by decide) _)
      (numEnd_cons (by decide) _) (List.append_cancel_left e2)
    exact ⟨e1, text_alike short v v' hn.1 hn'.1 h.2.1 e3,
      textm_alike short (.cons j w l) (.cons j' w' l') hn.2 hn'.2 h.2.2 (List.cons.inj e4).2⟩
end

mutual
theorem text_congr (short : Bool) : ∀ (v v' : Json), mapStr (chars short) v = mapStr (chars short) v' → v.text short = v'.text short
  | .null, .null, _ => rfl
  | .bool _, .bool _, h => by rw [mapStr, mapStr] at h; rw [Json.bool.inj h]
  | .num _, .num _, h => by rw [mapStr, mapStr] at h; rw [Json.num.inj h]
  | .str s, .str s', h => by
    rw [mapStr, mapStr] at h
    rw [Json.text, Json.text, quote_chars, quote_chars, Json.str.inj h]
  | .arr l, .arr l', h => by
    rw [mapStr, mapStr] at h
    rw [Json.text, Json.text, texts_congr short l l' (Json.arr.inj h)]
  | .obj l, .obj l', h => by
    rw [mapStr, mapStr] at h
    rw [Json.text, Json.text, textm_congr short l l' (Json.obj.inj h)]
  | .null, .bool _, h | .null, .num _, h | .null, .str _, h | .null, .arr _, h
  | .null, .obj _, h | .bool _, .null, h | .bool _, .num _, h | .bool _, .str _, h
  | .bool _, .arr _, h | .bool _, .obj _, h | .num _, .null, h | .num _, .bool _, h
  | .num _, .str _, h | .num _, .arr _, h | .num _, .obj _, h | .str _, .null, h
  | .str _, .bool _, h | .str _, .num _, h | .str _, .arr _, h | .str _, .obj _, h
  | .arr _, .null, h | .arr _, .bool _, h | .arr _, .num _, h | .arr _, .str _, h
  | .arr _, .obj _, h | .obj _, .null, h | .obj _, .bool _, h | .obj _, .num _, h
  | .obj _, .str _, h | .obj _, .arr _, h => by simp [mapStr] at h
theorem texts_congr (short : Bool) : ∀ (l l' : Jsons), mapStrs (chars short) l = mapStrs (chars short) l' → l.text short = l'.text short
  | .nil, .nil, _ => rfl
  | .nil, .cons _ _, h | .cons _ _, .nil, h => by simp [mapStrs] at h
  | .cons _ .nil, .cons _ (.cons _ _), h | .cons _ (.cons _ _), .cons _ .nil, h => by simp [mapStrs] at h
  | .cons v .nil, .cons v' .nil, h => by
    simp only [mapStrs, Jsons.cons.injEq, and_true] at h
    rw [Jsons.text, Jsons.text, text_congr short v v' h]
  | .cons v (.cons w l), .cons v' (.cons w' l'), h => by
    rw [js] at h
    rw [jt, jt, text_congr short v v' h.1, texts_congr short (.cons w l) (.cons w' l') h.2]
theorem textm_congr (short : Bool) : ∀ (l l' : Members), mapStrm (chars short) l = mapStrm (chars short) l' → l.text short = l'.text short
  | .nil, .nil, _ => rfl
  | .nil, .cons _ _ _, h | .cons _ _ _, .nil, h => by simp [mapStrm] at h
  | .cons _ _ .nil, .cons _ _ (.cons _ _ _), h | .cons _ _ (.cons _ _ _), .cons _ _ .nil, h => by simp [mapStrm] at h
  | .cons k v .nil, .cons k' v' .nil, h => by
    simp only [mapStrm, Members.cons.injEq, and_true] at h
    rw [Members.text, Members.text, text_congr short v v' h.2, quote_chars, quote_chars, h.1]
  | .cons k v (.cons j w l), .cons k' v' (.cons j' w' l'), h => by
    rw [ms] at h
    rw [mt, mt, text_congr short v v' h.2.1, textm_congr short (.cons j w l) (.cons j' w' l') h.2.2, quote_chars, quote_chars, h.1]
end

theorem jp (short : Bool) (n : Nat) (v w : Json) (l : Jsons) :
    (Jsons.cons v (.cons w l)).pretty short n = newline n ++ v.pretty short n ++ b!"," ++ (Jsons.cons w l).pretty short n := by
  rw [Jsons.pretty]; simp

theorem mp (short : Bool) (n : Nat) (k j : Bytes) (v w : Json) (l : Members) : (Members.cons k v (.cons j w l)).pretty short n =
    newline n ++ quote short k ++ b!": " ++ v.pretty short n ++ b!"," ++ (Members.cons j w l).pretty short n := by
  rw [Members.pretty]; simp

theorem pa (short : Bool) (n : Nat) (v : Json) (l : Jsons) :
    (Json.arr (.cons v l)).pretty short n = b!"[" ++ (Jsons.cons v l).pretty short (n + 1) ++ newline n ++ b!"]" := by
  rw [Json.pretty]; simp

theorem po (short : Bool) (n : Nat) (k : Bytes) (v : Json) (l : Members) :
    (Json.obj (.cons k v l)).pretty short n = b!"{" ++ (Members.cons k v l).pretty short (n + 1) ++ newline n ++ b!"}" := by
  rw [Json.pretty]; simp

mutual
theorem pretty_alike (short : Bool) : ∀ (v v' : Json) (n : Nat), JNums v → JNums v' → mapStr repair v = mapStr repair v' →
    v.pretty short n = v'.pretty short n → mapStr (chars short) v = mapStr (chars short) v'
  | .null, .null, _, _, _, _, _ => rfl
  | .bool _, .bool _, _, _, _, h, _ => by simpa [mapStr] using h
  | .num _, .num _, _, _, _, h, _ => by simpa [mapStr] using h
  | .str s, .str s', n, _, _, _, e => by
    rw [Json.pretty, Json.pretty] at e
    rw [mapStr, mapStr, (repair_chars (short := short) (s := s) (s' := s') (r := []) (r' := []) (by rw [e])).1]
  | .arr .nil, .arr .nil, _, _, _, _, _ => rfl
  | .arr .nil, .arr (.cons _ _), _, _, _, h, _ | .arr (.cons _ _), .arr .nil, _, _, _, h, _ => by simp [mapStr, mapStrs] at h
  | .arr (.cons w l), .arr (.cons w' l'), n, hn, hn', h, e => by
    rw [pa, pa] at e
    rw [mapStr, mapStr.eq_5 _ (.cons w' l'), Json.arr.injEq] at h ⊢
    exact prettys_alike short (.cons w l) (.cons w' l') _ hn hn' h
      (List.append_cancel_left (List.append_cancel_right (List.append_cancel_right e)))
  | .obj .nil, .obj .nil, _, _, _, _, _ => rfl
  | .obj .nil, .obj (.cons _ _ _), _, _, _, h, _ | .obj (.cons _ _ _), .obj .nil, _, _, _, h, _ => by simp [mapStr, mapStrm] at h
  | .obj (.cons k w l), .obj (.cons k' w' l'), n, hn, hn', h, e => by
    rw [po, po] at e
    rw [mapStr, mapStr.eq_6 _ (.cons k' w' l'), Json.obj.injEq] at h ⊢
    exact prettym_alike short (.cons k w l) (.cons k' w' l') _ hn hn' h
      (List.append_cancel_left (List.append_cancel_right (List.append_cancel_right e)))
  | .null, .bool _, _, _, _, h, _ | .null, .num _, _, _, _, h, _ | .null, .str _, _, _, _, h, _ | .null, .arr _, _, _, _, h, _
  | .null, .obj _, _, _, _, h, _ | .bool _, .null, _, _, _, h, _ | .bool _, .num _, _, _, _, h, _ | .bool _, .str _, _, _, _, h, _
  | .bool _, .arr _, _, _, _, h, _ | .bool _, .obj _, _, _, _, h, _ | .num _, .null, _, _, _, h, _ | .num _, .bool _, _, _, _, h, _
  | .num _, .str _, _, _, _, h, _ | .num _, .arr _, _, _, _, h, _ | .num _, .obj _, _, _, _, h, _ | .str _, .null, _, _, _, h, _
  | .str _, .bool _, _, _, _, h, _ | .str _, .num _, _, _, _, h, _ | .str _, .arr _, _, _, _, h, _ | .str _, .obj _, _, _, _, h, _
  | .arr _, .null, _, _, _, h, _ | .arr _, .bool _, _, _, _, h, _ | .arr _, .num _, _, _, _, h, _ | .arr _, .str _, _, _, _, h, _
  | .arr _, .obj _, _, _, _, h, _ | .obj _, .null, _, _, _, h, _ | .obj _, .bool _, _, _, _, h, _ | .obj _, .num _, _, _, _, h, _
  | .obj _, .str _, _, _, _, h, _ | .obj _, .arr _, _, _, _, h, _ => by simp [mapStr] at h
theorem prettys_alike (short : Bool) : ∀ (l l' : Jsons) (n : Nat), JNumss l → JNumss l' → mapStrs repair l = mapStrs repair l' →
    l.pretty short n = l'.pretty short n → mapStrs (chars short) l = mapStrs (chars short) l'
  | .nil, .nil, _, _, _, _, _ => rfl
  | .nil, .cons _ _, _, _, _, h, _ | .cons _ _, .nil, _, _, _, h, _ => by simp [mapStrs] at h
  | .cons _ .nil, .cons _ (.cons _ _), _, _, _, h, _ | .cons _ (.cons _ _), .cons _ .nil, _, _, _, h, _ => by simp [mapStrs] at h
  | .cons v .nil, .cons v' .nil, n, hn, hn', h, e => by
    rw [Jsons.pretty, Jsons.pretty] at e
    simp only [mapStrs, Jsons.cons.injEq, and_true] at h ⊢
    exact pretty_alike short v v' n hn.1 hn'.1 h (List.append_cancel_left e)
  | .cons v (.cons w l), .cons v' (.cons w' l'), n, hn, hn', h, e => by
    rw [jp, jp] at e
    rw [js] at h ⊢
    simp only [List.append_assoc] at e
    obtain ⟨e1, _, e2⟩ := value_prefix (pretty_sound short v n hn.1) (pretty_sound short v' n hn'.1) (numEnd_cons (by decide) _)
      (numEnd_cons (by decide) _) (List.append_cancel_left e)
    exact ⟨pretty_alike short v v' n hn.1 hn'.1 h.1 e1,
      prettys_alike short (.cons w l) (.cons w' l') n hn.2 hn'.2 h.2 (List.cons.inj e2).2⟩
theorem prettym_alike (short : Bool) : ∀ (l l' : Members) (n : Nat), JNumsm l → JNumsm l' → mapStrm repair l = mapStrm repair l' →
    l.pretty short n = l'.pretty short n → mapStrm (chars short) l = mapStrm (chars short) l'
  | .nil, .nil, _, _, _, _, _ => rfl
  | .nil, .cons _ _ _, _, _, _, h, _ | .cons _ _ _, .nil, _, _, _, h, _ => by simp [mapStrm] at h
  | .cons _ _ .nil, .cons _ _ (.cons _ _ _), _, _, _, h, _ | .cons _ _ (.cons _ _ _), .cons _ _ .nil, _, _, _, h, _ => by simp [mapStrm] at h
  | .cons k v .nil, .cons k' v' .nil, n, hn, hn', h, e => by
    rw [Members.pretty, Members.pretty] at e
    simp only [List.append_assoc] at e
    obtain ⟨e1, e2⟩ := repair_chars (List.append_cancel_left e)
    simp only [mapStrm, Members.cons.injEq, and_true] at h ⊢
    exact ⟨e1, pretty_alike short v v' n hn.1 hn'.1 h.2 (List.append_cancel_left e2)⟩
  | .cons k v (.cons j w l), .cons k' v' (.cons j' w' l'), n, hn, hn', h, e => by
    rw [mp, mp] at e
    rw [ms] at h ⊢
    simp only [List.append_assoc] at e
    obtain ⟨e1, e2⟩ := repair_chars (List.append_cancel_left e)
    obtain ⟨e3, _, e4⟩ := value_prefix (pretty_sound short v n hn.1) (pretty_sound short v' n hn'.1) (numEnd_cons (by decide) _)
      (numEnd_cons (by decide) _) (List.append_cancel_left e2)
    exact ⟨e1, pretty_alike short v v' n hn.1 hn'.1 h.2.1 e3,
      prettym_alike short (.cons j w l) (.cons j' w' l') n hn.2 hn'.2 h.2.2 (List.cons.inj e4).2⟩
end

mutual
theorem pretty_congr (short : Bool) : ∀ (v v' : Json) (n : Nat), mapStr (chars short) v = mapStr (chars short) v' →
    v.pretty short n = v'.pretty short n
  | .null, .null, _, _ => rfl
  | .bool _, .bool _, _, h => by rw [mapStr, mapStr] at h; rw [Json.bool.inj h]
  | .num _, .num _, _, h => by rw [mapStr, mapStr] at h; rw [Json.num.inj h]
  | .str s, .str s', _, h => by
    rw [mapStr, mapStr] at h
    rw [Json.pretty, Json.pretty, quote_chars, quote_chars, Json.str.inj h]
  | .arr .nil, .arr .nil, _, _ => rfl
  | .arr .nil, .arr (.cons _ _), _, h | .arr (.cons _ _), .arr .nil, _, h => by simp [mapStr, mapStrs] at h
  | .arr (.cons w l), .arr (.cons w' l'), n, h => by
    rw [mapStr, mapStr.eq_5 _ (.cons w' l'), Json.arr.injEq] at h
    rw [pa, pa, prettys_congr short (.cons w l) (.cons w' l') _ h]
  | .obj .nil, .obj .nil, _, _ => rfl
  | .obj .nil, .obj (.cons _ _ _), _, h | .obj (.cons _ _ _), .obj .nil, _, h => by simp [mapStr, mapStrm] at h
  | .obj (.cons k w l), .obj (.cons k' w' l'), n, h => by
    rw [mapStr, mapStr.eq_6 _ (.cons k' w' l'), Json.obj.injEq] at h
    rw [po, po, prettym_congr short (.cons k w l) (.cons k' w' l') _ h]
  | .null, .bool _, _, h | .null, .num _, _, h | .null, .str _, _, h | .null, .arr _, _, h
  | .null, .obj _, _, h | .bool _, .null, _, h | .bool _, .num _, _, h | .bool _, .str _, _, h
  | .bool _, .arr _, _, h | .bool _, .obj _, _, h | .num _, .null, _, h | .num _, .bool _, _, h
  | .num _, .str _, _, h | .num _, .arr _, _, h | .num _, .obj _, _, h | .str _, .null, _, h
  | .str _, .bool _, _, h | .str _, .num _, _, h | .str _, .arr _, _, h | .str _, .obj _, _, h
  | .arr _, .null, _, h | .arr _, .bool _, _, h | .arr _, .num _, _, h | .arr _, .str _, _, h
  | .arr _, .obj _, _, h | .obj _, .null, _, h | .obj _, .bool _, _, h | .obj _, .num _, _, h
  | .obj _, .str _, _, h | .obj _, .arr _, _, h => by simp [mapStr] at h
theorem prettys_congr (short : Bool) : ∀ (l l' : Jsons) (n : Nat), mapStrs (chars short) l = mapStrs (chars short) l' →
    l.pretty short n = l'.pretty short n
  | .nil, .nil, _, _ => rfl
  | .nil, .cons _ _, _, h | .cons _ _, .nil, _, h => by simp [mapStrs] at h
  | .cons _ .nil, .cons _ (.cons _ _), _, h | .cons _ (.cons _ _), .cons _ .nil, _, h => by simp [mapStrs] at h
  | .cons v .nil, .cons v' .nil, n, h => by
    simp only [mapStrs, Jsons.cons.injEq, and_true] at h
    rw [Jsons.pretty, Jsons.pretty, pretty_congr short v v' n h]
  | .cons v (.cons w l), .cons v' (.cons w' l'), n, h => by
    rw [js] at h
    rw [jp, jp, pretty_congr short v v' n h.1, prettys_congr short (.cons w l) (.cons w' l') n h.2]
theorem prettym_congr (short : Bool) : ∀ (l l' : Members) (n : Nat), mapStrm (chars short) l = mapStrm (chars short) l' →
    l.pretty short n = l'.pretty short n
  | .nil, .nil, _, _ => rfl
  | .nil, .cons _ _ _, _, h | .cons _ _ _, .nil, _, h => by simp [mapStrm] at h
  | .cons _ _ .nil, .cons _ _ (.cons _ _ _), _, h | .cons _ _ (.cons _ _ _), .cons _ _ .nil, _, h => by simp [mapStrm] at h
  | .cons k v .nil, .cons k' v' .nil, n, h => by
    simp only [mapStrm, Members.cons.injEq, and_true] at h
    rw [Members.pretty, Members.pretty, pretty_congr short v v' n h.2, quote_chars, quote_chars, h.1]
  | .cons k v (.cons j w l), .cons k' v' (.cons j' w' l'), n, h => by
    rw [ms] at h
    rw [mp, mp, pretty_congr short v v' n h.2.1, prettym_congr short (.cons j w l) (.cons j' w' l') n h.2.2, quote_chars, quote_chars, h.1]
end

theorem text_iff {short : Bool} {v v' : Json} (h : JNums v) (h' : JNums v') :
    v.text short = v'.text short ↔ mapStr (chars short) v = mapStr (chars short) v' := by
  refine ⟨fun e => text_alike short v v' h h' ?_ e, text_congr short v v'⟩
  exact (value_prefix (text_sound short v h) (text_sound short v' h') numEnd_nil numEnd_nil (by rw [e])).2.1

theorem pretty_iff {short : Bool} {v v' : Json} {n : Nat} (h : JNums v) (h' : JNums v') :
    v.pretty short n = v'.pretty short n ↔ mapStr (chars short) v = mapStr (chars short) v' := by
  refine ⟨fun e => pretty_alike short v v' n h h' ?_ e, pretty_congr short v v' n⟩
  exact (value_prefix (pretty_sound short v n h) (pretty_sound short v' n h') numEnd_nil numEnd_nil (by rw [e])).2.1

end Verif.Spec
