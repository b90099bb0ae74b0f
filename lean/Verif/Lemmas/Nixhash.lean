import Verif.Lemmas.GoLib
import Verif.Lemmas.Nixbase32
import Verif.Model.Nixhash
import Verif.Spec.Nixhash
import Verif.Props.Nixbase32

namespace Verif.Nixhash
open Verif.GoLib Verif.Spec

structure Row (a : Algorithm) (name : Bytes) (n : Nat) : Prop where
  no58 : (58 : UInt8) ∉ name
  no45 : (45 : UInt8) ∉ name
  ne : name ≠ []
  parse : parseAlgorithm name = .ok a
  str : algoString a = .ok name
  size : funcSize a = .ok n
  h1 : Nixbase32.encodedLen n ≠ hexEncodedLen n
  h2 : b64EncodedLen n ≠ hexEncodedLen n
  h3 : b64EncodedLen n ≠ Nixbase32.encodedLen n

theorem row_of_mem {a name n} (h : (a, name, n) ∈ hashAlgos) : Row a name n := by
  simp only [hashAlgos, List.mem_cons, List.not_mem_nil, or_false, Prod.mk.injEq] at h
  rcases h with ⟨rfl, rfl, rfl⟩ | ⟨rfl, rfl, rfl⟩ | ⟨rfl, rfl, rfl⟩ | ⟨rfl, rfl, rfl⟩ <;>
    constructor <;> decide

theorem parseAlgorithm_ok {s a} (h : parseAlgorithm s = .ok a) : ∃ n, (a, s, n) ∈ hashAlgos := by
  unfold parseAlgorithm at h
  repeat' split at h
  all_goals first
    | (simp at h; done)
    | (simp only [Res.ok.injEq] at h; subst h; subst_vars; simp [hashAlgos, MD5, SHA1, SHA256, SHA512])

theorem funcSize_ok {a n} (h : funcSize a = .ok n) : ∃ s, (a, s, n) ∈ hashAlgos := by
  unfold funcSize at h
  repeat' split at h
  all_goals first
    | (simp at h; done)
    | (simp only [Res.ok.injEq] at h; subst h; subst_vars; simp [hashAlgos, MD5, SHA1, SHA256, SHA512])

theorem row_unique {a s s' n n'} (h : (a, s, n) ∈ hashAlgos) (h' : (a, s', n') ∈ hashAlgos) :
    s = s' ∧ n = n' := by
  have r := row_of_mem h; have r' := row_of_mem h'
  have e1 := r.str.symm.trans r'.str
  have e2 := r.size.symm.trans r'.size
  exact ⟨Res.ok.inj e1, Res.ok.inj e2⟩

theorem findSep_colon {name rest : Bytes} (h : (58 : UInt8) ∉ name) (hn : name ≠ []) :
    findSep (name ++ 58 :: rest) = (some name.length, false) := by
  unfold findSep
  rw [indexByte_append h]
  cases name with
  | nil => exact absurd rfl hn
  | cons => rfl

theorem findSep_dash {name rest : Bytes} (h : (58 : UInt8) ∉ name) (h' : (45 : UInt8) ∉ name)
    (hr : (58 : UInt8) ∉ rest) (hn : name ≠ []) :
    findSep (name ++ 45 :: rest) = (some name.length, true) := by
  unfold findSep
  have h58 : indexByte (name ++ 45 :: rest) 58 = none := by
    rw [indexByte_none]; simp; exact ⟨h, hr⟩
  rw [h58, indexByte_append h']
  cases name with
  | nil => exact absurd rfl hn
  | cons => rfl

theorem findSep_none {s : Bytes} (h : (58 : UInt8) ∉ s) (h' : (45 : UInt8) ∉ s) :
    findSep s = (none, false) := by
  unfold findSep
  rw [indexByte_none.mpr h, indexByte_none.mpr h']

theorem findSep_some {s : Bytes} {i : Nat} {sri : Bool} (h : findSep s = (some i, sri)) :
    ∃ sep, s = s.take i ++ sep :: s.drop (i + 1) ∧ i ≤ s.length ∧ sep = (if sri then 45 else 58) := by
  have key : ∀ c j, indexByte s c = some j → s = s.take j ++ c :: s.drop (j + 1) ∧ j ≤ s.length := by
    intro c j hj
    obtain ⟨_, h2⟩ := indexByte_some.mp hj
    obtain ⟨hlt, he⟩ := List.getElem?_eq_some_iff.mp h2
    refine ⟨?_, by omega⟩
    conv => lhs; rw [← List.take_append_drop j s, List.drop_eq_getElem_cons hlt, he]
  unfold findSep at h
  split at h
  · rename_i j hj
    simp at h; obtain ⟨rfl, rfl⟩ := h
    exact ⟨58, (key _ _ hj).1, (key _ _ hj).2, rfl⟩
  · split at h
    · rename_i j hj
      simp at h; obtain ⟨rfl, rfl⟩ := h
      exact ⟨45, (key _ _ hj).1, (key _ _ hj).2, rfl⟩
    · simp at h

theorem encodeToString_no (b : Bytes) (c : UInt8) (h : c ∉ nixDigits) :
    c ∉ Nixbase32.encodeToString b :=
  fun hc => h ((Props.C03_encode_is_numeral b).2.1 c hc)

theorem hexEncode_no (b : Bytes) (c : UInt8) (h : c ∉ hexDigits) : c ∉ hexEncode b :=
  fun hc => h (hexEncode_mem b c hc)

/-- The body (text after the prefix) for a digest in an encoding. -/
def body (e : Encoding) (d : Bytes) : Bytes :=
  if e = Base16 then hexEncode d
  else if e = NixBase32 then Nixbase32.encodeToString d
  else b64Encode d

theorem body_no58 (e d) : (58 : UInt8) ∉ body e d := by
  unfold body
  split
  · exact hexEncode_no _ _ (by decide)
  split
  · exact encodeToString_no _ _ (by decide)
  · exact b64Encode_no _ _ (by decide) (by decide)

theorem body_no45 (e d) : (45 : UInt8) ∉ body e d := by
  unfold body
  split
  · exact hexEncode_no _ _ (by decide)
  split
  · exact encodeToString_no _ _ (by decide)
  · exact b64Encode_no _ _ (by decide) (by decide)

theorem decodeByLen_body {a name n} (r : Row a name n) (e : Encoding) (d : Bytes)
    (hd : d.length = n) (he : e = Base16 ∨ e = NixBase32 ∨ e = Base64) :
    decodeByLen n (body e d) = .ok (e, d) := by
  rcases he with rfl | rfl | rfl
  · have hb : body Base16 d = hexEncode d := rfl
    rw [hb]
    unfold decodeByLen
    rw [if_pos (by rw [hexEncode_length, hexEncodedLen]; omega), hexDecode_encode]
    rfl
  · have hb : body NixBase32 d = Nixbase32.encodeToString d := rfl
    have hl : (Nixbase32.encodeToString d).length = Nixbase32.encodedLen n := by
      rw [Nixbase32.encodeToString_length, hd]
    rw [hb]
    unfold decodeByLen
    rw [if_neg (by rw [hl]; exact r.h1), if_pos hl, Props.C01_decode_encode]
    rfl
  · have hb : body Base64 d = b64Encode d := rfl
    have hl : (b64Encode d).length = b64EncodedLen n := by rw [b64Encode_length, hd]
    rw [hb]
    unfold decodeByLen
    rw [if_neg (by rw [hl]; exact r.h2), if_neg (by rw [hl]; exact r.h3), if_pos hl,
      b64Decode_encode]
    rfl

theorem decodeByLen_enc {n s e d} (h : decodeByLen n s = .ok (e, d)) :
    e = Base16 ∨ e = NixBase32 ∨ e = Base64 := by
  unfold decodeByLen at h
  repeat' split at h
  all_goals first
    | (simp at h; done)
    | (rw [Res.bind_eq_ok] at h; obtain ⟨_, _, h⟩ := h; simp at h; simp [← h.1])

theorem decodeByLen_b32 {n s d} (h : decodeByLen n s = .ok (NixBase32, d)) :
    s = Nixbase32.encodeToString d ∧ s.length = Nixbase32.encodedLen n := by
  unfold decodeByLen at h
  split at h
  · rw [Res.bind_eq_ok] at h; obtain ⟨_, _, h⟩ := h; simp [Base16, NixBase32] at h
  split at h
  · rename_i hl
    rw [Res.bind_eq_ok] at h; obtain ⟨x, hx, h⟩ := h; simp at h; subst h
    exact ⟨(Props.C02_decode_iff_encode _ _).mp hx, hl⟩
  split at h
  · rw [Res.bind_eq_ok] at h; obtain ⟨_, _, h⟩ := h; simp [Base64, NixBase32] at h
  · simp at h

theorem parsePrefix_some {s opt i al incl body}
    (h : parsePrefix s opt (some i) = .ok (al, incl, body)) :
    parseAlgorithm (s.take i) = .ok al ∧ incl = true ∧ body = s.drop (i + 1) ∧
      (∀ a, opt = some a → a = al) := by
  unfold parsePrefix at h
  simp only [] at h
  split at h
  · rename_i al' hal
    cases opt with
    | none => simp at h; obtain ⟨rfl, rfl, rfl⟩ := h; simp [hal]
    | some a =>
      simp only [] at h
      split at h
      · simp at h
      · rename_i hne
        simp at h hne; obtain ⟨rfl, rfl, rfl⟩ := h
        refine ⟨hal, rfl, rfl, ?_⟩
        intro a' ha'; simp at ha'; rw [← ha', hne]
  · simp at h
  · simp at h

/-- Decomposition of a successful `ParseAny`. -/
theorem parseAny_ok {s : Bytes} {opt : Option Algorithm} {h : HashWithEncoding}
    (hp : parseAny s opt = .ok h) :
    ∃ name n, (h.hash.algo, name, n) ∈ hashAlgos ∧ (∀ a, opt = some a → a = h.hash.algo) ∧
      ((h.includeAlgo = true ∧ ∃ rest, s = name ++ 58 :: rest ∧
          decodeByLen n rest = .ok (h.encoding, h.hash.digest)) ∨
       (h.includeAlgo = true ∧ h.encoding = SRI ∧ ∃ rest, s = name ++ 45 :: rest ∧
          decodeByLen n rest = .ok (Base64, h.hash.digest)) ∨
       (h.includeAlgo = false ∧ opt = some h.hash.algo ∧
          decodeByLen n s = .ok (h.encoding, h.hash.digest))) := by
  unfold parseAny at hp
  rw [Res.bind_eq_ok] at hp
  obtain ⟨⟨al, incl, body⟩, hpre, hp⟩ := hp
  rw [Res.bind_eq_ok] at hp
  obtain ⟨n, hn, hp⟩ := hp
  rw [Res.bind_eq_ok] at hp
  obtain ⟨⟨enc, d⟩, hdec, hp⟩ := hp
  simp only [] at hn hdec hp
  rcases hs : findSep s with ⟨sep, sri⟩
  rw [hs] at hp hpre
  simp only [] at hp hpre
  cases sep with
  | none =>
    have hsri : sri = false := by
      unfold findSep at hs
      split at hs
      · simp at hs
      · split at hs <;> simp at hs
        exact hs
    subst hsri
    cases opt with
    | none => simp [parsePrefix] at hpre
    | some a =>
      simp [parsePrefix] at hpre
      obtain ⟨rfl, rfl, rfl⟩ := hpre
      simp only [Bool.false_eq_true, if_false, Res.ok.injEq] at hp
      subst hp
      obtain ⟨name, hrow⟩ := funcSize_ok hn
      exact ⟨name, n, hrow, by simp, .inr (.inr ⟨rfl, rfl, hdec⟩)⟩
  | some i =>
    obtain ⟨hal, rfl, rfl, hopt⟩ := parsePrefix_some hpre
    obtain ⟨sepc, hs1, hil, hsepc⟩ := findSep_some hs
    obtain ⟨n', hrow⟩ := parseAlgorithm_ok hal
    have hnn : n' = n := by
      have := (row_of_mem hrow).size.symm.trans hn
      exact Res.ok.inj this
    subst hnn
    cases sri with
    | false =>
      simp only [Bool.false_eq_true, if_false, Res.ok.injEq] at hp
      subst hp
      simp only [Bool.false_eq_true, if_false] at hsepc
      subst hsepc
      exact ⟨_, _, hrow, hopt, .inl ⟨rfl, _, hs1, hdec⟩⟩
    | true =>
      simp only [if_true] at hp hsepc
      subst hsepc
      split at hp
      · rename_i he
        simp only [Res.ok.injEq] at hp
        subst hp
        subst he
        exact ⟨_, _, hrow, hopt, .inr (.inl ⟨rfl, rfl, _, hs1, hdec⟩)⟩
      · simp at hp

theorem parsePrefix_name {a name n} (r : Row a name n) {sep : UInt8} {rest : Bytes}
    {opt : Option Algorithm} (hopt : ∀ x, opt = some x → x = a) :
    parsePrefix (name ++ sep :: rest) opt (some name.length) = .ok (a, true, rest) := by
  unfold parsePrefix
  have hd : (name ++ sep :: rest).drop (name.length + 1) = rest := by
    have : name ++ sep :: rest = (name ++ [sep]) ++ rest := by simp
    rw [this, List.drop_left' (by simp)]
  simp only []
  rw [List.take_left, r.parse, hd]
  cases opt with
  | none => rfl
  | some x => have := hopt x rfl; subst this; simp

theorem parseAny_colon {a name n} (hrow : (a, name, n) ∈ hashAlgos) {rest : Bytes} {e d}
    {opt : Option Algorithm} (hopt : ∀ x, opt = some x → x = a)
    (hdec : decodeByLen n rest = .ok (e, d)) :
    parseAny (name ++ 58 :: rest) opt = .ok ⟨⟨a, d⟩, e, true⟩ := by
  have r := row_of_mem hrow
  unfold parseAny
  rw [findSep_colon r.no58 r.ne]
  simp only []
  rw [parsePrefix_name r hopt]
  simp [r.size, hdec]

theorem parseAny_dash {a name n} (hrow : (a, name, n) ∈ hashAlgos) {rest : Bytes} {d}
    {opt : Option Algorithm} (hopt : ∀ x, opt = some x → x = a) (hr : (58 : UInt8) ∉ rest)
    (hdec : decodeByLen n rest = .ok (Base64, d)) :
    parseAny (name ++ 45 :: rest) opt = .ok ⟨⟨a, d⟩, SRI, true⟩ := by
  have r := row_of_mem hrow
  unfold parseAny
  rw [findSep_dash r.no58 r.no45 hr r.ne]
  simp only []
  rw [parsePrefix_name r hopt]
  simp [r.size, hdec]

theorem parseAny_bare {a name n} (hrow : (a, name, n) ∈ hashAlgos) {rest : Bytes} {e d}
    (hr : (58 : UInt8) ∉ rest) (hr' : (45 : UInt8) ∉ rest)
    (hdec : decodeByLen n rest = .ok (e, d)) :
    parseAny rest (some a) = .ok ⟨⟨a, d⟩, e, false⟩ := by
  have r := row_of_mem hrow
  unfold parseAny
  rw [findSep_none hr hr']
  simp [parsePrefix, r.size, hdec]

theorem format_eq {a name n} (hrow : (a, name, n) ∈ hashAlgos) (d : Bytes) (e : Encoding)
    (he : e ∈ hashEncodings) (incl : Bool) :
    Hash.format ⟨a, d⟩ e incl =
      .ok (if e = SRI then name ++ 45 :: body e d
        else if incl then name ++ 58 :: body e d else body e d) := by
  have r := row_of_mem hrow
  unfold Hash.format body
  simp only [r.str]
  simp only [hashEncodings, List.mem_cons, List.not_mem_nil, or_false] at he
  rcases he with rfl | rfl | rfl | rfl <;> cases incl <;> simp [Base16, Base64, NixBase32, SRI]

end Verif.Nixhash

namespace Verif.Nixhash
open Verif.Spec

theorem compressLoop_length (n : Nat) (l : Bytes) (start : Nat) (buf : Bytes) :
    (compressLoop n start l buf).length = buf.length := by
  induction l generalizing start buf with
  | nil => rfl
  | cons x l ih => simp [compressLoop, ih]

theorem compressLoop_getElem (n i : Nat) (l : Bytes) (start : Nat) (buf : Bytes)
    (hl : buf.length = n) (hi : i < n) :
    (compressLoop n start l buf).getD i 0 = buf.getD i 0 ^^^ xorAt n i start l := by
  induction l generalizing start buf with
  | nil => simp [compressLoop, xorAt]
  | cons x l ih =>
    simp only [compressLoop, xorAt]
    rw [ih _ _ (by simpa using hl)]
    rw [← UInt8.xor_assoc]
    congr 1
    have hm : start % n < buf.length := by rw [hl]; exact Nat.mod_lt _ (by omega)
    by_cases h : start % n = i
    · subst h
      simp [List.getD, hm]
    · simp [List.getD, h]

theorem xorAt_xor (n i : Nat) (a b : Bytes) (start : Nat) (h : a.length = b.length) :
    xorAt n i start (List.zipWith (· ^^^ ·) a b) = xorAt n i start a ^^^ xorAt n i start b := by
  induction a generalizing b start with
  | nil => cases b <;> simp_all [xorAt]
  | cons x a ih =>
    cases b with
    | nil => simp at h
    | cons y b =>
      simp only [List.zipWith_cons_cons, xorAt]
      rw [ih b (start + 1) (by simpa using h)]
      have sw : ∀ p q r s : UInt8, p ^^^ q ^^^ (r ^^^ s) = p ^^^ r ^^^ (q ^^^ s) := by
        intro p q r s; ac_rfl
      split
      · rw [sw]
      · simp

end Verif.Nixhash
