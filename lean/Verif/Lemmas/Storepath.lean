import Verif.Spec.Storepath
import Verif.Lemmas.Path
import Verif.Props.Nixbase32

namespace Verif.Storepath
open Verif.GoLib Verif.Nixbase32 Verif.Spec Verif.Props

theorem nameChar_iff (c : UInt8) : nameChar c = true ↔ c ∈ nameChars := by
  have key : ∀ n : Fin 256, (nameChar (UInt8.ofNat n) = true ↔ UInt8.ofNat n ∈ nameChars) := by
    decide +kernel
  have := key ⟨c.toNat, c.toNat_lt⟩
  simpa using this

theorem digit_nameChar {c : UInt8} (h : c ∈ b!"0123456789abcdfghijklmnpqrsvwxyz") : c ∈ nameChars := by
  have key : ∀ c ∈ b!"0123456789abcdfghijklmnpqrsvwxyz", c ∈ nameChars := by decide +kernel
  exact key c h

theorem slash_not_nameChar : (47 : UInt8) ∉ nameChars := by decide

theorem slash_not_digit : (47 : UInt8) ∉ b!"0123456789abcdfghijklmnpqrsvwxyz" := by decide

theorem validateLoop_ne_panic (m n : Nat) (l : Bytes) : validateLoop m n l ≠ .panic := by
  induction l generalizing n with
  | nil => simp [validateLoop]
  | cons c l ih =>
    unfold validateLoop
    simp only []
    split
    · simp
    · split
      · split
        · simp
        · exact ih _
      · exact ih _

theorem validateLoop_20 (l : Bytes) : ∀ n, n + l.length = 32 →
    (validateLoop 20 n l = .ok () ↔ ∀ c ∈ l, c ∈ alphabet) := by
  induction l with
  | nil => intro n _; simp [validateLoop]
  | cons c l ih =>
    intro n hn
    simp only [List.length_cons] at hn
    unfold validateLoop
    simp only [List.mem_cons, forall_eq_or_imp]
    cases hc : indexAlphabet c with
    | none =>
      have := indexAlphabet_eq_none.1 hc
      simp [this]
    | some d =>
      have hd := indexAlphabet_lt hc
      have hmem : c ∈ alphabet := by
        by_cases h : c ∈ alphabet
        · exact h
        · rw [indexAlphabet_eq_none.2 h] at hc; simp at hc
      simp only [hmem, true_and]
      split
      · rename_i hge
        have : n = 31 := by omega
        subst this
        rw [if_neg]
        · exact ih 32 (by omega)
        · have key : ∀ d : Fin 32, goShr (UInt8.ofNat d) (8 - 31 * 5 % 8) = 0 := by decide +kernel
          exact fun h => h (key ⟨d, hd⟩)
      · exact ih (n + 1) (by omega)

theorem validateString_32 (s : Bytes) (h : s.length = 32) : validateString s = .ok () ↔ HashPart s := by
  unfold validateString HashPart
  have : decodedLen s.length = 20 := by rw [h]; rfl
  rw [this, validateLoop_20 _ 0 (by simp [h])]
  simp [h, alphabet]

theorem decodeString_32 (s : Bytes) (h : HashPart s) : ∃ d, decodeString s = .ok d ∧ d.length = 20 := by
  have hl := h.1
  obtain ⟨d, hd⟩ := ((C04_validate_decode_partial s).2.1 20 (by rw [hl]; rfl)).1 ((validateString_32 s hl).2 h)
  refine ⟨d, hd, ?_⟩
  have := encodeToString_length d
  rw [← (C02_decode_iff_encode s d).1 hd, hl] at this
  unfold encodedLen at this
  omega

theorem encode_hashPart (d : Bytes) (h : d.length = 20) : HashPart (encodeToString d) := by
  obtain ⟨h1, h2, _⟩ := C03_encode_is_numeral d
  exact ⟨by rw [h1, h], h2⟩

/-- total length with a slash each -/
def wt (l : List Bytes) : Nat := (l.map fun c => c.length + 1).sum

theorem wt_cons (a : Bytes) (l : List Bytes) : wt (a :: l) = a.length + 1 + wt l := by simp [wt]

theorem cleanStep_wt (stack : List Bytes) (c : Bytes) : wt (cleanStep true stack c) ≤ wt stack + c.length + 1 := by
  unfold cleanStep
  split
  · omega
  · split
    · rename_i h
      cases stack with
      | nil => simp [wt]
      | cons a st =>
        simp only
        split
        · rw [wt_cons, h]; simp; omega
        · rw [wt_cons]; omega
    · rw [wt_cons]; omega

theorem foldl_wt (l : List Bytes) : ∀ stack, wt (l.foldl (cleanStep true) stack) ≤ wt stack + wt l := by
  induction l with
  | nil => intro stack; simp [wt]
  | cons c l ih =>
    intro stack
    simp only [List.foldl_cons]
    have := ih (cleanStep true stack c)
    have h2 := cleanStep_wt stack c
    rw [wt_cons]
    omega

theorem wt_reverse (l : List Bytes) : wt l.reverse = wt l := by
  simp [wt, List.sum_reverse]

theorem join_length (l : List Bytes) : (join l b!"/").length ≤ wt l - 1 ∧ (l ≠ [] → (join l b!"/").length + 1 = wt l) := by
  induction l with
  | nil => simp [join, wt]
  | cons a l ih =>
    by_cases hl : l = []
    · subst hl; simp [join, wt]
    · rw [join_cons hl, wt_cons]
      have := ih.2 hl
      simp only [List.length_append, List.length_cons, List.length_nil]
      exact ⟨by omega, fun _ => by omega⟩

theorem clean_length (p : Bytes) (h : p.head? = some 47) : (clean p).length ≤ p.length := by
  rw [clean_rooted p h, cleanComps_rooted p h]
  have h1 := foldl_wt (splitByte p 47) []
  cases p with
  | nil => simp at h
  | cons c p =>
    simp only [List.head?_cons, Option.some.injEq] at h
    subst h
    have h2 : splitByte (47 :: p) 47 = [] :: splitByte p 47 := by simp [splitByte]
    have h3 := (join_length (splitByte p 47)).2 (splitByte_ne_nil p 47)
    have h4 : join (splitByte p 47) b!"/" = p := join_splitByte p 47
    rw [h4] at h3
    have hnil : cleanStep true [] [] = [] := by simp [cleanStep]
    rw [h2, List.foldl_cons, hnil]
    have h5 := foldl_wt (splitByte p 47) []
    have h6 := (join_length ((splitByte p 47).foldl (cleanStep true) []).reverse).1
    rw [wt_reverse] at h6
    have h7 : wt [] = 0 := rfl
    unfold absPath
    simp only [List.length_cons]
    omega

theorem storeDir_abs : storeDir = absPath [b!"nix", b!"store"] := rfl

theorem pathJoin_store_length (s : Bytes) : (pathJoin storeDir s).length ≤ 11 + s.length := by
  unfold pathJoin
  rw [if_neg (by simp [storeDir]), if_neg (by simp [storeDir])]
  split
  · have : clean storeDir = storeDir := by decide +kernel
    rw [this]; simp [storeDir]; omega
  · have := clean_length (storeDir ++ b!"/" ++ s) rfl
    simp only [List.length_append, storeDir, List.length_cons, List.length_nil] at this ⊢
    omega

theorem pathJoin_store {s : Bytes} (h : Good s) : pathJoin storeDir s = b!"/nix/store/" ++ s := by
  rw [storeDir_abs, pathJoin_good (by decide +kernel) h]
  rfl

/-- the parts of a string that `validate` accepts -/
def Accepted (s : Bytes) : Prop :=
  ∃ c h d n, s = b!"/nix/store" ++ [c] ++ h ++ [d] ++ n ∧ HashPart h ∧ NameChars (d :: n)

theorem validate_iff (s : Bytes) : validate s = .ok () ↔ Accepted s := by
  unfold validate
  have e1 : hashOffset = 11 := rfl
  have e2 : encodedPathHashSize = 32 := rfl
  have e3 : nameOffset = 33 := rfl
  rw [e1, e2, e3]
  have hnp : ∀ x, validateString x ≠ .panic := fun x => validateLoop_ne_panic _ _ _
  constructor
  · intro h
    split at h
    · simp at h
    rename_i hlen
    split at h
    · simp at h
    rename_i hpre
    have hpre : s.take 10 = storeDir := Classical.not_not.1 hpre
    cases hv : validateString ((s.drop 11).take 32) with
    | panic => exact absurd hv (hnp _)
    | err e => rw [hv] at h; simp at h
    | ok u =>
      rw [hv] at h
      simp only at h
      split at h
      · rename_i hall
        have hh := (validateString_32 _ (by simp; omega)).1 hv
        obtain ⟨d, n, hdn⟩ : ∃ d n, s.drop 43 = d :: n := by
          cases hx : s.drop 43 with
          | nil => have := congrArg List.length hx; simp at this; omega
          | cons d n => exact ⟨d, n, rfl⟩
        obtain ⟨c, hc⟩ : ∃ c, (s.drop 10).take 1 = [c] := by
          cases hx : s.drop 10 with
          | nil => have := congrArg List.length hx; simp at this; omega
          | cons c n => exact ⟨c, rfl⟩
        refine ⟨c, (s.drop 11).take 32, d, n, ?_, hh, ?_⟩
        · have a1 : s = s.take 10 ++ s.drop 10 := (List.take_append_drop 10 s).symm
          have a2 : s.drop 10 = (s.drop 10).take 1 ++ (s.drop 10).drop 1 := (List.take_append_drop 1 _).symm
          have a3 : s.drop 11 = (s.drop 11).take 32 ++ (s.drop 11).drop 32 := (List.take_append_drop 32 _).symm
          rw [List.drop_drop] at a2 a3
          rw [hc] at a2
          conv => lhs; rw [a1, hpre, a2, a3, hdn]
          simp [storeDir]
        · intro x hx
          rw [← hdn] at hx
          rw [List.all_eq_true] at hall
          refine (nameChar_iff x).1 (hall x ?_)
          have : s.drop 43 = (s.drop 33).drop 10 := by rw [List.drop_drop]
          rw [this] at hx
          exact List.mem_of_mem_drop hx
      · simp at h
  · rintro ⟨c, h, d, n, rfl, hh, hn⟩
    have hl := hh.1
    rw [if_neg (by simp; omega), if_neg (by simp [storeDir])]
    have hd : (b!"/nix/store" ++ [c] ++ h ++ [d] ++ n).drop 11 = h ++ [d] ++ n := by simp
    rw [hd]
    have ht : (h ++ [d] ++ n).take 32 = h := by
      rw [List.append_assoc, List.take_left' hl]
    rw [ht, (validateString_32 h hl).2 hh]
    simp only
    rw [if_pos]
    rw [List.all_eq_true]
    intro x hx
    have : (b!"/nix/store" ++ [c] ++ h ++ [d] ++ n).drop 33 =
        ((b!"/nix/store" ++ [c] ++ h ++ [d] ++ n).drop 11).drop 22 := by rw [List.drop_drop]
    rw [this, hd] at hx
    have hx := List.mem_of_mem_drop hx
    rw [nameChar_iff]
    simp only [List.mem_append, List.mem_singleton] at hx
    rcases hx with (hx | hx) | hx
    · exact digit_nameChar (hh.2 x hx)
    · exact hn x (by simp [hx])
    · exact hn x (by simp [hx])

theorem validate_ne_panic (s : Bytes) : validate s ≠ .panic := by
  unfold validate
  split
  · simp
  split
  · simp
  split
  · simp
  · rename_i h; exact absurd h (validateLoop_ne_panic _ _ _)
  · split <;> simp

theorem decodeString_ne_panic (s : Bytes) : decodeString s ≠ .panic := by
  unfold decodeString
  split
  · rename_i h
    exact absurd h (C05_no_panic _ _ (by simp))
  · simp
  · simp

/-- what `fromString` returns -/
theorem fromString_eq (s : Bytes) :
    fromString s ≠ .panic ∧ ∀ p, fromString s = .ok p ↔
      validate (pathJoin storeDir s) = .ok () ∧ 33 ≤ s.length ∧
        decodeString (s.take 32) = .ok p.digest ∧ p.name = s.drop 33 := by
  have e3 : nameOffset = 33 := rfl
  unfold fromString
  rw [e3]
  cases hv : validate (pathJoin storeDir s) with
  | panic => exact absurd hv (validate_ne_panic _)
  | err e => simp
  | ok u =>
    have hlen : 33 ≤ s.length := by
      obtain ⟨c, h, d, n, he, hh, _⟩ := (validate_iff _).1 hv
      have h1 := pathJoin_store_length s
      rw [he] at h1
      have := hh.1
      simp at h1
      omega
    simp only [Res.bind_ok]
    rw [if_neg (by omega)]
    cases hd : decodeString (s.take 32) with
    | panic => exact absurd hd (decodeString_ne_panic _)
    | err e => simp [hd]
    | ok d =>
      simp only [Nat.reduceSub, hd]
      rw [if_neg (by omega)]
      refine ⟨by simp, fun p => ?_⟩
      obtain ⟨n, d'⟩ := p
      simp only [Res.ok.injEq, StorePath.mk.injEq, hlen, true_and]
      constructor
      · rintro ⟨rfl, rfl⟩; exact ⟨rfl, rfl⟩
      · rintro ⟨rfl, rfl⟩; exact ⟨rfl, rfl⟩

theorem good_of_noslash {s : Bytes} (hl : 33 ≤ s.length) (hs : (47 : UInt8) ∉ s) : Good s := by
  refine ⟨?_, ?_, ?_, hs⟩ <;> rintro rfl <;> simp at hl

end Verif.Storepath
