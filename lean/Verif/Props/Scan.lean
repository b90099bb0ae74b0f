import Verif.Lemmas.Scan
import Verif.Lemmas.Store
import Verif.Props.Narinfo

/-!
# C124: parsing does not depend on how the input arrives

`FReader` is an `io.Reader` that delivers the pieces `chunks` and then the error `term` (with
`eager`: together with its last piece); `r.abs` is the stream of all its bytes. `Scan.parse` is `narinfo.Parse`
through `bufio.Scanner`, `Scan.readDerivation` is `derivation.ReadDerivation` through `io.ReadAll`.
-/

namespace Verif.Props
open Verif.GoLib Verif.Wire Verif.Spec Verif.Scan

/-- the end of `Parse` -/
def finish (e : Err) (n : Narinfo.NarInfo) : Res Narinfo.NarInfo :=
  if e ≠ .eof then .err e
  else .ok (if n.compression = [] then { n with compression := b!"bzip2" } else n)

/-- `Parse` on lines; `f`: the last one came together with the error -/
def onLines (cap : Nat) (e : Err) (f : Bool) : List Bytes → Narinfo.NarInfo → Res Narinfo.NarInfo
  | [], n => finish e n
  | [l], n =>
    if cap < l.length ∨ (l.length = cap ∧ f = false) then .err tooLong
    else do
      let n' ← parseToken n (dropCR l)
      finish e n'
  | l :: ls, n =>
    if cap ≤ l.length then .err tooLong
    else do
      let n' ← parseToken n (dropCR l)
      onLines cap e f ls n'

theorem split_first {T : Bytes} (h : 10 ∈ T) :
    splitByte T 10 = T.takeWhile (· != 10) :: splitByte (T.drop ((T.takeWhile (· != 10)).length + 1)) 10 := by
  induction T with
  | nil => simp at h
  | cons x T ih =>
    by_cases hx : x = 10
    · subst hx; simp [splitByte]
    · have : 10 ∈ T := by
        rcases List.mem_cons.1 h with h | h
        · exact absurd h.symm hx
        · exact h
      rw [splitByte, if_neg (by simpa using hx), ih this, List.takeWhile_cons_of_pos (by simpa using hx)]
      simp

theorem split_cons (s : Bytes) (c : UInt8) : ∃ x xs, splitByte s c = x :: xs :=
  List.exists_cons_of_ne_nil (splitByte_ne_nil s c)

theorem parseLoop_spec (cap : Nat) (hcap : 0 < cap) : ∀ (fuel : Nat) (s : Scanner) (T : Bytes) (e : Err) (f : Bool)
    (n : Narinfo.NarInfo), Rest cap s T e f → T.length + 1 < fuel →
    Scan.parseLoop cap fuel s n = onLines cap e f (splitByte T 10) n := by
  intro fuel
  induction fuel with
  | zero => intro s T e f n _ h; omega
  | succ fuel ih =>
    intro s T e f n hR hf
    obtain ⟨s1, s2, s3, s4, s5⟩ := scanLoop_spec cap hcap (s.r.fuel + 2) s T e f hR (fun _ => Nat.le_refl _) (by omega)
    have hs : s.scan cap = scanLoop cap (s.r.fuel + 2) s := rfl
    rw [Scan.parseLoop, hs]
    rcases hsc : scanLoop cap (s.r.fuel + 2) s with ⟨o, s'⟩
    rw [hsc] at s1 s2 s3 s4 s5
    simp only [] at s1 s2 s3 s4 s5
    by_cases hnl : 10 ∈ T
    · rw [split_first hnl]
      obtain ⟨x, xs, hx⟩ := split_cons (T.drop ((T.takeWhile (· != 10)).length + 1)) 10
      have hon : ∀ l, onLines cap e f (l :: splitByte (T.drop ((T.takeWhile (· != 10)).length + 1)) 10) n =
          if cap ≤ l.length then .err tooLong
          else (parseToken n (dropCR l)).bind fun n' =>
            onLines cap e f (splitByte (T.drop ((T.takeWhile (· != 10)).length + 1)) 10) n' := by
        intro l
        rw [hx, onLines]
        · rfl
        · simp
      rw [hon]
      by_cases hl : (T.takeWhile (· != 10)).length < cap
      · obtain ⟨rfl, h2⟩ := s1 hnl hl
        rw [if_neg (show ¬ cap ≤ (T.takeWhile (· != 10)).length by omega)]
        simp only []
        cases parseToken n (dropCR (T.takeWhile (· != 10))) with
        | ok n' =>
          simp only [Res.bind_ok]
          apply ih _ _ _ _ _ h2
          simp only [List.length_drop]
          have := takeWhile_lt hnl
          omega
        | err e => rfl
        | panic => rfl
      · obtain ⟨rfl, h2⟩ := s2 hnl (by omega)
        rw [if_pos (show cap ≤ (T.takeWhile (· != 10)).length by omega)]
        simp only [h2]
        rfl
    · rw [splitByte_self hnl, onLines]
      by_cases hT : T = []
      · obtain ⟨rfl, h2⟩ := s3 hnl hT
        simp only [h2]
        subst hT
        rw [if_neg (show ¬ (cap < ([] : Bytes).length ∨ ([] : Bytes).length = cap ∧ f = false) by simp; omega)]
        rfl
      · by_cases hl : T.length < cap ∨ T.length = cap ∧ f = true
        · obtain ⟨rfl, h2⟩ := s4 hnl hT hl
          have hno : ¬ (cap < T.length ∨ T.length = cap ∧ f = false) := by
            rintro (h | ⟨h, h'⟩)
            · omega
            · rcases hl with hl | hl
              · omega
              · rw [hl.2] at h'; simp at h'
          rw [if_neg hno]
          simp only []
          cases parseToken n (dropCR T) with
          | ok n' =>
            simp only [Res.bind_ok]
            have hp := List.length_pos_iff.2 hT
            rw [ih _ _ _ _ _ h2 (by simp; omega)]
            rw [show splitByte [] 10 = [[]] from rfl, onLines,
              if_neg (show ¬ (cap < ([] : Bytes).length ∨ ([] : Bytes).length = cap ∧ f = false) by simp; omega)]
            rfl
          | err e => rfl
          | panic => rfl
        · have hl' : cap < T.length ∨ T.length = cap ∧ f = false := by
            cases f <;> simp at hl ⊢ <;> omega
          obtain ⟨rfl, h2⟩ := s5 hnl hl' hT
          rw [if_pos hl']
          simp only [h2]
          rfl

theorem onLines_parse (e : Err) (f : Bool) : ∀ (ls : List Bytes) (n : Narinfo.NarInfo), ls ≠ [] →
    (f = true → ∀ l, ls.getLast? = some l → l.length ≠ Narinfo.maxCapacity) →
    onLines Narinfo.maxCapacity e f ls n = (Narinfo.parseLines n ls).bind (finish e)
  | [], _, h, _ => absurd rfl h
  | [l], n, _, h => by
    rw [onLines, Narinfo.parseLines]
    unfold Narinfo.parseLine
    have hc : (Narinfo.maxCapacity < l.length ∨ (l.length = Narinfo.maxCapacity ∧ f = false)) ↔
        l.length ≥ Narinfo.maxCapacity := by
      constructor
      · rintro (h | h) <;> omega
      · intro h1
        rcases Nat.lt_or_ge Narinfo.maxCapacity l.length with h2 | h2
        · exact .inl h2
        · have h3 : l.length = Narinfo.maxCapacity := by omega
          refine .inr ⟨h3, ?_⟩
          cases f with
          | false => rfl
          | true => exact absurd h3 (h rfl l rfl)
    by_cases h1 : l.length ≥ Narinfo.maxCapacity
    · rw [if_pos (hc.2 h1), if_pos h1]; rfl
    · rw [if_neg (fun h2 => h1 (hc.1 h2)), if_neg h1]
      show (parseToken n (dropCR l)).bind (finish e) = ((parseToken n (dropCR l)).bind (fun n' => Narinfo.parseLines n' [])).bind (finish e)
      cases parseToken n (dropCR l) <;> rfl
  | l :: l' :: ls, n, _, h => by
    rw [onLines, Narinfo.parseLines]
    · unfold Narinfo.parseLine
      by_cases h1 : l.length ≥ Narinfo.maxCapacity
      · rw [if_pos h1, if_pos h1]; rfl
      · rw [if_neg h1, if_neg h1]
        show (parseToken n (dropCR l)).bind (fun n' => onLines Narinfo.maxCapacity e f (l' :: ls) n') = ((parseToken n (dropCR l)).bind (fun n' => Narinfo.parseLines n' (l' :: ls))).bind (finish e)
        cases parseToken n (dropCR l) with
        | ok n' =>
          exact onLines_parse e f (l' :: ls) n' (by simp) (by simpa [List.getLast?_cons_cons] using h)
        | err _ => rfl
        | panic => rfl
    · simp

theorem scan_parse (r : FReader) : Scan.parse r =
    onLines Narinfo.maxCapacity (finErr r 0) (lastWithErr r && !stuck r.eager 0 r.chunks)
      (splitByte (seen r.eager 0 r.chunks) 10) Narinfo.empty := by
  have hle : ∀ n cs, (seen r.eager n cs).length ≤ cs.flatten.length := by
    intro n cs
    induction cs generalizing n with
    | nil => simp [seen]
    | cons c cs ih =>
      cases c with
      | nil =>
        unfold seen
        split
        · simp
        · split
          · simp
          · simpa using ih (n + 1)
      | cons x c =>
        rw [seen]
        · have := ih 0
          rw [List.flatten_cons, List.length_append, List.length_append]; omega
        · simp
  unfold Scan.parse
  apply parseLoop_spec _ (by decide)
  · exact ⟨by simp, by simp, rfl, rfl⟩
  · have := hle 0 r.chunks
    omega

/-- C124 (`narinfo.Parse`): however the input is cut into pieces, also with empty reads, up to 100 in a row, the result is that of the whole
input. (The one exception is a last line without newline that exactly fills the buffer, from a reader
that returns its last bytes together with its error: see `C124_parse_full`.) -/
theorem C124_parse (r : FReader) (hs : ¬ List.replicate 101 [] <:+: r.chunks)
    (hl : lastWithErr r = true → ∀ l, (splitByte r.chunks.flatten 10).getLast? = some l → l.length ≠ Narinfo.maxCapacity) :
    Scan.parse r = Narinfo.parse r.abs := by
  have hst : stuck r.eager 0 r.chunks = false := by
    have key : ∀ cs n, n ≤ 100 → stuck r.eager n cs = true →
        List.replicate (101 - n) [] <+: cs ∨ List.replicate 101 [] <:+: cs := by
      intro cs
      induction cs with
      | nil => intro n _ h; simp [stuck] at h
      | cons c cs ih =>
        intro n hn h
        cases c with
        | nil =>
          unfold stuck at h
          split at h
          · simp at h
          · split at h
            · rename_i h2
              subst h2
              exact .inl ⟨cs, rfl⟩
            · rcases ih (n + 1) (by omega) h with ⟨t, ht⟩ | h'
              · left
                refine ⟨t, ?_⟩
                rw [← ht, show 101 - n = (101 - (n + 1)) + 1 by omega, List.replicate_succ]
                rfl
              · exact .inr (h'.trans (List.suffix_cons _ _).isInfix)
        | cons x c =>
          rw [stuck] at h
          · rcases ih 0 (by omega) h with h' | h'
            · exact .inr (h'.isInfix.trans (List.suffix_cons _ _).isInfix)
            · exact .inr (h'.trans (List.suffix_cons _ _).isInfix)
          · simp
    cases h : stuck r.eager 0 r.chunks with
    | false => rfl
    | true =>
      rcases key r.chunks 0 (by omega) h with h' | h'
      · exact absurd h'.isInfix hs
      · exact absurd h' hs
  rw [scan_parse, seen_eq _ _ _ hst, onLines_parse]
  · unfold finErr
    rw [hst]
    rfl
  · exact splitByte_ne_nil _ _
  · rw [hst]; simpa using hl

/-- C124: after 101 empty reads in a row the scanner gives up: the result is that of the input up to there,
with `io.ErrNoProgress` as the error at its end. -/
theorem C124_parse_stuck (r : FReader) (hs : stuck r.eager 0 r.chunks = true) :
    Scan.parse r = Narinfo.parse ⟨seen r.eager 0 r.chunks, noProgress⟩ := by
  rw [scan_parse, onLines_parse]
  · unfold finErr
    rw [hs]
    rfl
  · exact splitByte_ne_nil _ _
  · rw [hs]; simp

theorem onLines_full (cap : Nat) (e : Err) : ∀ (ls : List Bytes) (l : Bytes) (n : Narinfo.NarInfo), cap = Narinfo.maxCapacity →
    l.length = cap → onLines cap e true (ls ++ [l]) n = (Narinfo.parseLines n ls).bind fun n' =>
      (parseToken n' (dropCR l)).bind (finish e)
  | [], l, n, _, h2 => by
    rw [List.nil_append, onLines, if_neg (by
      rintro (h | h)
      · omega
      · simp at h)]
    rfl
  | a :: ls, l, n, h1, h2 => by
    obtain ⟨b, bs, hb⟩ := List.exists_cons_of_ne_nil (l := ls ++ [l]) (by simp)
    have : onLines cap e true (a :: ls ++ [l]) n = if cap ≤ a.length then .err tooLong
        else (parseToken n (dropCR a)).bind fun n' => onLines cap e true (ls ++ [l]) n' := by
      rw [List.cons_append, hb, onLines]
      · rfl
      · simp
    rw [this, Narinfo.parseLines]
    unfold Narinfo.parseLine
    rw [← h1]
    by_cases h3 : cap ≤ a.length
    · rw [if_pos h3, if_pos h3]; rfl
    · rw [if_neg h3, if_neg h3]
      show (parseToken n (dropCR a)).bind _ = ((parseToken n (dropCR a)).bind fun n' => Narinfo.parseLines n' ls).bind _
      cases parseToken n (dropCR a) with
      | ok n' => exact onLines_full cap e ls l n' h1 h2
      | err _ => rfl
      | panic => rfl

/-- C124: the exception. The last line exactly fills the buffer, and the reader returns its last bytes together with its
error: then this line is parsed like any other instead of being refused as too long. -/
theorem C124_parse_full (r : FReader) (hs : stuck r.eager 0 r.chunks = false) (hw : lastWithErr r = true)
    (ls : List Bytes) (l : Bytes) (h : splitByte r.chunks.flatten 10 = ls ++ [l]) (hl : l.length = Narinfo.maxCapacity) :
    Scan.parse r = (Narinfo.parseLines Narinfo.empty ls).bind fun n =>
      (parseToken n (dropCR l)).bind fun n' =>
        if r.term ≠ .eof then .err r.term
        else .ok (if n'.compression = [] then { n' with compression := b!"bzip2" } else n') := by
  rw [scan_parse, seen_eq _ _ _ hs, hs, hw, h]
  rw [show (true && !false) = true from rfl, onLines_full _ _ ls l _ rfl hl]
  unfold finErr
  rw [hs]
  rfl

/-- C124 (`derivation.ReadDerivation`): however the input is cut into pieces and however `append` grows the buffer, the result is
that of the whole input. -/
theorem C124_readDerivation (grow : Nat → Nat) (hg : ∀ n, n < grow n) (jsonName : Bytes → Res (Option Bytes)) (r : FReader) :
    Scan.readDerivation grow jsonName r = Derivation.readDerivation jsonName r.abs := by
  unfold Scan.readDerivation Derivation.readDerivation
  unfold readAll
  rw [readAllLoop_spec grow hg _ _ _ _ (by omega) (by simp)]
  show (match ([] ++ r.chunks.flatten, if r.term = .eof then none else some r.term) with
    | (_, some e) => _
    | (b, none) => _) = if r.term ≠ .eof then _ else _
  by_cases h : r.term = .eof
  · simp only [if_pos h, List.nil_append]
    rw [if_neg (by simpa using h)]
    rfl
  · simp only [if_neg h]
    rw [if_pos h]
    rfl

/-- C124: and the whole input is what is delivered: two readers with the same bytes and the same end give the same. -/
theorem C124_same (r r' : FReader) (h : r.abs = r'.abs)
    (hs : ¬ List.replicate 101 [] <:+: r.chunks) (hs' : ¬ List.replicate 101 [] <:+: r'.chunks)
    (he : r.eager = false) (he' : r'.eager = false) : Scan.parse r = Scan.parse r' := by
  rw [C124_parse r hs (by simp [lastWithErr, he]), C124_parse r' hs' (by simp [lastWithErr, he']), h]

/-! Cases meeting the hypotheses. -/

example : (⟨[b!"Store", [], b!"Path: /x\nUR", b!"L: y"], .eof, true⟩ : FReader).abs = ⟨b!"StorePath: /x\nURL: y", .eof⟩ := by
  decide

example : Scan.parse ⟨[b!"Store", [], b!"Path: /x\nUR", b!"L: y"], .eof, true⟩ =
    .ok { Narinfo.empty with storePath := b!"/x", url := b!"y", compression := b!"bzip2" } := by
  decide +kernel

/-- a reader that returns nothing 101 times in a row -/
example : stuck false 0 (b!"URL: y\nSys" :: List.replicate 101 [] ++ [b!"tem: z"]) = true ∧
    Scan.parse ⟨b!"URL: y\nSys" :: List.replicate 101 [] ++ [b!"tem: z"], .eof, false⟩ =
      .err (.msg "unable to find separator") ∧
    Scan.parse ⟨b!"URL: y\n" :: List.replicate 101 [] ++ [b!"System: z"], .eof, false⟩ = .err noProgress ∧
    (Scan.parse ⟨b!"URL: y\nSys" :: List.replicate 100 [] ++ [b!"tem: z"], .eof, false⟩).isOk = true := by
  decide +kernel

example : ∃ r : FReader, stuck r.eager 0 r.chunks = false ∧ lastWithErr r = true ∧
    ∃ l, splitByte r.chunks.flatten 10 = [] ++ [l] ∧ l.length = Narinfo.maxCapacity := by
  refine ⟨⟨[List.replicate Narinfo.maxCapacity 65], .eof, true⟩, ?_, ?_, List.replicate Narinfo.maxCapacity 65, ?_, by simp⟩
  · rw [show Narinfo.maxCapacity = (Narinfo.maxCapacity - 1) + 1 from rfl, List.replicate_succ, stuck]
    · rfl
    · simp
  · rw [show Narinfo.maxCapacity = (Narinfo.maxCapacity - 1) + 1 from rfl, List.replicate_succ]
    rfl
  · simp only [List.flatten_cons, List.flatten_nil, List.append_nil, List.nil_append]
    apply splitByte_self
    intro h
    have := List.eq_of_mem_replicate h
    simp at this

example : ∀ n, n < (fun c => c + 1 + c / 4) n := fun n => by simp only []; omega

end Verif.Props
