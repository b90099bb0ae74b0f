import Verif.Model.Scan
import Verif.Spec.Scan
import Verif.Lemmas.WireFrag
import Verif.Lemmas.Path

/-! `bufio.Scanner` and `io.ReadAll` on fragmented readers. -/

namespace Verif.Scan
open Verif.GoLib Verif.Wire Verif.Spec

/-- the error with which the scanner ends -/
def finErr (r : FReader) (n : Nat) : Err := if stuck r.eager n r.chunks then noProgress else r.term

theorem seen_eq (eager : Bool) : ∀ (n : Nat) (cs : List Bytes), stuck eager n cs = false → seen eager n cs = cs.flatten
  | _, [], _ => rfl
  | n, [] :: cs, h => by
    unfold stuck at h
    unfold seen
    split
    · rename_i h1; simp [h1.1]
    · rename_i h1
      rw [if_neg h1] at h
      split
      · rename_i h2; rw [if_pos h2] at h; simp at h
      · rename_i h2; rw [if_neg h2] at h; simpa using seen_eq eager (n + 1) cs h
  | n, (x :: c) :: cs, h => by
    unfold stuck at h
    unfold seen
    rw [seen_eq eager 0 cs h]
    rfl

theorem lastWithErr_flatten {r : FReader} (h : lastWithErr r = true) : r.chunks.flatten ≠ [] := by
  unfold lastWithErr at h
  simp only [Bool.and_eq_true] at h
  obtain ⟨_, h1⟩ := h
  intro hf
  rw [List.flatten_eq_nil_iff] at hf
  split at h1
  · rename_i x xs hl
    have := hf _ (List.mem_of_getLast? hl)
    simp at this
  · simp at h1

theorem fill_spec : ∀ (left : Nat) (r : FReader) (k : Nat), left ≤ 101 → 0 < k →
    ∀ d e r', fill left r k = ((d, e), r') → d.length ≤ k ∧
      (e = none → d ≠ [] ∧ seen r.eager (101 - left) r.chunks = d ++ seen r'.eager 0 r'.chunks ∧
        stuck r.eager (101 - left) r.chunks = stuck r'.eager 0 r'.chunks ∧
        lastWithErr r' = lastWithErr r ∧ r'.term = r.term ∧ r'.fuel < r.fuel) ∧
      (∀ t, e = some t → left ≠ 0 → seen r.eager (101 - left) r.chunks = d ∧ t = finErr r (101 - left) ∧
        (d ≠ [] → lastWithErr r = true ∧ stuck r.eager (101 - left) r.chunks = false)) := by
  intro left
  induction left with
  | zero =>
    intro r k _ _ d e r' h
    simp only [fill, Prod.mk.injEq] at h
    obtain ⟨⟨rfl, rfl⟩, rfl⟩ := h
    simp
  | succ left ih =>
    intro r k hl hk d e r' h
    rcases r with ⟨chunks, term, eager⟩
    unfold fill at h
    cases chunks with
    | nil =>
      simp only [FReader.read, Prod.mk.injEq] at h
      obtain ⟨⟨rfl, rfl⟩, rfl⟩ := h
      refine ⟨by simp, by simp, fun t ht _ => ?_⟩
      simp at ht
      subst ht
      simp [seen, finErr, stuck]
    | cons c cs =>
      simp only [FReader.read] at h
      cases c with
      | nil =>
        simp only [List.length_nil, Nat.zero_le, if_true] at h
        by_cases hc : cs.isEmpty && eager
        · rw [if_pos hc] at h
          simp only [Prod.mk.injEq] at h
          obtain ⟨⟨rfl, rfl⟩, rfl⟩ := h
          simp at hc
          obtain ⟨rfl, rfl⟩ := hc
          refine ⟨by simp, by simp, fun t ht _ => ?_⟩
          simp at ht
          subst ht
          simp [seen, finErr, stuck]
        · rw [if_neg hc] at h
          simp only [List.length_nil, Nat.lt_irrefl, gt_iff_lt, if_false] at h
          obtain ⟨i1, i2, i3⟩ := ih ⟨cs, term, eager⟩ k (by omega) hk d e r' h
          have hc' : ¬ (cs = [] ∧ eager = true) := by simpa using hc
          have hlast : lastWithErr ⟨cs, term, eager⟩ = lastWithErr ⟨[] :: cs, term, eager⟩ := by
            unfold lastWithErr
            cases cs with
            | nil => simp at hc'; simp [hc']
            | cons x xs => simp only [List.getLast?_cons_cons]
          refine ⟨i1, fun he => ?_, fun t ht _ => ?_⟩
          · obtain ⟨j1, j2, j3, j4, j5, j6⟩ := i2 he
            have hpos : left ≠ 0 := by
              intro h0
              subst h0
              simp only [fill, Prod.mk.injEq] at h
              rw [← h.1.2] at he
              simp at he
            refine ⟨j1, ?_, ?_, by rw [j4, hlast], j5, ?_⟩
            · rw [← j2]
              show seen eager _ ([] :: cs) = seen eager _ cs
              rw [seen, if_neg hc', if_neg (by omega)]
              congr 1; omega
            · rw [← j3]
              show stuck eager _ ([] :: cs) = stuck eager _ cs
              rw [stuck, if_neg hc', if_neg (by omega)]
              congr 1; omega
            · simp only [FReader.fuel, List.flatten_cons, List.nil_append, List.length_cons] at j6 ⊢; omega
          · by_cases h0 : left = 0
            · subst h0
              simp only [fill, Prod.mk.injEq] at h
              obtain ⟨⟨rfl, rfl⟩, rfl⟩ := h
              simp at ht
              subst ht
              simp [seen, finErr, stuck, hc']
            · obtain ⟨j1, j2, j3⟩ := i3 t ht h0
              have e1 : seen eager (101 - (left + 1)) ([] :: cs) = seen eager (101 - left) cs := by
                rw [seen, if_neg hc', if_neg (by omega)]
                congr 1; omega
              have e2 : stuck eager (101 - (left + 1)) ([] :: cs) = stuck eager (101 - left) cs := by
                rw [stuck, if_neg hc', if_neg (by omega)]
                congr 1; omega
              refine ⟨by rw [← j1, e1], ?_, ?_⟩
              · rw [j2]; unfold finErr; simp only [e2]
              · rw [e2, ← hlast]; exact j3
      | cons x c =>
        by_cases hlen : (x :: c).length ≤ k
        · rw [if_pos hlen] at h
          by_cases hc : cs.isEmpty && eager
          · rw [if_pos hc] at h
            simp only [Prod.mk.injEq] at h
            obtain ⟨⟨rfl, rfl⟩, rfl⟩ := h
            simp at hc
            obtain ⟨rfl, rfl⟩ := hc
            refine ⟨hlen, by simp, fun t ht _ => ?_⟩
            simp at ht
            subst ht
            simp [seen, finErr, stuck, lastWithErr]
          · rw [if_neg hc] at h
            simp only [List.length_cons, gt_iff_lt, Nat.zero_lt_succ, if_true, Prod.mk.injEq] at h
            obtain ⟨⟨rfl, rfl⟩, rfl⟩ := h
            have hc' : ¬ (cs = [] ∧ eager = true) := by simpa using hc
            refine ⟨hlen, fun _ => ⟨by simp, rfl, rfl, ?_, rfl, ?_⟩, by simp⟩
            · unfold lastWithErr
              cases cs with
              | nil => simp at hc'; simp [hc']
              | cons x xs => simp only [List.getLast?_cons_cons]
            · simp [FReader.fuel]; omega
        · rw [if_neg hlen] at h
          have hne : (x :: c).take k ≠ [] := by
            cases k with
            | zero => omega
            | succ k => simp
          simp only [] at h
          rw [if_pos (List.length_pos_iff.2 hne)] at h
          simp only [Prod.mk.injEq] at h
          obtain ⟨⟨rfl, rfl⟩, rfl⟩ := h
          have hd : (x :: c).drop k ≠ [] := by
            intro hd
            rw [List.drop_eq_nil_iff] at hd
            omega
          obtain ⟨y, ys, hy⟩ := List.exists_cons_of_ne_nil hd
          refine ⟨by simp; omega, fun _ => ⟨hne, ?_, ?_, ?_, rfl, ?_⟩, by simp⟩
          · rw [hy, seen, seen, ← hy, ← List.append_assoc, List.take_append_drop] <;> simp
          · rw [hy, stuck, stuck] <;> simp
          · unfold lastWithErr
            cases cs with
            | nil => simp [hy]
            | cons x xs => simp only [List.getLast?_cons_cons]
          · simp only [FReader.fuel, List.flatten_cons, List.length_append, List.length_cons, List.length_drop]
            simp only [List.length_cons] at hlen
            omega

/-- The scanner has this text before it, which ends with the error `e`; `f`: together with its last bytes. -/
def Rest (cap : Nat) (s : Scanner) (T : Bytes) (e : Err) (f : Bool) : Prop :=
  s.start + s.data.length ≤ cap ∧
  match s.err with
  | none => T = s.data ++ seen s.r.eager 0 s.r.chunks ∧ e = finErr s.r 0 ∧
      f = (lastWithErr s.r && !stuck s.r.eager 0 s.r.chunks)
  | some e' => e' = e ∧ T = s.data ∧ (f = true ∨ 10 ∈ T ∨ T.length < cap)

theorem shift_cases (cap : Nat) (s : Scanner) (h : s.start + s.data.length ≤ cap) :
    ∃ st, shift cap s = { s with start := st } ∧ st + s.data.length ≤ cap ∧
      (st + s.data.length = cap → s.data.length = cap) := by
  unfold shift
  split
  · exact ⟨0, rfl, by omega, by omega⟩
  · rename_i h1
    refine ⟨s.start, rfl, h, fun h2 => ?_⟩
    omega

/-- what a call of `Scan` must do -/
def ScanSpec (cap : Nat) (T : Bytes) (e : Err) (f : Bool) (o : Option Bytes × Scanner) : Prop :=
  (10 ∈ T → (T.takeWhile (· != 10)).length < cap →
    o.1 = some (dropCR (T.takeWhile (· != 10))) ∧ Rest cap o.2 (T.drop ((T.takeWhile (· != 10)).length + 1)) e f) ∧
  (10 ∈ T → cap ≤ (T.takeWhile (· != 10)).length → o.1 = none ∧ o.2.err = some tooLong) ∧
  (10 ∉ T → T = [] → o.1 = none ∧ o.2.err = some e) ∧
  (10 ∉ T → T ≠ [] → (T.length < cap ∨ T.length = cap ∧ f = true) →
    o.1 = some (dropCR T) ∧ Rest cap o.2 [] e f) ∧
  (10 ∉ T → (cap < T.length ∨ T.length = cap ∧ f = false) → T ≠ [] → o.1 = none ∧ o.2.err = some tooLong)

theorem takeWhile_lt {T : Bytes} (h : 10 ∈ T) : (T.takeWhile (· != 10)).length < T.length := by
  induction T with
  | nil => simp at h
  | cons x T ih =>
    by_cases hx : x = 10
    · subst hx; simp
    · rw [List.takeWhile_cons_of_pos (by simpa using hx)]
      simp only [List.length_cons]
      have : 10 ∈ T := by
        rcases List.mem_cons.1 h with h | h
        · exact absurd h.symm hx
        · exact h
      have := ih this
      omega

theorem takeWhile_append_mem {a b : Bytes} (h : 10 ∈ a) : (a ++ b).takeWhile (· != 10) = a.takeWhile (· != 10) := by
  induction a with
  | nil => simp at h
  | cons x T ih =>
    by_cases hx : x = 10
    · subst hx; simp
    · rw [List.cons_append, List.takeWhile_cons_of_pos (by simpa using hx), List.takeWhile_cons_of_pos (by simpa using hx)]
      have : 10 ∈ T := by
        rcases List.mem_cons.1 h with h | h
        · exact absurd h.symm hx
        · exact h
      rw [ih this]

theorem takeWhile_append_not {a b : Bytes} (h : 10 ∉ a) :
    (a ++ b).takeWhile (· != 10) = a ++ b.takeWhile (· != 10) := by
  induction a with
  | nil => rfl
  | cons x T ih =>
    simp only [List.mem_cons, not_or] at h
    rw [List.cons_append, List.takeWhile_cons_of_pos (by simpa using fun e => h.1 e.symm), ih h.2]
    rfl

theorem scanLoop_spec (cap : Nat) (hcap : 0 < cap) : ∀ (fuel : Nat) (s : Scanner) (T : Bytes) (e : Err) (f : Bool),
    Rest cap s T e f → (s.err = none → s.r.fuel + 2 ≤ fuel) → 1 ≤ fuel →
    ScanSpec cap T e f (scanLoop cap fuel s) := by
  intro fuel
  induction fuel with
  | zero => intro s T e f _ _ h; omega
  | succ fuel ih =>
    intro s T e f hR hfuel _
    obtain ⟨hlen, hR⟩ := hR
    rcases s with ⟨r, start, data, err⟩
    simp only [] at hlen hR hfuel
    by_cases hnl : 10 ∈ data
    · -- a line is in the buffer
      have hne : data.length > 0 := List.length_pos_of_mem hnl
      have hstep : scanLoop cap (fuel + 1) ⟨r, start, data, err⟩ =
          (some (dropCR (data.takeWhile (· != 10))), ⟨r, start + ((data.takeWhile (· != 10)).length + 1), data.drop ((data.takeWhile (· != 10)).length + 1), err⟩) := by
        rw [scanLoop, if_pos (.inl hne)]
        simp only [scanLines]
        rw [if_neg (by rintro ⟨_, h⟩; rw [h] at hne; simp at hne), if_pos hnl]
      rw [hstep]
      have hlt := takeWhile_lt hnl
      cases err with
      | none =>
        obtain ⟨h1, h2, h3⟩ := hR
        have htw : T.takeWhile (· != 10) = data.takeWhile (· != 10) := by rw [h1, takeWhile_append_mem hnl]
        have hmem : 10 ∈ T := by rw [h1]; exact List.mem_append_left _ hnl
        refine ⟨fun _ _ => ⟨by rw [htw], ?_⟩, fun _ h => ?_, fun h => absurd hmem h, fun h => absurd hmem h, fun h => absurd hmem h⟩
        · refine ⟨by simp only [List.length_drop]; omega, ?_, h2, h3⟩
          rw [htw, h1, List.drop_append_of_le_length (by omega)]
        · rw [htw] at h; omega
      | some e' =>
        obtain ⟨h1, h2, h3⟩ := hR
        subst h2
        refine ⟨fun _ _ => ⟨rfl, ?_⟩, fun _ h => by omega, fun h => absurd hnl h, fun h => absurd hnl h, fun h => absurd hnl h⟩
        refine ⟨by simp only [List.length_drop]; omega, h1, rfl, .inr (.inr ?_)⟩
        simp only [List.length_drop]; omega
    · cases err with
      | some e' =>
        obtain ⟨h1, h2, h3⟩ := hR
        subst h2
        subst h1
        cases T with
        | nil =>
          have hstep : scanLoop cap (fuel + 1) ⟨r, start, [], some e'⟩ = (none, ⟨r, 0, [], some e'⟩) := by
            rw [scanLoop]
            simp [scanLines]
          rw [hstep]
          refine ⟨by simp, by simp, fun _ _ => ⟨rfl, rfl⟩, by simp, by simp⟩
        | cons x xs =>
          have hstep : scanLoop cap (fuel + 1) ⟨r, start, x :: xs, some e'⟩ =
              (some (dropCR (x :: xs)), ⟨r, start + (x :: xs).length, [], some e'⟩) := by
            rw [scanLoop, if_pos (.inl (by simp))]
            simp only [scanLines]
            rw [if_neg (by simp), if_neg hnl]
            simp
          rw [hstep]
          refine ⟨fun h => absurd h hnl, fun h => absurd h hnl, by simp, fun _ _ _ => ⟨rfl, ?_⟩, fun _ h => ?_⟩
          · exact ⟨by simpa using hlen, rfl, rfl, .inr (.inr (by simpa using hcap))⟩
          · exfalso
            rcases h3 with h3 | h3 | h3
            · rw [h3] at h; simp at h; simp at hlen; omega
            · exact hnl h3
            · omega
      | none =>
        obtain ⟨h1, h2, h3⟩ := hR
        obtain ⟨st, e1, e2, e3⟩ := shift_cases cap ⟨r, start, data, none⟩ hlen
        simp only [] at e1 e2 e3
        have hnone : (if data.length > 0 ∨ (none : Option Err) ≠ none then scanLines data (none : Option Err).isSome else none) = none := by
          split
          · simp [scanLines, hnl]
          · rfl
        have hstep : scanLoop cap (fuel + 1) ⟨r, start, data, none⟩ =
            if st + data.length = cap then (none, ⟨r, st, data, some tooLong⟩)
            else scanLoop cap fuel ⟨(fill 101 r (cap - (st + data.length))).2, st,
              data ++ (fill 101 r (cap - (st + data.length))).1.1, (fill 101 r (cap - (st + data.length))).1.2⟩ := by
          rw [scanLoop]
          simp only [hnone, e1]
          rfl
        rw [hstep]
        by_cases hfull : st + data.length = cap
        · rw [if_pos hfull]
          have hd := e3 hfull
          have htw : T.takeWhile (· != 10) = data ++ (seen r.eager 0 r.chunks).takeWhile (· != 10) := by
            rw [h1, takeWhile_append_not hnl]
          have hTl : T.length = data.length + (seen r.eager 0 r.chunks).length := by rw [h1]; simp
          refine ⟨fun _ h => ?_, fun _ _ => ⟨rfl, rfl⟩, fun _ h => ?_, fun _ _ h => ?_, fun _ _ _ => ⟨rfl, rfl⟩⟩
          · rw [htw] at h; simp at h; omega
          · rw [h] at hTl; simp at hTl; omega
          · exfalso
            rcases h with h | ⟨h, hf⟩
            · omega
            · rw [hf] at h3
              simp at h3
              have hs0 : seen r.eager 0 r.chunks = [] := List.length_eq_zero_iff.1 (by omega)
              rw [seen_eq _ _ _ h3.2] at hs0
              exact lastWithErr_flatten h3.1 hs0
        · rw [if_neg hfull]
          rcases hfill : fill 101 r (cap - (st + data.length)) with ⟨⟨d, eo⟩, r'⟩
          obtain ⟨f1, f2, f3⟩ := fill_spec 101 r (cap - (st + data.length)) (by omega) (by omega) d eo r' hfill
          simp only []
          cases eo with
          | none =>
            obtain ⟨g1, g2, g3, g4, g5, g6⟩ := f2 rfl
            simp only [Nat.sub_self] at g2 g3
            apply ih
            · refine ⟨by simp only [List.length_append]; omega, ?_, ?_, ?_⟩
              · rw [h1, g2, List.append_assoc]
              · rw [h2]; unfold finErr; rw [g3, g5]
              · rw [h3, g3, g4]
            · intro _
              have := hfuel rfl
              simp only [] at *
              omega
            · have := hfuel rfl
              simp only [] at *
              omega
          | some t =>
            obtain ⟨g1, g2, g3⟩ := f3 t rfl (by omega)
            simp only [Nat.sub_self] at g1 g2 g3
            apply ih
            · refine ⟨by simp only [List.length_append]; omega, ?_, ?_, ?_⟩
              · rw [h2, g2]
              · rw [h1, g1]
              · by_cases hd : d = []
                · right; right
                  rw [h1, g1, hd]; simp; omega
                · left
                  obtain ⟨k1, k2⟩ := g3 hd
                  rw [h3, k1, k2]; rfl
            · simp
            · have := hfuel rfl
              omega

/-! ## `io.ReadAll` -/

theorem readAllLoop_spec (grow : Nat → Nat) (hg : ∀ n, n < grow n) : ∀ (fuel : Nat) (r : FReader) (b : Bytes) (c : Nat),
    r.fuel < fuel → b.length < c → (readAllLoop grow fuel r b c).1 =
      (b ++ r.chunks.flatten, if r.term = .eof then none else some r.term) := by
  intro fuel
  induction fuel with
  | zero => intro r b c h; omega
  | succ fuel ih =>
    intro r b c hf hb
    have hs := FReader.read_spec r (c - b.length)
    unfold readAllLoop
    rcases hr : r.read (c - b.length) with ⟨⟨d, e⟩, r'⟩
    rw [hr] at hs
    have hs : ReadSpec r (c - b.length) d e r' := hs
    cases e with
    | some t =>
      obtain ⟨h1, h2⟩ := hs.err t rfl
      simp only []
      rw [hs.data, h2, h1]; simp
    | none =>
      simp only []
      have := hs.dec rfl (by omega)
      have hl := hs.len
      rw [ih r' _ _ (by omega) (by
        split
        · rename_i h; rw [h]; exact hg c
        · rename_i h; simp at h ⊢; omega)]
      rw [hs.data, hs.term, List.append_assoc]

end Verif.Scan
