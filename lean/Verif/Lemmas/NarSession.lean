import Verif.Lemmas.NarRoundtrip

namespace Verif.Nar
open Verif.GoLib Verif.Spec Verif.Wire

/-! ### order of the entries of a tree -/

theorem split_abs_le {a b : List Bytes} (ha : ∀ x ∈ a, Good x) (hb : ∀ x ∈ b, Good x) (h : a ≤ b) :
    splitByte (absPath a) 47 ≤ splitByte (absPath b) 47 := by
  rw [splitByte_absPath ha, splitByte_absPath hb, List.cons_le_cons_iff]
  refine .inr ⟨rfl, ?_⟩
  by_cases h1 : a = []
  · subst h1
    by_cases h2 : b = []
    · subst h2; exact List.le_refl _
    · rw [if_pos rfl, if_neg h2]
      cases b with
      | nil => exact absurd rfl h2
      | cons x b =>
        rw [List.cons_le_cons_iff]
        cases x with
        | nil => exact absurd rfl (hb [] (by simp)).1
        | cons c x => exact .inl (List.nil_lt_cons _ _)
  · by_cases h2 : b = []
    · subst h2; rw [List.le_nil] at h; exact absurd h h1
    · rw [if_neg h1, if_neg h2]; exact h

theorem ordered_abs {a b : List Bytes} (ha : ∀ x ∈ a, Good x) (hb : ∀ x ∈ b, Good x) (h : a ≤ b) :
    pathIsLexicographicallyOrdered (absPath a) (absPath b) = true :=
  (ordered_iff _ _).2 (.inr (split_abs_le ha hb h))

/-- `P` holds for the names of a tree -/
theorem good_snoc {cs : List Bytes} {n : Bytes} (hcs : ∀ c ∈ cs, Good c) (hn : Good n) :
    ∀ c ∈ cs ++ [n], Good c := by
  intro c hc
  rcases List.mem_append.1 hc with h | h
  · exact hcs c h
  · rw [List.mem_singleton.1 h]; exact hn

mutual
theorem tree_paths {P : Bytes → Prop} {N : Tree → Prop} (hP : ∀ n, P n → Good n) (tr : Tree)
    (hall : tr.All P N) (cs : List Bytes) (hcs : ∀ c ∈ cs, Good c) :
    (∀ e ∈ tr.entriesAt (absPath cs), ∃ ds, e.path = absPath (cs ++ ds) ∧ ∀ c ∈ cs ++ ds, Good c) ∧
    (tr.entriesAt (absPath cs)).Pairwise (fun a b => cleanComps a.path < cleanComps b.path) := by
  cases tr with
  | regular ex c =>
    simp only [Tree.entriesAt]
    refine ⟨?_, by simp⟩
    intro e he
    rw [List.mem_singleton.1 he]
    exact ⟨[], by simp, by simpa using hcs⟩
  | symlink t =>
    simp only [Tree.entriesAt]
    refine ⟨?_, by simp⟩
    intro e he
    rw [List.mem_singleton.1 he]
    exact ⟨[], by simp, by simpa using hcs⟩
  | directory es =>
    simp only [Tree.All] at hall
    obtain ⟨h1, h2⟩ := entries_paths hP es hall.2.2 hall.2.1 cs hcs
    simp only [Tree.entriesAt]
    constructor
    · intro e he
      rcases List.mem_cons.1 he with rfl | he
      · exact ⟨[], by simp, by simpa using hcs⟩
      · obtain ⟨n, ds, _, hp, hg⟩ := h1 e he
        exact ⟨n :: ds, hp, hg⟩
    · rw [List.pairwise_cons]
      refine ⟨?_, h2⟩
      intro e he
      obtain ⟨n, ds, _, hp, hg⟩ := h1 e he
      simp only [hp]
      rw [cleanComps_absPath hcs, cleanComps_absPath hg]
      have := List.append_left_lt (l₁ := cs) (List.nil_lt_cons n ds)
      simpa using this
theorem entries_paths {P : Bytes → Prop} {N : Tree → Prop} (hP : ∀ n, P n → Good n) (es : Entries)
    (hall : es.All P N) (hs : es.names.Pairwise (· < ·)) (cs : List Bytes) (hcs : ∀ c ∈ cs, Good c) :
    (∀ e ∈ es.entriesAt (absPath cs), ∃ n ds, n ∈ es.names ∧ e.path = absPath (cs ++ n :: ds) ∧
      ∀ c ∈ cs ++ n :: ds, Good c) ∧
    (es.entriesAt (absPath cs)).Pairwise (fun a b => cleanComps a.path < cleanComps b.path) := by
  cases es with
  | nil => simp [Entries.entriesAt]
  | cons n tr es =>
    simp only [Entries.All] at hall
    simp only [Entries.names, List.pairwise_cons] at hs
    have hn := hP n hall.1
    obtain ⟨h1, h2⟩ := tree_paths hP tr hall.2.1 (cs ++ [n]) (good_snoc hcs hn)
    obtain ⟨h3, h4⟩ := entries_paths hP es hall.2.2 hs.2 cs hcs
    simp only [Entries.entriesAt, ← absPath_snoc cs n hcs]
    constructor
    · intro e he
      rcases List.mem_append.1 he with he | he
      · obtain ⟨ds, hp, hg⟩ := h1 e he
        rw [List.append_assoc, List.singleton_append] at hp hg
        exact ⟨n, ds, by simp [Entries.names], hp, hg⟩
      · obtain ⟨m, ds, hm, hp, hg⟩ := h3 e he
        exact ⟨m, ds, by simp [Entries.names, hm], hp, hg⟩
    · rw [List.pairwise_append]
      refine ⟨h2, h4, ?_⟩
      intro a ha b hb
      obtain ⟨ds, hp, hg⟩ := h1 a ha
      obtain ⟨m, ds', hm, hp', hg'⟩ := h3 b hb
      rw [List.append_assoc, List.singleton_append] at hp hg
      rw [hp, hp', cleanComps_absPath hg, cleanComps_absPath hg']
      apply List.append_left_lt
      rw [List.cons_lt_cons_iff]
      exact .inl (hs.1 m hm)
end

/-! ### sessions -/

theorem reads_spec (c tail : Bytes) (t : Err) (l : Nat) (ks : List Nat) (r : Reader)
    (hst : r.st = ⟨⟨c ++ tail, t⟩, c.length, l⟩) :
    ∃ j, j ≤ c.length ∧ r.reads ks = (readResults c ks,
      { r with st := ⟨⟨c.drop j ++ tail, t⟩, c.length - j, l⟩ }) := by
  induction ks generalizing r c with
  | nil => exact ⟨0, by omega, by simp [Reader.reads, readResults, ← hst]⟩
  | cons k ks ih =>
    by_cases hc : c = []
    · have e : r.read k = (.err .eof, r) := by
        unfold Reader.read; rw [if_pos (by rw [hst, hc]; rfl)]
      obtain ⟨j, hj, h⟩ := ih c r hst
      refine ⟨j, hj, ?_⟩
      unfold Reader.reads
      rw [e]
      simp only []
      rw [h]
      simp [readResults, hc]
    · have hl : 0 < c.length := List.length_pos_iff.2 hc
      have hd : (c ++ tail).take (min k c.length) = c.take k := by
        rw [List.take_append_of_le_length (by omega)]
        simp
      have e : r.read k = (.ok (c.take k),
          { r with st := ⟨⟨c.drop k ++ tail, t⟩, (c.drop k).length, l⟩ }) := by
        unfold Reader.read
        rw [hst]
        simp only []
        have h0 : ¬ (c.take k = [] ∧ k ≠ 0) := by
          rintro ⟨h1, h2⟩
          rcases List.take_eq_nil_iff.1 h1 with h | h
          · exact h2 h
          · exact hc h
        have h1 : (c ++ tail).drop (c.take k).length = c.drop k ++ tail := by
          rw [List.length_take]
          by_cases hk : k ≤ c.length
          · rw [Nat.min_eq_left hk, List.drop_append_of_le_length hk]
          · rw [Nat.min_eq_right (by omega), List.drop_left,
              List.drop_of_length_le (l := c) (by omega), List.nil_append]
        have h2 : c.length - (c.take k).length = (c.drop k).length := by
          simp; omega
        rw [if_neg (by omega), hd, if_neg h0, h1, h2]
      obtain ⟨j, hj, h⟩ := ih (c.drop k) _ (show ({ r with st := _ } : Reader).st = _ from rfl)
      refine ⟨min (k + j) c.length, by omega, ?_⟩
      have hrr : readResults c (k :: ks) = .ok (c.take k) :: readResults (c.drop k) ks := by
        simp [readResults, hc]
      have h3 : (c.drop k).drop j = c.drop (min (k + j) c.length) := by
        rw [List.drop_drop]
        by_cases hk : k + j ≤ c.length
        · rw [Nat.min_eq_left hk]
        · rw [Nat.min_eq_right (by omega), List.drop_of_length_le (by omega),
            List.drop_of_length_le (by omega)]
      have h4 : (c.drop k).length - j = c.length - min (k + j) c.length := by
        simp; omega
      unfold Reader.reads
      rw [e]
      simp only []
      rw [h, hrr, h3, h4]

theorem consume_iff (c tail : Bytes) (t : Err) (l j : Nat) (hj : j ≤ c.length) :
    Consume ⟨⟨c ++ tail, t⟩, c.length, l⟩ ⟨⟨c.drop j ++ tail, t⟩, c.length - j, l⟩ :=
  ⟨j, hj, by simp; omega, by rw [← List.drop_append_of_le_length hj]⟩

/-- The sequence of results of a session on a goroutine that runs through `es`. -/
theorem session_spec {Q : Step RState Header Bool Unit → Prop} (es : List Entry)
    (plan : List (List Nat)) (r : Reader) (st : Step RState Header Bool Unit)
    (herr : r.err = none) (hcl : r.closed = false) (hres : r.resume = some st) (hrun : Runs Q es st)
    (hord : ∀ e ∈ es.head?, pathIsLexicographicallyOrdered r.prev e.path = true)
    (hpw : es.Pairwise (fun a b => pathIsLexicographicallyOrdered a.path b.path = true))
    (hlen : plan.length ≤ es.length) :
    (r.session plan).1 = List.zipWith (fun e ks => (.ok (hdrOf e), readResults e.contents ks)) es plan ∧
    (r.session plan).2.err = none ∧ (r.session plan).2.closed = false ∧
    ∃ st', (r.session plan).2.resume = some st' ∧ Runs Q (es.drop plan.length) st' := by
  induction plan generalizing r es st with
  | nil => exact ⟨by simp [Reader.session], herr, hcl, st, hres, hrun⟩
  | cons ks plan ih =>
    cases es with
    | nil => simp at hlen
    | cons e es =>
      obtain ⟨tail, t, l, k, hne, rfl, hk⟩ := hrun
      have ho := hord e (by simp)
      have hnext : r.next = (.ok (hdrOf e), { r with
          st := ⟨⟨e.contents ++ tail, t⟩, e.contents.length, l⟩, phase := .waiting k, prev := e.path }) := by
        unfold Reader.next
        rw [herr]
        simp only []
        rw [if_neg (by simp [hcl]), hres]
        have ho' : pathIsLexicographicallyOrdered r.prev (hdrOf e).path = true := ho
        simp only [Reader.receive]
        rw [if_pos ho', ← herr]
        rfl
      obtain ⟨j, hj, hreads⟩ := reads_spec e.contents tail t l ks
        { r with st := ⟨⟨e.contents ++ tail, t⟩, e.contents.length, l⟩, phase := .waiting k, prev := e.path } rfl
      rw [List.pairwise_cons] at hpw
      have := ih es { r with st := ⟨⟨e.contents.drop j ++ tail, t⟩, e.contents.length - j, l⟩, phase := .waiting k, prev := e.path }
        (k true ⟨⟨e.contents.drop j ++ tail, t⟩, e.contents.length - j, l⟩) herr hcl rfl
        (hk _ (consume_iff _ _ _ _ _ hj))
        (by
          intro e' he'
          exact hpw.1 e' (List.mem_of_mem_head? he'))
        hpw.2 (by simp at hlen; omega)
      unfold Reader.session
      rw [hnext]
      simp only []
      rw [hreads]
      simp only [List.zipWith_cons_cons, List.length_cons, List.drop_succ_cons]
      refine ⟨?_, this.2⟩
      rw [this.1]

end Verif.Nar
