import Verif.Lemmas.NarParen

/-!
# C23: exactly which trees are read back

`sampleParen` is a tree with an entry called `)` that is read back, `deepParen` one with files that are
reported at other paths.
-/

namespace Verif.Props
open Verif Verif.Nar Verif.GoLib Verif.Spec Verif.Wire

theorem seenReads_full (c : Bytes) (ks : List Nat) : seenReads c.length c ks = readResults c ks := by
  induction ks generalizing c with
  | nil => rfl
  | cons k ks ih =>
    unfold seenReads readResults
    by_cases hc : c = []
    · subst hc
      rw [if_pos (by simp), if_pos rfl, ← ih]
    · have : c.length ≠ 0 := fun h => hc (List.length_eq_zero_iff.1 h)
      rw [if_neg (by simp [hc]), if_neg hc, ← ih]
      congr 2
      simp only [List.length_take, List.length_drop]
      omega

theorem paths_inOrder {P : Bytes → Prop} {Q : Tree → Prop} (hP : ∀ n, P n → Good n) (t : Tree)
    (ht : t.All P Q) : InOrder (((t.entriesAt b!"/").map full).map fun x => x.1.path) := by
  obtain ⟨hp1, hp2⟩ := tree_paths hP t ht [] (by simp)
  have hpw : (t.entriesAt b!"/").Pairwise (fun a b => a.path ≤ b.path ∨ splitByte a.path 47 ≤ splitByte b.path 47) := by
    have hp2' : (t.entriesAt b!"/").Pairwise (fun a b => cleanComps a.path < cleanComps b.path) := hp2
    refine hp2'.imp_of_mem ?_
    intro a b ha hb hab
    obtain ⟨ds, e1, g1⟩ := hp1 a ha
    obtain ⟨ds', e2, g2⟩ := hp1 b hb
    rw [e1, e2] at hab ⊢
    rw [cleanComps_absPath g1, cleanComps_absPath g2] at hab
    exact .inr (split_abs_le g1 g2 (List.le_of_lt hab))
  clear hp1 hp2
  generalize t.entriesAt b!"/" = l at hpw
  rw [List.map_map]
  induction l with
  | nil => trivial
  | cons a l ih =>
    rw [List.pairwise_cons] at hpw
    cases l with
    | nil => trivial
    | cons b l => exact ⟨hpw.1 b (by simp), ih hpw.2⟩

theorem hdrSeen_full (es : List Entry) : (es.map full).map hdrSeen = es.map hdrOf := by
  rw [List.map_map]; rfl

theorem wt_of_hdrs {es fs : List Entry} (h : es.map hdrOf = fs.map hdrOf) : Nar.wt es = Nar.wt fs := by
  have : ∀ l : List Entry, Nar.wt l = ((l.map hdrOf).map fun h => (cleanComps h.path).length).sum := by
    intro l
    unfold Nar.wt
    rw [List.map_map]; rfl
  rw [this, this, h]

/-- what a session that reads a tree completely tells about it -/
theorem read_complete (t : Tree) (ht : t.All NameFits NodeFits) (rest : Bytes) (e : Err)
    (plan : List (List Nat)) (r : Reader) (s' : Stream) (r' : Reader)
    (hnew : newReader ⟨t.nar ++ rest, e⟩ = (.ok r, s'))
    (hh : (r.session plan).1.map Prod.fst = (t.entriesAt b!"/").map (Call.ok ∘ hdrOf))
    (hn : (r.session plan).2.next = (.err .eof, r')) :
    t.All NameShort NodeRd ∧ t.ParenLast ∧ (r'.st.stream.data = rest → t.NoParen) := by
  obtain ⟨d, xs, htok, ⟨hacc, _⟩, hx, hlen⟩ := (C100_language ⟨t.nar ++ rest, e⟩ plan
    ((t.entriesAt b!"/").map hdrOf) r'.st.stream.data).1
    ⟨r, s', r', hnew, by rw [hh, List.map_map], hn, rfl⟩
  simp only [Tree.nar, List.append_assoc] at htok
  obtain ⟨_, rfl⟩ := tok_canon (by decide) (by decide) htok
  rcases hacc with ⟨es, hr, rfl⟩ | ⟨_, _, hc⟩
  · rw [hdrSeen_full] at hx
    obtain ⟨pos', h⟩ := (read_all rest ((t.node ++ rest).length + 1)).1 (Nat.lt_succ_self _) hr [] (by simp) rfl
      t [] rfl ht (by simp) (by simp)
    have hw := wt_of_hdrs hx
    have hw' : Nar.wt (t.entriesAt b!"/") = treeWt 0 t := wt_tree t ht [] (by simp)
    rcases h.same rfl with ⟨h1, h2, h3⟩ | ⟨h1, h2⟩
    · exact ⟨h3, noParen_last t h2, fun _ => h2⟩
    · obtain ⟨h3, h4, _⟩ := h2 (by
        have e1 : treeWt ([] : List Entries).length t + framesWt [] = treeWt 0 t := rfl
        omega)
      refine ⟨h4, h3, fun hd => ?_⟩
      exfalso
      have hd' := h.data
      rw [hd] at hd'
      have hl := congrArg List.length hd'
      rcases pos' with fs | ⟨es', fs⟩
      · cases fs with
        | nil => simp [Place.closes] at h1
        | cons es' fs =>
          have hge : ∀ fs : List Entries, rest.length ≤ (afterData rest fs).length := by
            intro fs
            induction fs with
            | nil => exact Nat.le_refl _
            | cons a fs ih => simp only [afterData, List.length_append]; omega
          have := hge fs
          have hs := str_pos b!")"
          simp only [Place.data, afterData, List.length_append] at hl
          omega
      · have hge : ∀ fs : List Entries, rest.length ≤ (afterData rest fs).length := by
          intro fs
          induction fs with
          | nil => exact Nat.le_refl _
          | cons a fs ih => simp only [afterData, List.length_append]; omega
        have := hge fs
        have hs := str_pos b!")"
        simp only [Place.data, List.length_append] at hl
        omega
  · exact absurd hc fun hc => (no_cut rest ((t.node ++ rest).length + 1)).1 (Nat.lt_succ_self _) hc [] (by simp) rfl
      t [] rfl ht (by simp) (by simp)

/-- C23: a tree within the limits in which every entry called `)`, and every directory above one, is the
last of its directory is read back: its headers in canonical order, the contents of the files, then
`io.EOF`; for any data after the archive and any `Read` calls. -/
theorem C23_read_last (t : Tree) (ht : t.All NameShort NodeRd) (hl : t.ParenLast) (rest : Bytes) (e : Err)
    (plan : List (List Nat)) (hplan : plan.length = (t.entriesAt b!"/").length) :
    ∃ r s', newReader ⟨t.nar ++ rest, e⟩ = (.ok r, s') ∧
      (r.session plan).1 = List.zipWith (fun en ks => (.ok (hdrOf en), readResults en.contents ks))
        (t.entriesAt b!"/") plan ∧
      ∃ r', (r.session plan).2.next = (.err .eof, r') := by
  obtain ⟨j, hj⟩ := rel_last t hl ht [] (by simp)
  have hnew := newReader_nar t rest e
  have hacc : Accepts e (t.node ++ rest) ((t.entriesAt b!"/").map full) (parens j ++ rest) :=
    ⟨.inl ⟨_, hj rest, rfl⟩, paths_inOrder (fun n hn => nameOk_good hn.1) t ht⟩
  obtain ⟨h1, r', h2, _⟩ := accepts_session hnew _ _ hacc plan (by simp [hplan])
  refine ⟨_, _, hnew, ?_, r', h2⟩
  rw [h1, List.zipWith_map_left]
  have : (fun (a : Entry) (b : List Nat) => ((Call.ok (hdrSeen (full a)) : Call Header), seenReads (full a).2 (full a).1.contents b))
      = fun en ks => (.ok (hdrOf en), readResults en.contents ks) := by
    funext a b
    exact congrArg (Prod.mk _) (seenReads_full _ _)
  rw [this]

/-- C23: and no others are. For every tree with usable names and in canonical order, all its headers are
returned, each with its path, and `io.EOF` after them, if and only if names have at most 255 bytes, link
targets at most 4095, contents less than 2^63, and every entry called `)`, and every directory above one,
is the last of its directory. -/
theorem C23_exact (t : Tree) (ht : t.All NameFits NodeFits) (rest : Bytes) (e : Err)
    (plan : List (List Nat)) (hplan : plan.length = (t.entriesAt b!"/").length) :
    (∃ r s' r', newReader ⟨t.nar ++ rest, e⟩ = (.ok r, s') ∧
      (r.session plan).1.map Prod.fst = (t.entriesAt b!"/").map (Call.ok ∘ hdrOf) ∧
      (r.session plan).2.next = (.err .eof, r')) ↔
    t.All NameShort NodeRd ∧ t.ParenLast := by
  constructor
  · rintro ⟨r, s', r', hnew, hh, hn⟩
    obtain ⟨h1, h2, _⟩ := read_complete t ht rest e plan r s' r' hnew hh hn
    exact ⟨h1, h2⟩
  · rintro ⟨h1, h2⟩
    obtain ⟨r, s', hnew, hs, r', hn⟩ := C23_read_last t h1 h2 rest e plan hplan
    refine ⟨r, s', r', hnew, ?_, hn⟩
    rw [hs, List.map_zipWith]
    clear hs hn
    generalize t.entriesAt b!"/" = l at hplan
    induction l generalizing plan with
    | nil => simp
    | cons a l ih =>
      cases plan with
      | nil => simp at hplan
      | cons ks plan =>
        rw [List.zipWith_cons_cons, List.map_cons, ih plan (by simpa using hplan)]; rfl

/-- C23: the underlying reader is left exactly after the archive if and only if no entry at all is called
`)`. -/
theorem C23_rest_exact (t : Tree) (ht : t.All NameFits NodeFits) (rest : Bytes) (e : Err)
    (plan : List (List Nat)) (hplan : plan.length = (t.entriesAt b!"/").length) :
    (∃ r s' r', newReader ⟨t.nar ++ rest, e⟩ = (.ok r, s') ∧
      (r.session plan).1.map Prod.fst = (t.entriesAt b!"/").map (Call.ok ∘ hdrOf) ∧
      (r.session plan).2.next = (.err .eof, r') ∧ r'.st.stream.data = rest) ↔
    t.All NameShort NodeRd ∧ t.NoParen := by
  constructor
  · rintro ⟨r, s', r', hnew, hh, hn, hd⟩
    obtain ⟨h1, _, h2⟩ := read_complete t ht rest e plan r s' r' hnew hh hn
    exact ⟨h1, h2 hd⟩
  · rintro ⟨h1, h2⟩
    have hacc : Accepts e (t.node ++ rest) ((t.entriesAt b!"/").map full) rest :=
      ⟨.inl ⟨_, rel_quiet t h2 h1 [] (by simp) rest, rfl⟩, paths_inOrder (fun n hn => nameOk_good hn.1) t h1⟩
    obtain ⟨r, s', r', hnew, hh, hn, hd⟩ := (C100_language ⟨t.nar ++ rest, e⟩ plan
      ((t.entriesAt b!"/").map hdrOf) rest).2 ⟨t.node ++ rest, _, by
        simp only [Tree.nar, List.append_assoc]; exact tok_str _ _, hacc, (hdrSeen_full _).symm,
        by simp [hplan]⟩
    exact ⟨r, s', r', hnew, by rw [hh, List.map_map], hn, hd⟩

/-- An entry called `)` that is the last of its directory, in a directory that is the last of its own. -/
def sampleParen : Tree := .directory
  (.cons b!"a" (.regular false b!"hello")
    (.cons b!"d" (.directory (.cons b!"(" (.symlink b!"x") (.cons b!")" (.regular true b!"y") .nil))) .nil))

theorem sampleParen_ok : sampleParen.All NameShort NodeRd ∧ sampleParen.All NameFits NodeFits ∧
    sampleParen.ParenLast ∧ ¬ sampleParen.NoParen := by
  refine ⟨?_, ?_, ?_, ?_⟩
  · simp only [sampleParen, Tree.All, Entries.All, NameShort, NodeRd, Entries.names]; decide
  · simp only [sampleParen, Tree.All, Entries.All, NameFits, NodeFits, Entries.names]; decide
  · simp only [sampleParen, Tree.ParenLast, Entries.ParenLast, Tree.NoParen]; simp
  · simp only [sampleParen, Tree.NoParen, Entries.NoParen]; decide

/-- A valid tree: `/d/)/)` and `/d/z`. -/
def deepParen : Tree := .directory (.cons b!"d" (.directory
  (.cons b!")" (.directory (.cons b!")" (.symlink b!"x") .nil)) (.cons b!"z" (.symlink b!"y") .nil))) .nil)

/-- C23: what is worse than a missing entry: a file is reported at another path, `/z` for `/d/z`, and the
archive ends with `io.EOF` as if all was well. -/
theorem C23_refuted_path : deepParen.All NameShort NodeRd ∧
    ∃ r s', newReader ⟨deepParen.nar, .eof⟩ = (.ok r, s') ∧
      (hdrsOf (r.run (List.replicate 6 .next)).1).map Header.path =
        [b!"/", b!"/d", b!"/d/)", b!"/d/)/)", b!"/z"] ∧
      (deepParen.entriesAt b!"/").map Entry.path =
        [b!"/", b!"/d", b!"/d/)", b!"/d/)/)", b!"/d/z"] ∧
      (r.run (List.replicate 6 .next)).1.getLast? = some (.next (.err .eof)) := by
  refine ⟨?_, _, _, newReader_nar' _ _, by decide +kernel, by decide +kernel, by decide +kernel⟩
  simp only [deepParen, Tree.All, Entries.All, NameShort, NodeRd, Entries.names]
  decide

/-- The two sides of `C23_exact` are both met, and both missed. -/
example : (sampleParen.All NameShort NodeRd ∧ sampleParen.ParenLast) ∧ ¬ deepParen.ParenLast := by
  refine ⟨⟨sampleParen_ok.1, sampleParen_ok.2.2.1⟩, ?_⟩
  simp only [deepParen, Tree.ParenLast, Entries.ParenLast, Tree.NoParen, Entries.NoParen]
  simp

end Verif.Props
