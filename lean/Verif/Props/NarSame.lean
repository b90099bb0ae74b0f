import Verif.Props.CopyNar

/-!
# The entries of an archive determine it (C166), and which archives are copied (C165)
-/

namespace Verif.Props
open Verif Verif.Nar Verif.GoLib Verif.Spec Verif.Wire

/-- No entry of the list is at or below a path. -/
def Outside (cs : List Bytes) (X : List Entry) : Prop := ∀ e ∈ X, ∀ ds, (∀ c ∈ cs ++ ds, Good c) → e.path ≠ absPath (cs ++ ds)

theorem Outside.child {cs : List Bytes} {X : List Entry} (n : Bytes) (h : Outside cs X) : Outside (cs ++ [n]) X := by
  intro e he ds hg
  rw [List.append_assoc] at hg ⊢
  exact h e he _ hg

mutual
theorem tree_same {P P' : Bytes → Prop} {N N' : Tree → Prop} (hP : ∀ n, P n → Good n) (hP' : ∀ n, P' n → Good n) (t : Tree)
    (ht : t.All P N) (t' : Tree) (ht' : t'.All P' N') (cs : List Bytes) (hcs : ∀ c ∈ cs, Good c) (X X' : List Entry)
    (hX : Outside cs X) (hX' : Outside cs X') (h : t.entriesAt (absPath cs) ++ X = t'.entriesAt (absPath cs) ++ X') : t = t' ∧ X = X' := by
  cases t with
  | regular ex c =>
    cases t' with
    | regular ex' c' =>
      simp only [Tree.entriesAt, List.cons_append, List.nil_append, List.cons.injEq, Entry.mk.injEq, true_and] at h
      obtain ⟨⟨rfl, rfl⟩, rfl⟩ := h
      exact ⟨rfl, rfl⟩
    | symlink tg => exact absurd (congrArg Entry.kind (List.cons.inj h).1) (by simp)
    | directory es => exact absurd (congrArg Entry.kind (List.cons.inj h).1) (by simp)
  | symlink tg =>
    cases t' with
    | symlink tg' =>
      simp only [Tree.entriesAt, List.cons_append, List.nil_append, List.cons.injEq, Entry.mk.injEq, true_and, and_true] at h
      obtain ⟨rfl, rfl⟩ := h
      exact ⟨rfl, rfl⟩
    | regular ex c => exact absurd (congrArg Entry.kind (List.cons.inj h).1) (by simp)
    | directory es => exact absurd (congrArg Entry.kind (List.cons.inj h).1) (by simp)
  | directory es =>
    cases t' with
    | directory es' =>
      simp only [Tree.entriesAt, List.cons_append, List.cons.injEq, true_and] at h
      obtain ⟨rfl, rfl⟩ := entries_same hP hP' es ht.2.2 ht.2.1 es' ht'.2.2 ht'.2.1 cs hcs X X' hX hX' h
      exact ⟨rfl, rfl⟩
    | regular ex c => exact absurd (congrArg Entry.kind (List.cons.inj h).1) (by simp)
    | symlink tg => exact absurd (congrArg Entry.kind (List.cons.inj h).1) (by simp)
theorem entries_same {P P' : Bytes → Prop} {N N' : Tree → Prop} (hP : ∀ n, P n → Good n) (hP' : ∀ n, P' n → Good n) (es : Entries)
    (ht : es.All P N) (hs : es.names.Pairwise (· < ·)) (es' : Entries) (ht' : es'.All P' N') (hs' : es'.names.Pairwise (· < ·))
    (cs : List Bytes) (hcs : ∀ c ∈ cs, Good c) (X X' : List Entry)
    (hX : Outside cs X) (hX' : Outside cs X') (h : es.entriesAt (absPath cs) ++ X = es'.entriesAt (absPath cs) ++ X') : es = es' ∧ X = X' := by
  have first : ∀ (t : Tree) (p : Bytes), ∃ e l, t.entriesAt p = e :: l ∧ e.path = p := by
    intro t p
    cases t <;> exact ⟨_, _, rfl, rfl⟩
  have out : ∀ {Q : Bytes → Prop} {M : Tree → Prop} (n : Bytes) (t : Tree) (fs : Entries), (∀ n, Q n → Good n) →
      (Entries.cons n t fs).All Q M → (Entries.cons n t fs).names.Pairwise (· < ·) → ∀ Y : List Entry, Outside cs Y →
      Outside (cs ++ [n]) (fs.entriesAt (absPath cs) ++ Y) := by
    intro Q M n t fs hQ hall hsort Y hY
    simp only [Entries.names, List.pairwise_cons] at hsort
    intro e he ds hg hp
    rcases List.mem_append.1 he with he | he
    · obtain ⟨m, ds', hm, hp', hg'⟩ := (entries_paths hQ fs hall.2.2 hsort.2 cs hcs).1 e he
      have := absPath_inj hg hg' (hp ▸ hp')
      rw [List.append_assoc] at this
      have := List.append_cancel_left this
      cases this
      exact List.lt_irrefl _ (hsort.1 n hm)
    · exact hY.child n e he ds hg hp
  cases es with
  | nil =>
    cases es' with
    | nil => exact ⟨rfl, h⟩
    | cons n' t' es' =>
      obtain ⟨e, l, h1, h2⟩ := first t' (absPath (cs ++ [n']))
      simp only [Entries.entriesAt, ← absPath_snoc cs n' hcs, h1, List.nil_append, List.cons_append] at h
      exact absurd h2 (hX e (h ▸ List.mem_cons_self) [n'] (good_snoc hcs (hP' _ ht'.1)))
  | cons n t es =>
    cases es' with
    | nil =>
      obtain ⟨e, l, h1, h2⟩ := first t (absPath (cs ++ [n]))
      simp only [Entries.entriesAt, ← absPath_snoc cs n hcs, h1, List.nil_append, List.cons_append] at h
      exact absurd h2 (hX' e (h ▸ List.mem_cons_self) [n] (good_snoc hcs (hP _ ht.1)))
    | cons n' t' es' =>
      have hg := good_snoc hcs (hP _ ht.1)
      have hg' := good_snoc hcs (hP' _ ht'.1)
      have hn : n = n' := by
        obtain ⟨e, l, h1, h2⟩ := first t (absPath (cs ++ [n]))
        obtain ⟨e', l', h1', h2'⟩ := first t' (absPath (cs ++ [n']))
        simp only [Entries.entriesAt, ← absPath_snoc cs n hcs, ← absPath_snoc cs n' hcs, h1, h1', List.cons_append, List.cons.injEq] at h
        have := absPath_inj hg hg' (h2 ▸ h2' ▸ congrArg Entry.path h.1)
        cases List.append_cancel_left this
        rfl
      subst hn
      have o1 := out n t es hP ht hs X hX
      have o2 := out n t' es' hP' ht' hs' X' hX'
      simp only [Entries.entriesAt, ← absPath_snoc cs n hcs, List.append_assoc] at h
      obtain ⟨rfl, h'⟩ := tree_same hP hP' t ht.2.1 t' ht'.2.1 (cs ++ [n]) hg _ _ o1 o2 h
      simp only [Entries.names, List.pairwise_cons] at hs hs'
      obtain ⟨rfl, rfl⟩ := entries_same hP hP' es ht.2.2 hs.2 es' ht'.2.2 hs'.2 cs hcs X X' hX hX' h'
      exact ⟨rfl, rfl⟩
end

theorem said_inj {a b : Entry} (h : said a = said b) : a = b := by
  cases a
  cases b
  simp only [said, hdrOf, Prod.mk.injEq, Header.mk.injEq] at h
  simp [h]

theorem map_said_inj : ∀ {a b : List Entry}, a.map said = b.map said → a = b
  | [], [], _ => rfl
  | [], b :: bs, h => by cases h
  | a :: as, [], h => by cases h
  | a :: as, b :: bs, h => by
    simp only [List.map_cons, List.cons.injEq] at h
    rw [said_inj h.1, map_said_inj h.2]

/-- C166: two trees with valid, sorted names and the same entries (headers and contents, in order) are the same tree, so their archives are the
same bytes. -/
theorem C166_tree (t t' : Tree) (ht : t.All NameOk (fun _ => True)) (ht' : t'.All NameOk (fun _ => True))
    (h : (t.entriesAt b!"/").map said = (t'.entriesAt b!"/").map said) : t = t' :=
  (tree_same (fun n hn => nameOk_good hn) (fun n hn => nameOk_good hn) t ht t' ht' [] (by simp) [] [] (by intro e he; cases he)
    (by intro e he; cases he) (by simpa using map_said_inj h)).1

/-- What a copy of the archive of a tree returned are the entries of the tree. -/
theorem copy_said (es : List Entry) : ∀ (r r'' : Reader) (w w' : Writer) (l : List (Header × Bytes)),
    (r.session (es.map fun e => List.replicate (howMany e.contents + 1) 32768)).1 =
      List.zipWith (fun en ks => (.ok (hdrOf en), readResults en.contents ks)) es
        (es.map fun e => List.replicate (howMany e.contents + 1) 32768) →
    (r.session (es.map fun e => List.replicate (howMany e.contents + 1) 32768)).2.next = (.err .eof, r'') →
    CopyNar r w l w' → l = es.map said := by
  have body : ∀ (m : Nat) (c x : Bytes) (r r' : Reader) (w w' : Writer), c.length ≤ m * 32768 → (m = 0 ∨ (m - 1) * 32768 < c.length) →
      (r.reads (List.replicate (m + 1) 32768)).1 = readResults c (List.replicate (m + 1) 32768) → CopyBody r w x r' w' →
      x = c ∧ r' = (r.reads (List.replicate (m + 1) 32768)).2 := by
    intro m
    induction m with
    | zero =>
      intro c x r r' w w' h _ hr hb
      have : c = [] := List.length_eq_zero_iff.1 (by omega)
      subst this
      simp only [List.replicate, Reader.reads, readResults, if_pos, List.cons.injEq, and_true] at hr ⊢
      cases hb with
      | eof a => rw [a]; exact ⟨rfl, rfl⟩
      | nothing a _ => rw [a] at hr; cases hr
      | chunk a _ _ _ => rw [a] at hr; cases hr
    | succ m ih =>
      intro c x r r' w w' h h' hr hb
      have h0 : c ≠ [] := by rintro rfl; simp at h'
      have h1 : 0 < c.length := List.length_pos_iff.2 h0
      rw [List.replicate_succ] at hr ⊢
      simp only [Reader.reads, readResults, if_neg h0, List.cons.injEq] at hr ⊢
      obtain ⟨hr1, hr2⟩ := hr
      have hd : c.take 32768 ≠ [] := by
        intro e
        have := congrArg List.length e
        rw [List.length_take] at this
        simp only [List.length_nil] at this
        omega
      cases hb with
      | eof a => rw [a] at hr1; cases hr1
      | nothing a _ => rw [a] at hr1; exact absurd (Res.ok.inj hr1).symm hd
      | chunk a _ _ hb =>
        rw [a] at hr1 hr2 ⊢
        cases hr1
        obtain ⟨rfl, rfl⟩ := ih (c.drop 32768) _ _ _ _ _ (by rw [List.length_drop]; omega) (by rw [List.length_drop]; omega) hr2 hb
        exact ⟨List.take_append_drop _ _, rfl⟩
  induction es with
  | nil =>
    intro r r'' w w' l _ h2 h
    cases h with
    | done _ _ => rfl
    | entry a _ _ _ =>
      simp only [List.map_nil, Reader.session] at h2
      rw [h2] at a
      cases a
  | cons e es ih =>
    intro r r'' w w' l h1 h2 h
    simp only [List.map_cons, Reader.session, List.zipWith_cons_cons, List.cons.injEq, Prod.mk.injEq] at h1 h2
    obtain ⟨⟨h1, h4⟩, h5⟩ := h1
    cases h with
    | done a _ => rw [a] at h1; cases h1
    | entry a b hb hn =>
      rw [a] at h1 h4 h5 h2
      cases h1
      obtain ⟨rfl, rfl⟩ := body (howMany e.contents) e.contents _ _ _ _ _ (by unfold howMany; omega) (by unfold howMany; omega) h4 hb
      rw [ih _ r'' _ _ _ h5 h2 hn]
      rfl

theorem noRepeat_of (t : Tree) {P : Bytes → Prop} {N : Tree → Prop} (hP : ∀ n, P n → NameOk n) (ht : t.All P N) :
    NoRepeat (((t.entriesAt b!"/").map said).map (·.1.path)) := by
  have h := (tree_paths (fun n hn => nameOk_good (hP n hn)) t ht [] (by simp)).2
  rw [List.map_map]
  refine noRepeat_of_distinct ?_
  rw [List.pairwise_map]
  refine List.Pairwise.imp ?_ h
  intro a b hab he
  have he : a.path = b.path := he
  rw [he] at hab
  exact List.lt_irrefl _ hab

/-- C165: exactly which archives are copied. For the NAR of a tree of which the reader refuses nothing, the program comes to its end without a
failed call if and only if the writer refuses nothing of the tree: no name like `..foo`, no empty symlink target. If so, the headers and contents
that it copied are the entries of the tree, and it wrote the same archive. -/
theorem C165_exact (t : Tree) (hrd : t.All NameRd NodeRd) (rest : Bytes) (e : Err) (w : Writer) (s0 : Sink)
    (hw : newWriter ⟨[], none⟩ = (.ok w, s0)) (r : Reader) (s' : Stream) (hr : newReader ⟨t.nar ++ rest, e⟩ = (.ok r, s')) :
    ((∃ l w', CopyNar r w l w') ↔ t.All NameWr NodeWr) ∧
    ∀ l w', CopyNar r w l w' → l = (t.entriesAt b!"/").map said ∧ w'.st.sink.out = t.nar := by
  have hsaid : ∀ l w', CopyNar r w l w' → l = (t.entriesAt b!"/").map said := by
    intro l w' h
    obtain ⟨r0, s0', h1, h2, r'', h3, _⟩ := C23_read_back_partial t hrd rest e
      ((t.entriesAt b!"/").map fun e => List.replicate (howMany e.contents + 1) 32768) (by simp)
    rw [hr] at h1
    cases h1
    exact copy_said _ r r'' w w' l h2 h3 h
  have hok : t.All NameOk (fun _ => True) := tree_weaken (fun n hn => hn.1) (fun _ _ => trivial) t hrd
  have hall : ∀ l w', CopyNar r w l w' → t.All NameWr NodeWr ∧ w'.st.sink.out = t.nar := by
    intro l w' h
    have hl := hsaid l w' h
    obtain ⟨⟨ops, ⟨i1, i2⟩, i3, _, i4, i5⟩, rops, j1, _⟩ := copy_ops h
    have hc := C25_paths_clean _ s' r hr rops
    have hk := C31_headers_consistent _ s' r hr rops
    rw [j1] at hc hk
    obtain ⟨t', g1, g2, g3⟩ := C22_valid_nar_partial w s0 hw ops (fun x hx => ⟨by
      rcases (hk x (i4 x hx)).2.1 with h | h | h
      · exact .inl h
      · exact .inr (.inr h)
      · exact .inr (.inl h), (hc x (i4 x hx)).2.1, (hk x (i4 x hx)).2.2.1, by have := (hk x (i4 x hx)).2.2.2.1; omega⟩) i5
      (by rw [i3, hl]; exact noRepeat_of t (fun n hn => hn.1) hrd) i1
    have := C166_tree t t' hok (tree_weaken (fun n hn => hn.1) (fun _ _ => trivial) t' g1) (by rw [g3, i3, hl])
    subst this
    exact ⟨g1, i2 ▸ g2⟩
  refine ⟨⟨fun ⟨l, w', h⟩ => (hall l w' h).1, fun h => ?_⟩, fun l w' h => ⟨hsaid l w' h, (hall l w' h).2⟩⟩
  obtain ⟨r0, s0', w', h1, h2, _⟩ := C165_copy_partial t hrd h rest e w s0 hw
  rw [hr] at h1
  cases h1
  exact ⟨_, w', h2⟩

theorem bytesRead_whole (ks : List Nat) : ∀ c : Bytes, Res.err .eof ∈ readResults c ks → bytesRead (readResults c ks) = c := by
  have nothing : ∀ ks : List Nat, bytesRead (readResults [] ks) = [] := by
    intro ks
    induction ks with
    | nil => rfl
    | cons k ks ih => simpa [readResults, bytesRead] using ih
  induction ks with
  | nil => intro c h; cases h
  | cons k ks ih =>
    intro c h
    by_cases hc : c = []
    · subst hc; exact nothing _
    · simp only [readResults, if_neg hc, List.mem_cons, reduceCtorEq, false_or] at h ⊢
      have := ih _ h
      show c.take k ++ bytesRead (readResults (c.drop k) ks) = c
      rw [this, List.take_append_drop]

/-- C166: if a program reads all of the NARs of two trees, each entry to the end, with whatever buffers, and gets the same headers and contents,
the trees are the same, and so are the archives. -/
theorem C166_reader (t t' : Tree) (ht : t.All NameRd NodeRd) (ht' : t'.All NameRd NodeRd) (rest rest' : Bytes) (e e' : Err) (r r' : Reader)
    (s s' : Stream) (hr : newReader ⟨t.nar ++ rest, e⟩ = (.ok r, s)) (hr' : newReader ⟨t'.nar ++ rest', e'⟩ = (.ok r', s'))
    (plan plan' : List (List Nat)) (hp : plan.length = (t.entriesAt b!"/").length) (hp' : plan'.length = (t'.entriesAt b!"/").length)
    (hall : ∀ x ∈ (r.session plan).1, .err .eof ∈ x.2) (hall' : ∀ x ∈ (r'.session plan').1, .err .eof ∈ x.2)
    (h : (r.session plan).1.map (fun x => (x.1, bytesRead x.2)) = (r'.session plan').1.map (fun x => (x.1, bytesRead x.2))) :
    t = t' ∧ t.nar = t'.nar := by
  have key : ∀ (es : List Entry) (plan : List (List Nat)), plan.length = es.length →
      (∀ x ∈ List.zipWith (fun en ks => ((.ok (hdrOf en) : Call Header), readResults en.contents ks)) es plan, .err .eof ∈ x.2) →
      (List.zipWith (fun en ks => ((.ok (hdrOf en) : Call Header), readResults en.contents ks)) es plan).map (fun x => (x.1, bytesRead x.2)) =
        es.map fun en => (.ok (hdrOf en), en.contents) := by
    intro es
    induction es with
    | nil => intro plan _ _; rfl
    | cons en es ih =>
      intro plan hl hx
      cases plan with
      | nil => cases hl
      | cons ks plan =>
        simp only [List.zipWith_cons_cons, List.map_cons, List.cons.injEq, Prod.mk.injEq, true_and]
        exact ⟨bytesRead_whole _ _ (hx _ List.mem_cons_self), ih plan (by simpa using hl) fun x h => hx x (List.mem_cons_of_mem _ h)⟩
  obtain ⟨r0, s0, h1, h2, _⟩ := C23_read_back_partial t ht rest e plan hp
  obtain ⟨r0', s0', h1', h2', _⟩ := C23_read_back_partial t' ht' rest' e' plan' hp'
  rw [hr] at h1
  cases h1
  rw [hr'] at h1'
  cases h1'
  rw [h2] at hall h
  rw [h2'] at hall' h
  rw [key _ _ hp hall, key _ _ hp' hall'] at h
  have hs : (t.entriesAt b!"/").map said = (t'.entriesAt b!"/").map said := by
    generalize t.entriesAt b!"/" = a at h
    generalize t'.entriesAt b!"/" = b at h
    induction a generalizing b with
    | nil =>
      cases b with
      | nil => rfl
      | cons x b => cases h
    | cons y a ih =>
      cases b with
      | nil => cases h
      | cons x b =>
        simp only [List.map_cons, List.cons.injEq, Prod.mk.injEq, Call.ok.injEq] at h ⊢
        exact ⟨Prod.ext h.1.1 h.1.2, ih b h.2⟩
  have := C166_tree t t' (tree_weaken (fun n hn => hn.1) (fun _ _ => trivial) t ht) (tree_weaken (fun n hn => hn.1) (fun _ _ => trivial) t' ht') hs
  exact ⟨this, congrArg _ this⟩

/-- C166: without the order of the entries it is false: these are two archives, but one says of its entries what the other says. -/
theorem C166_needs_names : ∃ t t' : Tree, (t.entriesAt b!"/").map said = (t'.entriesAt b!"/").map said ∧ t.nar ≠ t'.nar := by
  refine ⟨.directory (.cons b!"a" (.directory (.cons b!"b" (.symlink b!"x") .nil)) .nil),
    .directory (.cons b!"a" (.directory .nil) (.cons b!"a/b" (.symlink b!"x") .nil)), ?_, ?_⟩ <;> decide +kernel

example := C165_exact sampleTree (by simp only [sampleTree, Tree.All, Entries.All, NodeRd, Entries.names, NameRd]; decide) b!"more" .eof
  freshWriter _ newWriter_fresh _ _ (newReader_nar _ _ _)

/-- The sessions of C166: the same file, read with buffers of 2 and of 3 bytes. -/
def fileTree : Tree := .directory (.cons b!"a" (.regular true b!"data") .nil)

example := C166_reader fileTree fileTree (by simp only [fileTree, Tree.All, Entries.All, NodeRd, Entries.names, NameRd]; decide)
  (by simp only [fileTree, Tree.All, Entries.All, NodeRd, Entries.names, NameRd]; decide) [] [] .eof .eof _ _ _ _ (newReader_nar fileTree [] _)
  (newReader_nar fileTree [] _) [[1], [2, 2, 2]] [[1], [3, 3, 3, 3]] (by decide +kernel) (by decide +kernel) (by decide +kernel)
  (by decide +kernel) (by decide +kernel)

end Verif.Props
