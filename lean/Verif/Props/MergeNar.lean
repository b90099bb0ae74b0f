import Verif.Spec.MergeNar
import Verif.Props.MapNar

/-!
# Putting archives into a directory (C171)
-/

namespace Verif.Props
open Verif Verif.Nar Verif.GoLib Verif.Spec Verif.Wire

theorem into_exists (g : Header → Header) (es : List Entry) : ∀ (es' : List Entry) (r r'' : Reader) (w w' : Writer),
    es.map (fun e => (g (hdrOf e), e.contents)) = es'.map said →
    (r.session (es.map fun e => List.replicate (howMany e.contents + 1) 32768)).1 =
      List.zipWith (fun en ks => (.ok (hdrOf en), readResults en.contents ks)) es
        (es.map fun e => List.replicate (howMany e.contents + 1) 32768) →
    (r.session (es.map fun e => List.replicate (howMany e.contents + 1) 32768)).2.next = (.err .eof, r'') →
    RunsTo w (writeOps (es'.map fun e => (e, pieces (howMany e.contents) e.contents))) w' →
    CopyInto g r w (es'.map said) w' := by
  induction es with
  | nil =>
    intro es' r r'' w w' hes _ h2 h3
    cases es' with
    | cons e' es' => cases hes
    | nil =>
      have : w' = w := h3.2.symm
      subst this
      exact .done h2
  | cons e es ih =>
    intro es' r r'' w w' hes h1 h2 h3
    simp only [List.map_cons, Reader.session, List.zipWith_cons_cons, List.cons.injEq, Prod.mk.injEq] at h1 h2
    obtain ⟨⟨h1, h4⟩, h5⟩ := h1
    cases es' with
    | nil => cases hes
    | cons e' es' =>
      simp only [List.map_cons, List.cons.injEq] at hes
      obtain ⟨hes1, hes⟩ := hes
      simp only [said, Prod.mk.injEq] at hes1
      obtain ⟨hh, hcont⟩ := hes1
      simp only [writeOps, List.map_cons, List.flatMap_cons, List.cons_append] at h3
      obtain ⟨g1, g2⟩ := runsTo_head h3
      obtain ⟨w2, g4, g5⟩ := runsTo_split g2
      have g3 : (w.writeHeader (hdrOf e')).1 = .ok () := good_unit g1
      rw [← hcont] at g4
      have hb := body_copy (howMany e.contents) e.contents r.next.2 _ w2 (by unfold howMany; omega) (by unfold howMany; omega) h4 g4
      have g3' : w.writeHeader (g (hdrOf e)) = (.ok (), (w.writeHeader (hdrOf e')).2) := by rw [hh]; exact Prod.ext g3 rfl
      have := CopyInto.entry (g := g) (Prod.ext h1 rfl) g3' hb (ih es' _ r'' w2 w' hes h5 h2 g5)
      rw [hcont, hh] at this
      exact this

theorem moved_path {n : Bytes} {ds : List Bytes} (hds : ∀ c ∈ ds, Good c) (h : Header) (hp : h.path = absPath ds) :
    moved n h = { h with path := absPath (n :: ds) } := by
  unfold moved
  rw [hp]
  by_cases hd : ds = []
  · subst hd
    rw [if_pos (by rfl)]
    simp [absPath, join]
  · rw [if_neg]
    · have := absPath_under (cs := [n]) hd (by simp)
      rw [show n :: ds = [n] ++ ds from rfl, this]
      simp [absPath, join]
    · intro e
      exact hd (absPath_inj (b := []) hds (by simp) e)

mutual
theorem moved_entries {P : Bytes → Prop} {N : Tree → Prop} (hP : ∀ n, P n → Good n) (t : Tree) (ht : t.All P N) (n : Bytes) (hn : Good n)
    (ds : List Bytes) (hds : ∀ c ∈ ds, Good c) :
    (t.entriesAt (absPath ds)).map (fun e => (moved n (hdrOf e), e.contents)) = (t.entriesAt (absPath (n :: ds))).map said := by
  cases t with
  | regular x c => simp only [Tree.entriesAt, List.map_cons, List.map_nil, moved_path hds (hdrOf ⟨absPath ds, _, _, _, _⟩) rfl]; rfl
  | symlink tg => simp only [Tree.entriesAt, List.map_cons, List.map_nil, moved_path hds (hdrOf ⟨absPath ds, _, _, _, _⟩) rfl]; rfl
  | directory es =>
    simp only [Tree.entriesAt, List.map_cons, moved_path hds (hdrOf ⟨absPath ds, _, _, _, _⟩) rfl]
    rw [moved_entriess hP es ht.2.2 n hn ds hds]
    rfl
theorem moved_entriess {P : Bytes → Prop} {N : Tree → Prop} (hP : ∀ n, P n → Good n) (es : Entries) (ht : es.All P N) (n : Bytes) (hn : Good n)
    (ds : List Bytes) (hds : ∀ c ∈ ds, Good c) :
    (es.entriesAt (absPath ds)).map (fun e => (moved n (hdrOf e), e.contents)) = (es.entriesAt (absPath (n :: ds))).map said := by
  cases es with
  | nil => rfl
  | cons m t es =>
    have hnd : ∀ c ∈ n :: ds, Good c := by
      intro c hc
      rcases List.mem_cons.1 hc with rfl | hc
      · exact hn
      · exact hds c hc
    simp only [Entries.entriesAt, ← absPath_snoc ds m hds, ← absPath_snoc (n :: ds) m hnd, List.map_append]
    rw [moved_entries hP t ht.2.1 n hn (ds ++ [m]) (good_snoc hds (hP m ht.1)), moved_entriess hP es ht.2.2 n hn ds hds]
    rfl
end

theorem writeOps_append (a b : List (Entry × List Bytes)) : writeOps (a ++ b) = writeOps a ++ writeOps b := by
  simp only [writeOps, List.flatMap_append]

theorem all_exists (es : Entries) (hes : es.All NameWr NodeWr) : ∀ (rs : List (Bytes × Reader)) (w w' : Writer), Opened es rs →
    RunsTo w (writeOps ((es.entriesAt b!"/").map fun e => (e, pieces (howMany e.contents) e.contents))) w' →
    CopyAll rs w ((es.entriesAt b!"/").map said) w' := by
  revert hes
  refine Entries.rec (motive_1 := fun _ => True) (motive_2 := fun es => es.All NameWr NodeWr → ∀ (rs : List (Bytes × Reader)) (w w' : Writer),
    Opened es rs → RunsTo w (writeOps ((es.entriesAt b!"/").map fun e => (e, pieces (howMany e.contents) e.contents))) w' →
    CopyAll rs w ((es.entriesAt b!"/").map said) w') (by intros; trivial) (by intros; trivial) (by intros; trivial) ?_ ?_ es
  · intro _ rs w w' ho h
    cases ho
    have : w' = w := h.2.symm
    subst this
    exact .nil
  · intro n t es _ ih hall rs w w' ho h
    cases ho with
    | cons hrd hr ho =>
      rename_i r rs' rest e s
      have hn : Good n := nameOk_good hall.1.1
      simp only [Entries.entriesAt, List.map_append, writeOps_append] at h
      obtain ⟨w1, g1, g2⟩ := runsTo_split h
      obtain ⟨r0, s0, h1, h2, r'', h3, _⟩ := C23_read_back_partial t hrd rest e
        ((t.entriesAt b!"/").map fun e => List.replicate (howMany e.contents + 1) 32768) (by simp)
      rw [hr] at h1
      cases h1
      have hmv : (t.entriesAt b!"/").map (fun e => (moved n (hdrOf e), e.contents)) = (t.entriesAt (childPath b!"/" n)).map said :=
        moved_entries (fun n (hn : NameRd n) => nameOk_good hn.1) t hrd n hn [] (by simp)
      have := into_exists (moved n) _ (t.entriesAt (childPath b!"/" n)) r r'' w w1 hmv h2 h3 g1
      simp only [Entries.entriesAt, List.map_append]
      exact .cons this (ih hall.2.2 _ _ _ ho g2)

/-- C171: putting archives into a directory. If the readers are opened on the archives of the entries of a directory, and the writer refuses nothing
of the directory, the program comes to its end without a failed call, and it writes the archive of the directory. -/
theorem C171_merge (es : Entries) (hwr : (Tree.directory es).All NameWr NodeWr) (rs : List (Bytes × Reader)) (ho : Opened es rs) (w : Writer)
    (s0 : Sink) (hw : newWriter ⟨[], none⟩ = (.ok w, s0)) :
    ∃ w', MergeNar rs w (((Tree.directory es).entriesAt b!"/").map said) w' ∧ w'.st.sink.out = (Tree.directory es).nar := by
  obtain ⟨g1, g2⟩ := C21_writes_nar_partial (.directory es) hwr
    (((Tree.directory es).entriesAt b!"/").map fun e => (e, pieces (howMany e.contents) e.contents))
    (by rw [List.map_map]; exact List.map_id'' (fun _ => rfl) _) (by
      intro x hx
      obtain ⟨e, _, rfl⟩ := List.mem_map.1 hx
      exact pieces_flatten _ _ (by unfold howMany; omega)) w s0 hw
  refine ⟨_, ?_, g2⟩
  have h : RunsTo w (writeOps (((Tree.directory es).entriesAt b!"/").map fun e => (e, pieces (howMany e.contents) e.contents)) ++ [.close]) _ :=
    ⟨g1, rfl⟩
  obtain ⟨w3, h1, h2⟩ := runsTo_split h
  obtain ⟨k1, k2⟩ := runsTo_head (o := .close) (os := []) h2
  simp only [Tree.entriesAt, List.map_cons, writeOps, List.flatMap_cons] at h1
  obtain ⟨j1, j2⟩ := runsTo_head h1
  have j3 : (w.writeHeader ⟨b!"/", b!"directory", [], 0, false⟩).1 = .ok () := good_unit j1
  have k3 : w3.close.1 = .ok () := good_unit k1
  have k4 := k2.2
  simp only [Writer.run] at k4
  rw [← k4]
  simp only [Tree.entriesAt, List.map_cons]
  refine .mk (Prod.ext j3 rfl) (all_exists es hwr.2.2 rs _ w3 ho ?_) (Prod.ext k3 rfl)
  have e0 : pieces (howMany []) [] = [] := rfl
  simp only [e0, List.map_nil, List.nil_append] at j2
  exact j2

theorem into_once {g : Header → Header} {r : Reader} {w w1 w2 : Writer} {l1 l2 : List (Header × Bytes)} (h1 : CopyInto g r w l1 w1)
    (h2 : CopyInto g r w l2 w2) : l1 = l2 ∧ w1 = w2 := by
  induction h1 generalizing l2 w2 with
  | done a =>
    cases h2 with
    | done _ => exact ⟨rfl, rfl⟩
    | entry a' _ _ _ => rw [a] at a'; cases a'
  | entry a b hb _ ih =>
    cases h2 with
    | done a' => rw [a] at a'; cases a'
    | entry a' b' hb' hn' =>
      rw [a] at a'
      cases a'
      rw [b] at b'
      cases b'
      obtain ⟨rfl, rfl, rfl⟩ := copyBody_once hb hb'
      obtain ⟨rfl, rfl⟩ := ih hn'
      exact ⟨rfl, rfl⟩

/-- The program does the same each time. -/
theorem C171_once {rs : List (Bytes × Reader)} {w w1 w2 : Writer} {l1 l2 : List (Header × Bytes)} (h1 : MergeNar rs w l1 w1)
    (h2 : MergeNar rs w l2 w2) : l1 = l2 ∧ w1 = w2 := by
  have all : ∀ {rs : List (Bytes × Reader)} {w w1 w2 : Writer} {l1 l2 : List (Header × Bytes)}, CopyAll rs w l1 w1 → CopyAll rs w l2 w2 →
      l1 = l2 ∧ w1 = w2 := by
    intro rs w w1 w2 l1 l2 h1
    induction h1 generalizing l2 w2 with
    | nil => intro h2; cases h2; exact ⟨rfl, rfl⟩
    | cons a _ ih =>
      intro h2
      cases h2 with
      | cons a' b' =>
        obtain ⟨rfl, rfl⟩ := into_once a a'
        obtain ⟨rfl, rfl⟩ := ih b'
        exact ⟨rfl, rfl⟩
  cases h1 with
  | mk a b c =>
    cases h2 with
    | mk a' b' c' =>
      rw [a] at a'
      cases a'
      obtain ⟨rfl, rfl⟩ := all b b'
      rw [c] at c'
      cases c'
      exact ⟨rfl, rfl⟩

/-- C171: the archives have to come in the order of the names: these two in the other order are refused. -/
theorem C171_needs_order : ∃ r s r' s', newReader ⟨(Tree.symlink b!"x").nar, .eof⟩ = (.ok r, s) ∧
    newReader ⟨(Tree.symlink b!"y").nar, .eof⟩ = (.ok r', s') ∧ ∀ l w', ¬ MergeNar [(b!"b", r), (b!"a", r')] freshWriter l w' := by
  refine ⟨_, _, _, _, newReader_nar' _ _, newReader_nar' _ _, ?_⟩
  intro l w' h
  have first : ∀ {g : Header → Header} {r : Reader} {h : Header} {w l w'}, r.next.1 = .ok h → CopyInto g r w l w' →
      (w.writeHeader (g h)).1 = .ok () ∧ ∃ c r2 w2 l', CopyBody r.next.2 (w.writeHeader (g h)).2 c r2 w2 ∧ CopyInto g r2 w2 l' w' := by
    intro g r h w l w' hn hm
    cases hm with
    | done a => rw [a] at hn; cases hn
    | entry a b c d => rw [a] at hn ⊢; cases hn; exact ⟨by rw [b], _, _, _, _, by rw [b]; exact c, d⟩
  have hend : ∀ {g : Header → Header} {r : Reader} {w l w'}, r.next.1 = .err .eof → CopyInto g r w l w' → w' = w := by
    intro g r w l w' hn hm
    cases hm with
    | done a => rfl
    | entry a _ _ _ => rw [a] at hn; cases hn
  have hbody : ∀ {r : Reader} {w c r2 w2}, (r.read 32768).1 = .err .eof → CopyBody r w c r2 w2 → r2 = (r.read 32768).2 ∧ w2 = w := by
    intro r w c r2 w2 he hb
    cases hb with
    | eof a => rw [a]; exact ⟨rfl, rfl⟩
    | nothing a _ => rw [a] at he; cases he
    | chunk a _ _ _ => rw [a] at he; cases he
  cases h with
  | mk a b c =>
    have e0 := congrArg Prod.snd a
    simp only at e0
    subst e0
    cases b with
    | cons b1 b2 =>
      obtain ⟨_, _, _, _, _, d1, d2⟩ := first (h := ⟨b!"/", b!"symlink", b!"x", 0, false⟩) (by decide +kernel) b1
      have q := hbody (by decide +kernel) d1
      rw [q.1, q.2] at d2
      have q2 := hend (by decide +kernel) d2
      rw [q2] at b2
      cases b2 with
      | cons b3 _ =>
        have k := (first (h := ⟨b!"/", b!"symlink", b!"y", 0, false⟩) (by decide +kernel) b3).1
        have k' : (((freshWriter.writeHeader ⟨b!"/", b!"directory", [], 0, false⟩).2.writeHeader
          (moved b!"b" ⟨b!"/", b!"symlink", b!"x", 0, false⟩)).2.writeHeader (moved b!"a" ⟨b!"/", b!"symlink", b!"y", 0, false⟩)).1 ≠ .ok () := by
          decide +kernel
        exact k' k

/-- Two archives in a directory. -/
example := C171_merge (.cons b!"a" sampleTree (.cons b!"b" (.symlink b!"a/bin") .nil))
  (by simp only [sampleTree, Tree.All, Entries.All, NodeWr, Entries.names, NameWr]; decide) _
  (.cons (t := sampleTree) (rest := b!"more") (e := .eof)
    (by simp only [sampleTree, Tree.All, Entries.All, NodeRd, Entries.names, NameRd]; decide) (newReader_nar _ _ _)
    (.cons (t := .symlink b!"a/bin") (rest := []) (e := .io) (by simp only [Tree.All, NodeRd]; decide) (newReader_nar _ _ _) .nil))
  freshWriter _ newWriter_fresh

end Verif.Props
