import Verif.Spec.MapNar
import Verif.Props.NarSame
import Verif.Lemmas.Store

/-!
# Copying a part of an archive, or with other headers (C168, C169)
-/

namespace Verif.Props
open Verif Verif.Nar Verif.GoLib Verif.Spec Verif.Wire

/-- How much is read of an entry. -/
def readsOf (g : Header → Option Header) (e : Entry) : List Nat :=
  if g (hdrOf e) = none then [] else List.replicate (howMany e.contents + 1) 32768

/-- What the program takes of a list of entries. -/
def taken (g : Header → Option Header) (es : List Entry) : List (Header × Bytes) :=
  es.filterMap fun e => (g (hdrOf e)).map fun h => (h, e.contents)

theorem map_exists (g : Header → Option Header) (es : List Entry) : ∀ (es' : List Entry) (r r'' : Reader) (w w' : Writer),
    taken g es = es'.map said →
    (r.session (es.map (readsOf g))).1 = List.zipWith (fun en ks => (.ok (hdrOf en), readResults en.contents ks)) es (es.map (readsOf g)) →
    (r.session (es.map (readsOf g))).2.next = (.err .eof, r'') →
    RunsTo w (writeOps (es'.map fun e => (e, pieces (howMany e.contents) e.contents)) ++ [.close]) w' →
    MapNar g r w (es'.map said) w' := by
  induction es with
  | nil =>
    intro es' r r'' w w' hes _ h2 h3
    cases es' with
    | cons e' es' => cases hes
    | nil =>
      obtain ⟨g1, g2⟩ := runsTo_head (o := .close) (os := []) h3
      have g3 : w.close.1 = .ok () := good_unit g1
      have : w' = w.close.2 := g2.2.symm
      subst this
      exact .done h2 (Prod.ext g3 rfl)
  | cons e es ih =>
    intro es' r r'' w w' hes h1 h2 h3
    simp only [List.map_cons, Reader.session, List.zipWith_cons_cons, List.cons.injEq, Prod.mk.injEq] at h1 h2
    obtain ⟨⟨h1, h4⟩, h5⟩ := h1
    cases hg : g (hdrOf e) with
    | none =>
      have hro : readsOf g e = [] := by unfold readsOf; rw [if_pos hg]
      rw [hro] at h4 h5 h2
      simp only [taken, List.filterMap_cons, hg, Option.map_none] at hes
      exact .skip (Prod.ext h1 rfl) hg (ih es' _ r'' w w' hes h5 h2 h3)
    | some h' =>
      have hro : readsOf g e = List.replicate (howMany e.contents + 1) 32768 := by unfold readsOf; rw [if_neg (by rw [hg]; simp)]
      rw [hro] at h4 h5 h2
      simp only [taken, List.filterMap_cons, hg, Option.map_some] at hes
      cases es' with
      | nil => cases hes
      | cons e' es' =>
        simp only [List.map_cons, List.cons.injEq] at hes
        obtain ⟨hes1, hes⟩ := hes
        simp only [said, Prod.mk.injEq] at hes1
        obtain ⟨rfl, hcont⟩ := hes1
        simp only [writeOps, List.map_cons, List.flatMap_cons, List.cons_append, List.append_assoc] at h3
        obtain ⟨g1, g2⟩ := runsTo_head h3
        obtain ⟨w2, g4, g5⟩ := runsTo_split g2
        have g3 : (w.writeHeader (hdrOf e')).1 = .ok () := good_unit g1
        rw [← hcont] at g4
        have hb := body_copy (howMany e.contents) e.contents r.next.2 _ w2 (by unfold howMany; omega) (by unfold howMany; omega) h4 g4
        have := MapNar.entry (g := g) (Prod.ext h1 rfl) hg (Prod.ext g3 rfl) hb (ih es' _ r'' w2 w' hes h5 h2 g5)
        rw [hcont] at this
        exact this

/-- C168: if the headers that `g` makes of the headers of a tree, with the contents, are the entries of another tree of which the writer refuses
nothing, then the program comes to its end without a failed call, and it writes the NAR of that tree. -/
theorem C168_map (g : Header → Option Header) (t t' : Tree) (hrd : t.All NameRd NodeRd) (hwr : t'.All NameWr NodeWr)
    (h : ((t.entriesAt b!"/").filterMap fun e => (g (hdrOf e)).map fun h => (h, e.contents)) = (t'.entriesAt b!"/").map said) (rest : Bytes)
    (e : Err) (w : Writer) (s0 : Sink) (hw : newWriter ⟨[], none⟩ = (.ok w, s0)) :
    ∃ r s' w', newReader ⟨t.nar ++ rest, e⟩ = (.ok r, s') ∧ MapNar g r w ((t'.entriesAt b!"/").map said) w' ∧ w'.st.sink.out = t'.nar := by
  obtain ⟨r, s', h1, h2, r'', h3, _⟩ := C23_read_back_partial t hrd rest e ((t.entriesAt b!"/").map (readsOf g)) (by simp)
  obtain ⟨g1, g2⟩ := C21_writes_nar_partial t' hwr ((t'.entriesAt b!"/").map fun e => (e, pieces (howMany e.contents) e.contents))
    (by rw [List.map_map]; exact List.map_id'' (fun _ => rfl) _) (by
      intro x hx
      obtain ⟨e, _, rfl⟩ := List.mem_map.1 hx
      exact pieces_flatten _ _ (by unfold howMany; omega)) w s0 hw
  exact ⟨r, s', _, h1, map_exists g _ _ r r'' w _ h h2 h3 ⟨g1, rfl⟩, g2⟩

theorem copyBody_once {r r1 r2 : Reader} {w w1 w2 : Writer} {c1 c2 : Bytes} (h1 : CopyBody r w c1 r1 w1) (h2 : CopyBody r w c2 r2 w2) :
    c1 = c2 ∧ r1 = r2 ∧ w1 = w2 := by
  induction h1 generalizing c2 r2 w2 with
  | eof a =>
    cases h2 with
    | eof b => rw [a] at b; cases b; exact ⟨rfl, rfl, rfl⟩
    | nothing b _ => rw [a] at b; cases b
    | chunk b _ _ _ => rw [a] at b; cases b
  | nothing a _ ih =>
    cases h2 with
    | eof b => rw [a] at b; cases b
    | nothing b hb => rw [a] at b; cases b; exact ih hb
    | chunk b hd _ _ => rw [a] at b; cases b; exact absurd rfl hd
  | chunk a hd hw _ ih =>
    cases h2 with
    | eof b => rw [a] at b; cases b
    | nothing b hb => rw [a] at b; cases b; exact absurd rfl hd
    | chunk b hd' hw' hb =>
      rw [a] at b
      cases b
      rw [hw] at hw'
      cases hw'
      obtain ⟨rfl, rfl, rfl⟩ := ih hb
      exact ⟨rfl, rfl, rfl⟩

/-- The program does the same each time. -/
theorem C168_once {g : Header → Option Header} {r : Reader} {w w1 w2 : Writer} {l1 l2 : List (Header × Bytes)} (h1 : MapNar g r w l1 w1)
    (h2 : MapNar g r w l2 w2) : l1 = l2 ∧ w1 = w2 := by
  induction h1 generalizing l2 w2 with
  | done a b =>
    cases h2 with
    | done a' b' => rw [b] at b'; cases b'; exact ⟨rfl, rfl⟩
    | skip a' _ _ => rw [a] at a'; cases a'
    | entry a' _ _ _ _ => rw [a] at a'; cases a'
  | skip a b _ ih =>
    cases h2 with
    | done a' _ => rw [a] at a'; cases a'
    | skip a' _ hn' => rw [a] at a'; cases a'; exact ih hn'
    | entry a' b' _ _ _ => rw [a] at a'; cases a'; rw [b] at b'; cases b'
  | entry a b hw hb _ ih =>
    cases h2 with
    | done a' _ => rw [a] at a'; cases a'
    | skip a' b' _ => rw [a] at a'; cases a'; rw [b] at b'; cases b'
    | entry a' b' hw' hb' hn' =>
      rw [a] at a'
      cases a'
      rw [b] at b'
      cases b'
      rw [hw] at hw'
      cases hw'
      obtain ⟨rfl, rfl, rfl⟩ := copyBody_once hb hb'
      obtain ⟨rfl, rfl⟩ := ih hn'
      exact ⟨rfl, rfl⟩

theorem map_ops {g : Header → Option Header} {r : Reader} {w w' : Writer} {l : List (Header × Bytes)} (h : MapNar g r w l w') :
    ∃ ops : List WOp, RunsTo w (ops ++ [.close]) w' ∧ written ops = l ∧ leadWrites ops = [] ∧
      (∀ x, .header x ∈ ops ↔ x ∈ l.map (·.1)) ∧ ∀ p, .write p ∈ ops → p.length < 2 ^ 63 := by
  induction h with
  | @done r w r' w' h1 h2 =>
    refine ⟨[], ?_, rfl, rfl, by simp, by simp⟩
    exact runsTo_cons (w1 := w') (by simp only [Writer.op, h2]) (by simp only [Writer.op, h2, WOut.good]) (runsTo_nil _)
  | skip _ _ _ ih => exact ih
  | @entry r w h r1 h' w1 c r2 w2 l w' h1 hg h2 hb _ ih =>
    obtain ⟨ops, i1, i2, i3, i4, i5⟩ := ih
    obtain ⟨⟨ps, p1, p2, p3⟩, _⟩ := copyBody_ops hb
    refine ⟨.header h' :: (ps.map .write ++ ops), ?_, ?_, rfl, ?_, ?_⟩
    · refine runsTo_cons (w1 := w1) (by simp only [Writer.op, h2]) (by simp only [Writer.op, h2, WOut.good]) ?_
      show RunsTo w1 ((ps.map .write ++ ops) ++ [.close]) w'
      rw [List.append_assoc]
      exact p3.append i1
    · simp only [written, leadWrites_append _ _ i3, p2, written_append, i2]
    · intro x
      have : ∀ qs : List Bytes, ¬ (WOp.header x ∈ qs.map .write) := by
        intro qs hq
        obtain ⟨_, _, e⟩ := List.mem_map.1 hq
        cases e
      simp only [List.mem_cons, List.mem_append, WOp.header.injEq, this, false_or, List.map_cons, i4]
    · intro p hp
      simp only [List.mem_cons, List.mem_append, List.mem_map] at hp
      rcases hp with hp | ⟨q, hq, hp⟩ | hp
      · cases hp
      · cases hp; exact p1 _ hq
      · exact i5 p hp

/-- C168: for every stream, whatever is made of the headers: if the program has come to its end without a failed call, it has written the NAR of a
tree with exactly the entries it gave to the writer, if and only if all their paths are clean, the sizes not negative, the types known, and no path
came twice in a row. -/
theorem C168_canonical (g : Header → Option Header) (r : Reader) (w : Writer) (s0 : Sink) (hw : newWriter ⟨[], none⟩ = (.ok w, s0))
    (l : List (Header × Bytes)) (w' : Writer) (h : MapNar g r w l w') (hsz : ∀ x ∈ l, x.1.size < 2 ^ 63) :
    (∃ t : Tree, t.All NameOk (fun _ => True) ∧ w'.st.sink.out = t.nar ∧ (t.entriesAt b!"/").map said = l) ↔
      (∀ x ∈ l, clean x.1.path = x.1.path ∧ 0 ≤ x.1.size ∧
        (x.1.typ = b!"regular" ∨ x.1.typ = b!"symlink" ∨ x.1.typ = b!"directory")) ∧ NoRepeat (l.map (·.1.path)) := by
  obtain ⟨ops, ⟨i1, i2⟩, i3, _, i4, i5⟩ := map_ops h
  have key := C22_exact w s0 hw ops (fun x hx => by
    obtain ⟨y, hy, e⟩ := List.mem_map.1 ((i4 x).1 hx)
    subst e
    exact hsz y hy) i5 i1
  rw [i2, i3] at key
  rw [key]
  refine and_congr ⟨fun h x hx => h x.1 ((i4 _).2 (List.mem_map_of_mem hx)), fun h x hx => ?_⟩ Iff.rfl
  obtain ⟨y, hy, e⟩ := List.mem_map.1 ((i4 x).1 hx)
  subst e
  exact h y hy

/-! ### a part of an archive -/

theorem absPath_under {cs ds : List Bytes} (hd : ds ≠ []) (hc : cs ≠ []) : absPath (cs ++ ds) = absPath cs ++ absPath ds := by
  rw [absPath_append cs ds hd]
  unfold absPre
  rw [if_neg hc, List.append_assoc]
  rfl

theorem extract_in {cs ds : List Bytes} (hc : cs ≠ []) (h : Header) (hp : h.path = absPath (cs ++ ds)) :
    extract (absPath cs) h = some { h with path := absPath ds } := by
  unfold extract
  rw [hp]
  by_cases hd : ds = []
  · subst hd
    rw [List.append_nil, if_pos rfl]
    rfl
  · rw [absPath_under hd hc, if_neg, if_pos, List.drop_left]
    · exact (List.prefix_append_right_inj _).2 ⟨join ds b!"/", rfl⟩
    · intro e
      have := congrArg List.length e
      rw [List.length_append] at this
      simp [absPath] at this

theorem extract_out {cs xs : List Bytes} (hcs : ∀ c ∈ cs, Good c) (hxs : ∀ c ∈ xs, Good c) (hc : cs ≠ []) (hn : ¬ cs <+: xs) (h : Header)
    (hp : h.path = absPath xs) : extract (absPath cs) h = none := by
  unfold extract
  rw [hp, if_neg, if_neg]
  · rintro ⟨s, hs⟩
    rw [List.append_assoc] at hs
    have := congrArg (splitByte · 47) hs
    simp only [show ∀ s : Bytes, b!"/" ++ s = 47 :: s from fun _ => rfl, Verif.Store.splitByte_append_sep, splitByte_absPath hcs, splitByte_absPath hxs, if_neg hc, List.cons_append,
      List.cons.injEq, true_and] at this
    split at this
    · cases cs with
      | nil => exact hc rfl
      | cons c cs =>
        simp only [List.cons_append, List.cons.injEq, List.append_eq_nil_iff] at this
        exact splitByte_ne_nil _ _ this.2.2
    · exact hn ⟨_, this⟩
  · intro e
    have := absPath_inj hxs hcs e
    subst this
    exact hn (List.prefix_refl _)

mutual
theorem taken_in {P : Bytes → Prop} {N : Tree → Prop} (hP : ∀ n, P n → Good n) (t : Tree) (ht : t.All P N) (cs ds : List Bytes) (hc : cs ≠ [])
    (hg : ∀ c ∈ cs ++ ds, Good c) : taken (extract (absPath cs)) (t.entriesAt (absPath (cs ++ ds))) = (t.entriesAt (absPath ds)).map said := by
  have one : ∀ (e : Entry) (es : List Entry), e.path = absPath (cs ++ ds) → taken (extract (absPath cs)) (e :: es) =
      said { e with path := absPath ds } :: taken (extract (absPath cs)) es := by
    intro e es he
    simp only [taken, List.filterMap_cons, extract_in hc (hdrOf e) he, Option.map_some]
    rfl
  cases t with
  | regular ex c => exact one _ [] rfl
  | symlink tg => exact one _ [] rfl
  | directory es =>
    simp only [Tree.entriesAt, List.map_cons]
    rw [one _ _ rfl, takens_in hP es ht.2.2 cs ds hc hg]
theorem takens_in {P : Bytes → Prop} {N : Tree → Prop} (hP : ∀ n, P n → Good n) (es : Entries) (ht : es.All P N) (cs ds : List Bytes) (hc : cs ≠ [])
    (hg : ∀ c ∈ cs ++ ds, Good c) : taken (extract (absPath cs)) (es.entriesAt (absPath (cs ++ ds))) = (es.entriesAt (absPath ds)).map said := by
  cases es with
  | nil => rfl
  | cons n t es =>
    have hgd : ∀ c ∈ ds, Good c := fun c hc => hg c (List.mem_append_right _ hc)
    simp only [Entries.entriesAt, ← absPath_snoc _ n hg, ← absPath_snoc _ n hgd, List.map_append]
    rw [← takens_in hP es ht.2.2 cs ds hc hg, ← taken_in hP t ht.2.1 cs (ds ++ [n]) hc (by rw [← List.append_assoc]; exact good_snoc hg (hP n ht.1)),
      ← List.append_assoc]
    simp only [taken, List.filterMap_append]
end

theorem taken_out {cs : List Bytes} (hcs : ∀ c ∈ cs, Good c) (hc : cs ≠ []) (es : List Entry)
    (h : ∀ e ∈ es, ∃ xs, e.path = absPath xs ∧ (∀ c ∈ xs, Good c) ∧ ¬ cs <+: xs) : taken (extract (absPath cs)) es = [] := by
  unfold taken
  rw [List.filterMap_eq_nil_iff]
  intro e he
  obtain ⟨xs, h1, h2, h3⟩ := h e he
  rw [extract_out hcs h2 hc h3 (hdrOf e) h1]
  rfl

theorem taken_sub {P : Bytes → Prop} {N : Tree → Prop} (hP : ∀ n, P n → Good n) (cs : List Bytes) : ∀ (t u : Tree) (ps : List Bytes),
    t.All P N → (∀ c ∈ ps ++ cs, Good c) → ps ++ cs ≠ [] → t.sub cs = some u →
    taken (extract (absPath (ps ++ cs))) (t.entriesAt (absPath ps)) = (u.entriesAt b!"/").map said := by
  induction cs with
  | nil =>
    intro t u ps ht hg hne hs
    cases hs
    have := taken_in hP t ht ps [] (by simpa using hne) hg
    rw [List.append_nil] at this ⊢
    exact this
  | cons n cs ih =>
    intro t u ps ht hg hne hs
    have hps : ∀ c ∈ ps, Good c := fun c h => hg c (List.mem_append_left _ h)
    have hn : Good n := hg n (by simp)
    cases t with
    | regular ex c => cases hs
    | symlink tg => cases hs
    | directory es =>
      simp only [Tree.sub] at hs
      have hhead : taken (extract (absPath (ps ++ n :: cs))) [⟨absPath ps, b!"directory", false, [], []⟩] = [] := by
        refine taken_out hg hne _ ?_
        intro e he
        rw [List.mem_singleton.1 he]
        refine ⟨ps, rfl, hps, fun h => ?_⟩
        have := h.length_le
        simp only [List.length_append, List.length_cons] at this
        omega
      have other : ∀ (m : Bytes) (t : Tree), m ≠ n → Good m → t.All P N →
          taken (extract (absPath (ps ++ n :: cs))) (t.entriesAt (absPath (ps ++ [m]))) = [] := by
        intro m t hm hgm htm
        refine taken_out hg hne _ ?_
        intro e he
        obtain ⟨ds, q1, q2⟩ := (tree_paths hP t htm (ps ++ [m]) (good_snoc hps hgm)).1 e he
        refine ⟨_, q1, q2, fun h => ?_⟩
        rw [List.append_assoc, List.prefix_append_right_inj] at h
        exact hm (List.cons_prefix_cons.1 h).1.symm
      have rest : ∀ fs : Entries, fs.All P N → n ∉ fs.names →
          taken (extract (absPath (ps ++ n :: cs))) (fs.entriesAt (absPath ps)) = [] := by
        intro fs
        refine Entries.rec (motive_1 := fun _ => True) (motive_2 := fun fs => fs.All P N → n ∉ fs.names →
          taken (extract (absPath (ps ++ n :: cs))) (fs.entriesAt (absPath ps)) = []) (by intros; trivial) (by intros; trivial)
          (by intros; trivial) ?_ ?_ fs
        · intros; rfl
        · intro m t fs _ ih hall hnot
          simp only [Entries.names, List.mem_cons, not_or] at hnot
          simp only [Entries.entriesAt, ← absPath_snoc ps m hps]
          have e1 := other m t (Ne.symm hnot.1) (hP _ hall.1) hall.2.1
          have e2 := ih hall.2.2 hnot.2
          unfold taken at e1 e2 ⊢
          rw [List.filterMap_append, e1, e2]
          rfl
      have main : ∀ fs : Entries, fs.All P N → fs.names.Pairwise (· < ·) → (fs.find n).bind (Tree.sub cs) = some u →
          taken (extract (absPath (ps ++ n :: cs))) (fs.entriesAt (absPath ps)) = (u.entriesAt b!"/").map said := by
        intro fs
        refine Entries.rec (motive_1 := fun _ => True) (motive_2 := fun fs => fs.All P N → fs.names.Pairwise (· < ·) →
          (fs.find n).bind (Tree.sub cs) = some u →
          taken (extract (absPath (ps ++ n :: cs))) (fs.entriesAt (absPath ps)) = (u.entriesAt b!"/").map said) (by intros; trivial)
          (by intros; trivial) (by intros; trivial) ?_ ?_ fs
        · intro _ _ h; cases h
        · intro m t fs _ ihf hall hsort hf
          simp only [Entries.names, List.pairwise_cons] at hsort
          simp only [Entries.entriesAt, ← absPath_snoc ps m hps]
          unfold Entries.find at hf
          by_cases hm : m = n
          · subst hm
            rw [if_pos rfl, Option.bind_some] at hf
            have e1 := ih t u (ps ++ [m]) hall.2.1 (by simpa using hg) (by simp) hf
            rw [List.append_assoc, List.singleton_append] at e1
            have e2 := rest fs hall.2.2 (fun h => List.lt_irrefl _ (hsort.1 m h))
            unfold taken at e1 e2 ⊢
            rw [List.filterMap_append, e1, e2, List.append_nil]
          · rw [if_neg hm] at hf
            have e1 := other m t hm (hP _ hall.1) hall.2.1
            have e2 := ihf hall.2.2 hsort.2 hf
            unfold taken at e1 e2 ⊢
            rw [List.filterMap_append, e1, e2]
            rfl
      have e2 := main es ht.2.2 ht.2.1 hs
      simp only [Tree.entriesAt]
      unfold taken at hhead e2 ⊢
      rw [show ∀ (a : Entry) l, a :: l = [a] ++ l from fun _ _ => rfl, List.filterMap_append, hhead, e2]
      rfl

/-- C169: extracting a part of an archive. What is at a path of a tree and below, copied with the path of the part taken off, is the archive of
the part: no call fails, and it is written byte for byte. -/
theorem C169_extract (t u : Tree) (hrd : t.All NameRd NodeRd) (hwr : u.All NameWr NodeWr) (cs : List Bytes) (hcs : ∀ c ∈ cs, NameOk c) (hne : cs ≠ [])
    (hs : t.sub cs = some u) (rest : Bytes) (e : Err) (w : Writer) (s0 : Sink) (hw : newWriter ⟨[], none⟩ = (.ok w, s0)) :
    ∃ r s' w', newReader ⟨t.nar ++ rest, e⟩ = (.ok r, s') ∧
      MapNar (extract (b!"/" ++ join cs b!"/")) r w ((u.entriesAt b!"/").map said) w' ∧ w'.st.sink.out = u.nar :=
  C168_map _ t u hrd hwr (taken_sub (fun n hn => nameOk_good hn.1) cs t u [] hrd (fun c hc => nameOk_good (hcs c hc)) hne hs) rest e w s0 hw

/-- The archive of this tree has a directory `d` with a file and a link, and neighbours whose paths begin alike. -/
def partTree : Tree := .directory (.cons b!"c" (.regular false b!"x") (.cons b!"d" (.directory (.cons b!"f" (.regular true b!"data")
  (.cons b!"l" (.symlink b!"f") .nil))) (.cons b!"d0" (.regular false b!"y") .nil)))

example : partTree.sub [b!"d"] = some (.directory (.cons b!"f" (.regular true b!"data") (.cons b!"l" (.symlink b!"f") .nil))) := rfl

example := C169_extract partTree _ (by simp only [partTree, Tree.All, Entries.All, NodeRd, Entries.names, NameRd]; decide)
  (by simp only [Tree.All, Entries.All, NodeWr, Entries.names, NameWr]; decide) [b!"d"] (by decide) (by decide)
  (show partTree.sub [b!"d"] = some (.directory (.cons b!"f" (.regular true b!"data") (.cons b!"l" (.symlink b!"f") .nil))) from rfl)
  b!"more" .eof freshWriter _ newWriter_fresh

/-- C168: the neighbour `c` left out, all files made executable. -/
example := C168_map (fun h => if h.path = b!"/c" then none else if h.typ = b!"regular" then some { h with executable := true } else some h) partTree
  (.directory (.cons b!"d" (.directory (.cons b!"f" (.regular true b!"data") (.cons b!"l" (.symlink b!"f") .nil)))
    (.cons b!"d0" (.regular true b!"y") .nil)))
  (by simp only [partTree, Tree.All, Entries.All, NodeRd, Entries.names, NameRd]; decide)
  (by simp only [Tree.All, Entries.All, NodeWr, Entries.names, NameWr]; decide) (by decide +kernel) b!"more" .eof freshWriter _ newWriter_fresh

end Verif.Props
