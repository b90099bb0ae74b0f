import Verif.Spec.NarParenPaths
import Verif.Props.NarParen
import Verif.Props.NarWriter
import Verif.Props.DrvPathsFiles

/-!
# C23, C24: entries called `)`, in terms of the list of paths

`NothingAfterParen` says of a list of paths: what comes after an entry called `)` is inside it.
-/

namespace Verif.Props
open Verif Verif.Nar Verif.GoLib Verif.Spec Verif.Wire

/-- the same in terms of path components -/
def PairOk (a b : List Bytes) : Prop := a.getLast? = some b!")" → ∃ x l, b = a ++ x :: l

theorem absPath_extend {a : List Bytes} (ha : a ≠ []) (x : Bytes) (l : List Bytes) :
    absPath (a ++ x :: l) = absPath a ++ b!"/" ++ join (x :: l) b!"/" := by
  unfold absPath
  rw [join_append ha (by simp)]
  simp

theorem paren_suffix {a : List Bytes} (ha : ∀ x ∈ a, Good x) :
    b!"/)" <:+ absPath a ↔ a.getLast? = some b!")" := by
  rcases List.eq_nil_or_concat a with rfl | ⟨l, x, rfl⟩
  · simp [absPath, join]
    decide
  · rw [List.concat_eq_append] at ha ⊢
    rw [List.getLast?_append]
    have hx : (47 : UInt8) ∉ x := (ha x (by simp)).2.2.2
    have hl : ∀ x ∈ l, Good x := fun y hy => ha y (by simp [hy])
    have e : ∃ pre, absPath (l ++ [x]) = pre ++ 47 :: x := by
      rw [absPath_snoc l x hl]
      unfold childPath
      split
      · exact ⟨[], rfl⟩
      · exact ⟨absPath l, by simp⟩
    obtain ⟨pre, e⟩ := e
    rw [e]
    constructor
    · rintro ⟨z, hz⟩
      have hz' : z ++ 47 :: b!")" = pre ++ 47 :: x := hz
      have := (cut_at_last (by decide) hx hz').2
      simp [← this]
    · intro h
      simp at h
      subst h
      exact ⟨pre, rfl⟩

theorem inside_iff {a b : List Bytes} (ha : ∀ x ∈ a, Good x) (hb : ∀ x ∈ b, Good x) (hne : a ≠ []) :
    absPath a ++ b!"/" <+: absPath b ↔ ∃ x l, b = a ++ x :: l := by
  constructor
  · rintro ⟨z, hz⟩
    have hb0 : b ≠ [] := by
      rintro rfl
      have := congrArg List.length hz
      simp [absPath, join] at this
    have sa := splitByte_absPath ha
    have sb := splitByte_absPath hb
    rw [if_neg hne] at sa
    rw [if_neg hb0] at sb
    have e : absPath b = join (splitByte (absPath a) 47 ++ splitByte z 47) [47] := by
      rw [join_append (splitByte_ne_nil _ _) (splitByte_ne_nil _ _), join_splitByte, join_splitByte, ← hz]
    have := congrArg (fun x => splitByte x 47) e
    rw [splitByte_join, sb, sa] at this
    · obtain ⟨x, l, hxl⟩ := List.exists_cons_of_ne_nil (splitByte_ne_nil z 47)
      rw [hxl] at this
      exact ⟨x, l, by simpa using this⟩
    · simp [splitByte_ne_nil]
    · intro x hx
      rcases List.mem_append.1 hx with hx | hx <;> exact splitByte_no_sep _ _ x hx
  · rintro ⟨x, l, rfl⟩
    rw [absPath_extend hne]
    exact List.prefix_append _ _

theorem pairOk_iff {a b : List Bytes} (ha : ∀ x ∈ a, Good x) (hb : ∀ x ∈ b, Good x) :
    (b!"/)" <:+ absPath a → absPath a ++ b!"/" <+: absPath b) ↔ PairOk a b := by
  rw [paren_suffix ha]
  unfold PairOk
  by_cases hne : a = []
  · subst hne; simp
  · rw [inside_iff ha hb hne]

/-- the components of the paths -/
def comps (es : List Entry) : List (List Bytes) := es.map fun e => cleanComps e.path

mutual
theorem noParen_iff {P : Bytes → Prop} {N : Tree → Prop} (hP : ∀ n, P n → Good n) (t : Tree)
    (ht : t.All P N) (cs : List Bytes) (hcs : ∀ c ∈ cs, Good c) :
    t.NoParen ↔ ∀ e ∈ (t.entriesAt (absPath cs)).tail, (cleanComps e.path).getLast? ≠ some b!")" := by
  cases t with
  | regular => simp [Tree.NoParen, Tree.entriesAt]
  | symlink => simp [Tree.NoParen, Tree.entriesAt]
  | directory es =>
    simp only [Tree.NoParen, Tree.entriesAt, List.tail_cons]
    exact noParenE_iff hP es ht.2.2 ht.2.1 cs hcs
theorem noParenE_iff {P : Bytes → Prop} {N : Tree → Prop} (hP : ∀ n, P n → Good n) (es : Entries)
    (ht : es.All P N) (hs : es.names.Pairwise (· < ·)) (cs : List Bytes) (hcs : ∀ c ∈ cs, Good c) :
    es.NoParen ↔ ∀ e ∈ es.entriesAt (absPath cs), (cleanComps e.path).getLast? ≠ some b!")" := by
  cases es with
  | nil => simp [Entries.NoParen, Entries.entriesAt]
  | cons n t es =>
    have hg := hP n ht.1
    have hgs := good_snoc hcs hg
    simp only [Entries.names, List.pairwise_cons] at hs
    simp only [Entries.NoParen, Entries.entriesAt, ← absPath_snoc cs n hcs]
    rw [noParen_iff hP t ht.2.1 (cs ++ [n]) hgs, noParenE_iff hP es ht.2.2 hs.2 cs hcs]
    have hhead : ∃ e l, t.entriesAt (absPath (cs ++ [n])) = e :: l ∧ e.path = absPath (cs ++ [n]) := by
      cases t <;> exact ⟨_, _, rfl, rfl⟩
    obtain ⟨e, l, h1, h2⟩ := hhead
    rw [h1, List.tail_cons]
    have h3 : (cleanComps e.path).getLast? = some n := by
      rw [h2, cleanComps_absPath hgs]; simp
    constructor
    · rintro ⟨g1, g2, g3⟩ x hx
      rcases List.mem_append.1 hx with hx | hx
      · rcases List.mem_cons.1 hx with rfl | hx
        · rw [h3]; exact fun h => g1 (by simpa using h)
        · exact g2 x hx
      · exact g3 x hx
    · intro h
      refine ⟨?_, fun x hx => h x (by simp [hx]), fun x hx => h x (by simp [hx])⟩
      intro hn
      exact h e (by simp) (by rw [h3, hn])
end

mutual
theorem parenLast_iff {P : Bytes → Prop} {N : Tree → Prop} (hP : ∀ n, P n → Good n) (t : Tree)
    (ht : t.All P N) (cs : List Bytes) (hcs : ∀ c ∈ cs, Good c) :
    t.ParenLast ↔ (comps (t.entriesAt (absPath cs))).Pairwise PairOk := by
  cases t with
  | regular => simp [Tree.ParenLast, Tree.entriesAt, comps]
  | symlink => simp [Tree.ParenLast, Tree.entriesAt, comps]
  | directory es =>
    simp only [Tree.ParenLast, Tree.entriesAt, comps, List.map_cons, List.pairwise_cons]
    rw [parenLastE_iff hP es ht.2.2 ht.2.1 cs hcs]
    refine ⟨fun h => ⟨?_, h⟩, And.right⟩
    intro b hb _
    obtain ⟨e, he, rfl⟩ := List.mem_map.1 hb
    obtain ⟨n, ds, _, hp, hg⟩ := (entries_paths hP es ht.2.2 ht.2.1 cs hcs).1 e he
    rw [hp, cleanComps_absPath hg, cleanComps_absPath hcs]
    exact ⟨n, ds, rfl⟩
theorem parenLastE_iff {P : Bytes → Prop} {N : Tree → Prop} (hP : ∀ n, P n → Good n) (es : Entries)
    (ht : es.All P N) (hs : es.names.Pairwise (· < ·)) (cs : List Bytes) (hcs : ∀ c ∈ cs, Good c) :
    es.ParenLast ↔ (comps (es.entriesAt (absPath cs))).Pairwise PairOk := by
  cases es with
  | nil => simp [Entries.ParenLast, Entries.entriesAt, comps]
  | cons n t es =>
    have hg := hP n ht.1
    have hgs := good_snoc hcs hg
    simp only [Entries.names, List.pairwise_cons] at hs
    simp only [Entries.ParenLast, Entries.entriesAt, ← absPath_snoc cs n hcs]
    have i1 := parenLast_iff hP t ht.2.1 (cs ++ [n]) hgs
    have i2 := parenLastE_iff hP es ht.2.2 hs.2 cs hcs
    have i3 := noParen_iff hP t ht.2.1 (cs ++ [n]) hgs
    have p1 := (tree_paths hP t ht.2.1 (cs ++ [n]) hgs).1
    have p2 := (entries_paths hP es ht.2.2 hs.2 cs hcs).1
    have hhead : ∃ e l, t.entriesAt (absPath (cs ++ [n])) = e :: l ∧ e.path = absPath (cs ++ [n]) := by
      cases t <;> exact ⟨_, _, rfl, rfl⟩
    obtain ⟨e, l, h1, h2⟩ := hhead
    have h3 : (cleanComps e.path).getLast? = some n := by
      rw [h2, cleanComps_absPath hgs]; simp
    have cross : ∀ a ∈ t.entriesAt (absPath (cs ++ [n])), ∀ b ∈ es.entriesAt (absPath cs),
        (PairOk (cleanComps a.path) (cleanComps b.path) ↔ (cleanComps a.path).getLast? ≠ some b!")") := by
      intro a ha b hb
      refine ⟨?_, fun h h' => absurd h' h⟩
      intro hpo hlast
      obtain ⟨x, l, hxl⟩ := hpo hlast
      obtain ⟨ds, q1, q2⟩ := p1 a ha
      obtain ⟨m, ds', q3, q4, q5⟩ := p2 b hb
      rw [q1, q4, cleanComps_absPath q2, cleanComps_absPath q5] at hxl
      simp only [List.append_assoc, List.cons_append, List.nil_append] at hxl
      have := List.append_cancel_left hxl
      simp only [List.cons.injEq] at this
      have hlt := hs.1 m q3
      rw [this.1] at hlt
      exact List.lt_irrefl _ hlt
    simp only [comps, List.map_append, List.pairwise_append]
    have i1' : t.ParenLast ↔ List.Pairwise PairOk (List.map (fun e => cleanComps e.path) (t.entriesAt (absPath (cs ++ [n])))) := i1
    have i2' : es.ParenLast ↔ List.Pairwise PairOk (List.map (fun e => cleanComps e.path) (es.entriesAt (absPath cs))) := i2
    rw [← i1', ← i2']
    constructor
    · rintro (⟨rfl, h⟩ | ⟨g1, g2, g3⟩)
      · exact ⟨h, trivial, by simp [Entries.entriesAt]⟩
      · refine ⟨noParen_last t g2, g3, ?_⟩
        intro a' ha' b' hb'
        obtain ⟨a, ha, rfl⟩ := List.mem_map.1 ha'
        obtain ⟨b, hb, rfl⟩ := List.mem_map.1 hb'
        clear ha' hb'
        rw [cross a ha b hb]
        rw [h1] at ha
        rcases List.mem_cons.1 ha with rfl | ha
        · rw [h3]; exact fun h => g1 (by simpa using h)
        · exact i3.1 g2 a (by rw [h1]; exact ha)
    · rintro ⟨g1, g2, g3⟩
      cases es with
      | nil => exact .inl ⟨rfl, g1⟩
      | cons m t' es' =>
        right
        have hb : ∃ b, b ∈ (Entries.cons m t' es').entriesAt (absPath cs) := by
          cases t' <;> exact ⟨_, List.mem_cons_self⟩
        obtain ⟨b, hb⟩ := hb
        have hno : ∀ a ∈ t.entriesAt (absPath (cs ++ [n])), (cleanComps a.path).getLast? ≠ some b!")" := by
          intro a ha
          exact (cross a ha b hb).1 (g3 _ (List.mem_map_of_mem ha) _ (List.mem_map_of_mem hb))
        refine ⟨?_, ?_, g2⟩
        · intro hn
          exact hno e (by rw [h1]; simp) (by rw [h3, hn])
        · rw [i3]
          intro a ha
          exact hno a (List.mem_of_mem_tail ha)
end

/-- The two ways to put the condition of `C23_exact` agree. -/
theorem C23_condition (t : Tree) (ht : t.All NameFits NodeFits) :
    t.ParenLast ↔ NothingAfterParen ((t.entriesAt b!"/").map Entry.path) := by
  have hP : ∀ n, NameFits n → Good n := fun n hn => nameOk_good hn.1
  rw [parenLast_iff hP t ht [] (by simp)]
  have hp := (tree_paths hP t ht [] (by simp)).1
  unfold comps NothingAfterParen
  rw [List.pairwise_map, List.pairwise_map]
  have key : ∀ a b : Entry, a ∈ t.entriesAt b!"/" → b ∈ t.entriesAt b!"/" →
      (PairOk (cleanComps a.path) (cleanComps b.path) ↔ (b!"/)" <:+ a.path → a.path ++ b!"/" <+: b.path)) := by
    intro a b ha hb
    obtain ⟨ds, e1, g1⟩ := hp a ha
    obtain ⟨ds', e2, g2⟩ := hp b hb
    rw [e1, e2, cleanComps_absPath g1, cleanComps_absPath g2]
    exact (pairOk_iff g1 g2).symm
  exact ⟨fun h => h.imp_of_mem (fun ha hb hab => (key _ _ ha hb).1 hab),
    fun h => h.imp_of_mem (fun ha hb hab => (key _ _ ha hb).2 hab)⟩

/-- the limits of the reader, in terms of the entries -/
theorem tree_short {P : Bytes → Prop} {N : Tree → Prop} (hP : ∀ n, P n → NameOk n)
    (hN : ∀ ex c, N (.regular ex c) → c.length < 2 ^ 63) (t : Tree) (ht : t.All P N) :
    t.All NameShort NodeRd ↔ ∀ e ∈ t.entriesAt b!"/", e.target.length ≤ 4095 ∧
      ∀ c ∈ splitByte e.path 47, c.length ≤ 255 := by
  have hG : ∀ n, P n → Good n := fun n hn => nameOk_good (hP n hn)
  have split : ∀ cs : List Bytes, (∀ c ∈ cs, Good c) →
      ((∀ c ∈ splitByte (absPath cs) 47, c.length ≤ 255) ↔ ∀ c ∈ cs, c.length ≤ 255) := by
    intro cs hcs
    rw [splitByte_absPath hcs]
    split
    · rename_i h; subst h; simp
    · simp
  have go : ∀ t : Tree, t.All P N → ∀ cs : List Bytes, (∀ c ∈ cs, Good c ∧ c.length ≤ 255) →
      (t.All NameShort NodeRd ↔ ∀ e ∈ t.entriesAt (absPath cs), e.target.length ≤ 4095 ∧
        ∀ c ∈ splitByte e.path 47, c.length ≤ 255) := by
    intro t
    refine Tree.rec (motive_1 := fun t => t.All P N → ∀ cs : List Bytes, (∀ c ∈ cs, Good c ∧ c.length ≤ 255) →
        (t.All NameShort NodeRd ↔ ∀ e ∈ t.entriesAt (absPath cs), e.target.length ≤ 4095 ∧
          ∀ c ∈ splitByte e.path 47, c.length ≤ 255))
      (motive_2 := fun es => es.All P N → ∀ cs : List Bytes, (∀ c ∈ cs, Good c ∧ c.length ≤ 255) →
        (es.All NameShort NodeRd ↔ ∀ e ∈ es.entriesAt (absPath cs), e.target.length ≤ 4095 ∧
          ∀ c ∈ splitByte e.path 47, c.length ≤ 255)) ?_ ?_ ?_ ?_ ?_ t
    · intro ex c ht cs hcs
      simp only [Tree.All, Tree.entriesAt, List.mem_singleton, forall_eq]
      refine ⟨fun _ => ⟨by simp, ?_⟩, fun _ => hN ex c ht⟩
      exact (split cs fun c hc => (hcs c hc).1).2 fun c hc => (hcs c hc).2
    · intro tg ht cs hcs
      simp only [Tree.All, Tree.entriesAt, List.mem_singleton, forall_eq]
      refine ⟨fun h => ⟨h, ?_⟩, fun h => h.1⟩
      exact (split cs fun c hc => (hcs c hc).1).2 fun c hc => (hcs c hc).2
    · intro es ih ht cs hcs
      simp only [Tree.All, Tree.entriesAt, List.mem_cons, forall_eq_or_imp]
      rw [← ih ht.2.2 cs hcs]
      refine ⟨fun h => ⟨⟨by simp, ?_⟩, h.2.2⟩, fun h => ⟨trivial, ht.2.1, h.2⟩⟩
      exact (split cs fun c hc => (hcs c hc).1).2 fun c hc => (hcs c hc).2
    · intro _ cs _
      simp [Entries.All, Entries.entriesAt]
    · intro n t es iht ihe ht cs hcs
      have hg := hG n ht.1
      simp only [Entries.All, Entries.entriesAt, ← absPath_snoc cs n fun c hc => (hcs c hc).1]
      constructor
      · rintro ⟨h1, h2, h3⟩ e he
        rcases List.mem_append.1 he with he | he
        · refine (iht ht.2.1 (cs ++ [n]) ?_).1 h2 e he
          intro c hc
          rcases List.mem_append.1 hc with hc | hc
          · exact hcs c hc
          · rw [List.mem_singleton.1 hc]; exact ⟨hg, h1.2⟩
        · exact (ihe ht.2.2 cs hcs).1 h3 e he
      · intro h
        have hlen : n.length ≤ 255 := by
          have hm : ∃ e ∈ t.entriesAt (absPath (cs ++ [n])), e.path = absPath (cs ++ [n]) := by
            cases t <;> exact ⟨_, List.mem_cons_self, rfl⟩
          obtain ⟨e, he, hp⟩ := hm
          have := (h e (by simp [he])).2
          rw [hp, split _ (good_snoc (fun c hc => (hcs c hc).1) hg)] at this
          exact this n (by simp)
        refine ⟨⟨hP n ht.1, hlen⟩, ?_, ?_⟩
        · refine (iht ht.2.1 (cs ++ [n]) ?_).2 fun e he => h e (by simp [he])
          intro c hc
          rcases List.mem_append.1 hc with hc | hc
          · exact hcs c hc
          · rw [List.mem_singleton.1 hc]; exact ⟨hg, hlen⟩
        · exact (ihe ht.2.2 cs hcs).2 fun e he => h e (by simp [he])
  exact go t ht [] (by simp)

/-- a string of an entry is not longer than the path or the target of its header -/
theorem tree_sized {P : Bytes → Prop} {N : Tree → Prop} (hP : ∀ n, P n → NameOk n)
    (hN : ∀ ex c, N (.regular ex c) → c.length < 2 ^ 63) (t : Tree) (ht : t.All P N)
    (h : ∀ e ∈ t.entriesAt b!"/", e.target.length < 2 ^ 63 ∧ e.path.length < 2 ^ 63) :
    t.All NameFits NodeFits := by
  have hG : ∀ n, P n → Good n := fun n hn => nameOk_good (hP n hn)
  have go : ∀ t : Tree, t.All P N → ∀ cs : List Bytes, (∀ c ∈ cs, Good c) →
      (∀ e ∈ t.entriesAt (absPath cs), e.target.length < 2 ^ 63 ∧ e.path.length < 2 ^ 63) →
      t.All NameFits NodeFits := by
    intro t
    refine Tree.rec (motive_1 := fun t => t.All P N → ∀ cs : List Bytes, (∀ c ∈ cs, Good c) →
      (∀ e ∈ t.entriesAt (absPath cs), e.target.length < 2 ^ 63 ∧ e.path.length < 2 ^ 63) →
      t.All NameFits NodeFits)
      (motive_2 := fun es => es.All P N → ∀ cs : List Bytes, (∀ c ∈ cs, Good c) →
      (∀ e ∈ es.entriesAt (absPath cs), e.target.length < 2 ^ 63 ∧ e.path.length < 2 ^ 63) →
      es.All NameFits NodeFits) ?_ ?_ ?_ ?_ ?_ t
    · intro ex c ht cs hcs h
      have : c.length < 2 ^ 63 := hN ex c ht
      show c.length < 2 ^ 64
      omega
    · intro tg ht cs hcs h
      have := (h _ List.mem_cons_self).1
      show tg.length < 2 ^ 64
      simp only at this
      omega
    · intro es ih ht cs hcs h
      exact ⟨trivial, ht.2.1, ih ht.2.2 cs hcs fun e he => h e (by simp [Tree.entriesAt, he])⟩
    · intros; trivial
    · intro n t es iht ihe ht cs hcs h
      have hg := hG n ht.1
      simp only [Entries.entriesAt, ← absPath_snoc cs n hcs] at h
      refine ⟨⟨hP n ht.1, ?_⟩, iht ht.2.1 (cs ++ [n]) (good_snoc hcs hg) fun e he => h e (by simp [he]),
        ihe ht.2.2 cs hcs fun e he => h e (by simp [he])⟩
      have hm : ∃ e ∈ t.entriesAt (absPath (cs ++ [n])), e.path = absPath (cs ++ [n]) := by
        cases t <;> exact ⟨_, List.mem_cons_self, rfl⟩
      obtain ⟨e, he, hp⟩ := hm
      have := (h e (by simp [he])).2
      rw [hp, absPath_snoc cs n hcs] at this
      unfold childPath at this
      split at this <;> simp at this <;> omega
  exact go t ht [] (by simp) h

/-- C24: exactly when a reader inverts a writer. Whatever headers and data a writer session accepted, with
clean paths, known types and no path twice in a row (the conditions of C22): a reader on its output
returns exactly these headers and then `io.EOF`, if and only if no component of a path has more than 255
bytes, no target more than 4095, and whatever was written after an entry called `)` is inside it. In that
case the `Read` calls return exactly the data written for each header. -/
theorem C24_exact (w : Writer) (s : Sink) (hnew : newWriter ⟨[], none⟩ = (.ok w, s))
    (ops : List WOp) (hh : ∀ h, .header h ∈ ops → HeaderWr h)
    (hsz : ∀ x ∈ written ops, x.1.linkTarget.length < 2 ^ 63 ∧ x.1.path.length < 2 ^ 63)
    (hw : ∀ p, .write p ∈ ops → p.length < 2 ^ 63)
    (hd : NoRepeat ((written ops).map (·.1.path)))
    (hg : ∀ o ∈ (w.run (ops ++ [.close])).1, o.good = true)
    (plan : List (List Nat)) (hplan : plan.length = (written ops).length) :
    ((∃ r s' r', newReader ⟨(w.run (ops ++ [.close])).2.st.sink.out, .eof⟩ = (.ok r, s') ∧
      (r.session plan).1.map Prod.fst = (written ops).map (fun x => Call.ok x.1) ∧
      (r.session plan).2.next = (.err .eof, r')) ↔
    (∀ x ∈ written ops, x.1.linkTarget.length ≤ 4095 ∧ ∀ c ∈ splitByte x.1.path 47, c.length ≤ 255) ∧
      NothingAfterParen ((written ops).map (·.1.path))) ∧
    ∀ r s' r', newReader ⟨(w.run (ops ++ [.close])).2.st.sink.out, .eof⟩ = (.ok r, s') →
      (r.session plan).1.map Prod.fst = (written ops).map (fun x => Call.ok x.1) →
      (r.session plan).2.next = (.err .eof, r') →
      (r.session plan).1 = List.zipWith (fun x ks => (.ok x.1, readResults x.2 ks)) (written ops) plan := by
  obtain ⟨t, t1, t2, t3⟩ := C22_valid_nar_partial w s hnew ops hh hw hd hg
  have hok : ∀ n, NameWr n → NameOk n := fun n hn => hn.1
  have hreg : ∀ ex c, NodeWr (.regular ex c) → c.length < 2 ^ 63 := fun ex c h => h
  have hfits : t.All NameFits NodeFits := tree_sized hok hreg t t1 (by
    intro e he
    exact hsz (said e) (by rw [← t3]; exact List.mem_map_of_mem he))
  have hheads : (written ops).map (fun x => Call.ok x.1) = (t.entriesAt b!"/").map (Call.ok ∘ hdrOf) := by
    rw [← t3, List.map_map]; rfl
  have hpaths : (written ops).map (·.1.path) = (t.entriesAt b!"/").map Entry.path := by
    rw [← t3, List.map_map]; rfl
  have hlen : plan.length = (t.entriesAt b!"/").length := by rw [hplan, ← t3]; simp
  have hlim : (∀ x ∈ written ops, x.1.linkTarget.length ≤ 4095 ∧ ∀ c ∈ splitByte x.1.path 47, c.length ≤ 255) ↔
      t.All NameShort NodeRd := by
    rw [tree_short hok hreg t t1, ← t3]
    simp only [List.forall_mem_map]
    rfl
  have hex := C23_exact t hfits [] .eof plan hlen
  rw [List.append_nil] at hex
  rw [t2, hheads, hlim, hpaths, ← C23_condition t hfits]
  refine ⟨hex, ?_⟩
  intro r s' r' h1 h2 h3
  obtain ⟨h4, h5⟩ := hex.1 ⟨r, s', r', h1, h2, h3⟩
  obtain ⟨q, s2, q1, q2, _⟩ := C23_read_last t h4 h5 [] .eof plan hlen
  rw [List.append_nil, h1] at q1
  cases q1
  rw [q2, ← t3, List.zipWith_map_left]
  rfl

/-- Writing an entry called `)` and nothing after it. -/
def parenOps : List WOp :=
  [.header ⟨b!"/", b!"directory", [], 0, false⟩, .header ⟨b!"/(", b!"regular", [], 2, false⟩,
    .write b!"hi", .header ⟨b!"/)", b!"directory", [], 0, false⟩, .header ⟨b!"/)/)", b!"symlink", b!"x", 0, false⟩]

example : (∀ o ∈ (freshWriter.run (parenOps ++ [.close])).1, o.good = true) ∧
    NoRepeat ((written parenOps).map (·.1.path)) ∧
    NothingAfterParen ((written parenOps).map (·.1.path)) ∧
    ¬ NothingAfterParen [b!"/", b!"/)", b!"/a"] := by
  refine ⟨by decide +kernel, by decide +kernel, ?_, ?_⟩
  · unfold NothingAfterParen; decide +kernel
  · unfold NothingAfterParen; decide +kernel

end Verif.Props
