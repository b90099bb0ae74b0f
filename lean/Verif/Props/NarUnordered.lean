import Verif.Props.NarLang
import Verif.Spec.NarOrder

/-!
# C26: an archive with entries in the wrong order is refused
-/

namespace Verif.Props
open Verif Verif.Nar Verif.GoLib Verif.Spec Verif.Wire

theorem tr_split {α : Type} {Q : Step RState Header Bool α → Prop} {xs ys : List Seen}
    {st : Step RState Header Bool α} (h : Tr Q (xs ++ ys) st) : Tr (Tr Q ys) xs st := by
  induction xs generalizing st with
  | nil => exact h
  | cons e es ih =>
    obtain ⟨s, k, rfl, h1, h2, h3, h⟩ := h
    exact ⟨s, k, rfl, h1, h2, h3, fun s' hc => ih (h s' hc)⟩

/-- The path of the last header returned. -/
theorem session_last {plan : List (List Nat)} {hs : List Header} {h : Header} (r : Reader)
    (he : (r.session plan).1.map Prod.fst = (hs ++ [h]).map Call.ok) : (r.session plan).2.prev = h.path := by
  have hreads : ∀ (ks : List Nat) (r : Reader), (r.reads ks).2.prev = r.prev := by
    intro ks
    induction ks with
    | nil => intro r; rfl
    | cons k ks ih =>
      intro r
      unfold Reader.reads
      simp only [ih]
      unfold Reader.read
      split
      · rfl
      · simp only []
        split <;> rfl
  induction plan generalizing r hs with
  | nil => simp [Reader.session] at he
  | cons ks plan ih =>
    unfold Reader.session at he ⊢
    simp only [] at he ⊢
    cases hs with
    | nil =>
      simp only [List.nil_append, List.map_cons, List.map_nil, List.cons.injEq, List.map_eq_nil_iff] at he
      obtain ⟨h1, h2⟩ := he
      have hp : plan = [] := by
        have := congrArg List.length h2
        rw [session_length] at this
        simpa using this
      subst hp
      show ((r.next.2.reads ks).2).prev = h.path
      rw [hreads]
      unfold Reader.next at h1 ⊢
      split at h1
      · cases h1
      · split at h1
        · cases h1
        · rename_i hcl
          split at h1
          · cases h1
          · rename_i st _
            rw [if_neg hcl]
            unfold Reader.receive at h1 ⊢
            split at h1
            · split at h1
              · rename_i ho
                rw [if_pos ho]
                cases h1; rfl
              · cases h1
            · cases h1
            · cases h1
            · cases h1
    | cons h0 hs =>
      simp only [List.cons_append, List.map_cons, List.cons.injEq] at he
      exact ih _ he.2

/-- C26, the other direction: on a complete archive (in the relaxed format) whose entries `es1 ++ a :: b :: es2` are in order up to
and including `a`, but not `a` and `b`, the first `Next` calls return the headers up to that of `a`, with any `Read`s in between, and the
call after that, where `b` would be due, fails with the error that says so. -/
theorem C26_unordered (s s' : Stream) (r : Reader) (hnew : newReader s = (.ok r, s')) (es1 es2 : List Entry) (a b : Entry)
    (rest : Bytes) (hrel : RelNode b!"/" s'.data (es1 ++ a :: b :: es2) rest)
    (hord : InOrder ((es1 ++ [a]).map Entry.path))
    (hbad : ¬ (a.path ≤ b.path ∨ splitByte a.path 47 ≤ splitByte b.path 47))
    (plan : List (List Nat)) (hlen : plan.length = es1.length + 1) :
    (r.session plan).1.map Prod.fst = (es1 ++ [a]).map (Call.ok ∘ hdrOf) ∧
    (r.session plan).2.next.1 = .err (.msg "received header in the wrong order") := by
  obtain ⟨htok, hterm, rfl⟩ := (newReader_iff s r s').1 hnew
  have bindpure : ∀ st : Step RState Header Bool Unit,
      st.bind (fun _ s => Step.done (.ok ()) s) = st := by
    intro st
    induction st with
    | done r s => rcases r with _ | _ | _ <;> rfl
    | yield y s k ih => rw [Step.bind_yield]; congr 1; funext i s'; exact ih i s'
  have hq := compl_node (β := Unit) (Q := fun _ => True)
    hrel (s'.data.length + 1) s'.term 0 0 (by omega) [] (fun _ s => .done (.ok ()) s) (fun r l => trivial)
  rw [bindpure, List.append_nil, show es1 ++ a :: b :: es2 = (es1 ++ [a]) ++ (b :: es2) by simp, List.map_append] at hq
  have hq := tr_split hq
  have hord' : OrdFrom [] ((es1 ++ [a]).map full) := by
    rw [← inOrder_iff, List.map_map]; exact hord
  obtain ⟨h1, h2, h3, st', h4, h5⟩ := tr_session ((es1 ++ [a]).map full) plan
      ⟨⟨s', 0, 0⟩, .start, none, [], false⟩ _ rfl rfl rfl hq hord' (by simp [hlen])
  have hheads : ((⟨⟨s', 0, 0⟩, .start, none, [], false⟩ : Reader).session plan).1.map Prod.fst =
      (es1 ++ [a]).map (Call.ok ∘ hdrOf) := by
    rw [h1]
    have hl : (es1 ++ [a]).length = plan.length := by simp [hlen]
    clear h1 h2 h3 h4 h5 hq hord hord' hrel hlen
    generalize es1 ++ [a] = es at hl
    induction es generalizing plan with
    | nil => simp
    | cons e es ih =>
      cases plan with
      | nil => simp at hl
      | cons ks plan => simp only [List.map_cons, List.zipWith_cons_cons, ih plan (by simpa using hl)]; rfl
  refine ⟨hheads, ?_⟩
  have hprev := session_last (hs := es1.map hdrOf) (h := hdrOf a) _ (by
    rw [hheads]; simp)
  generalize (Reader.session _ plan).2 = q at h2 h3 h4 hprev ⊢
  obtain ⟨st, k, rfl, _⟩ := h5
  have e : q.next = q.receive (.yield (hdrSeen (full b)) st k) := by
    unfold Reader.next
    rw [h2]
    simp only []
    rw [if_neg (by simp [h3]), h4]
  rw [e]
  have ho : ¬ pathIsLexicographicallyOrdered q.prev (hdrSeen (full b)).path = true := by
    rw [hprev, ordered_iff]; exact hbad
  simp only [Reader.receive]
  rw [if_neg ho]

mutual
/-- the serialisation of a tree, entries in any order, is in the relaxed format -/
theorem relNode_tree (t : Tree) (ht : t.Each NameRd NodeRd) (cs : List Bytes) (hcs : ∀ c ∈ cs, Good c) (rest : Bytes) :
    RelNode (absPath cs) (t.node ++ rest) (t.entriesAt (absPath cs)) rest := by
  match t with
  | .regular false c =>
    simp only [Tree.node, Tree.entriesAt, List.append_assoc, Bool.false_eq_true, if_false, List.nil_append]
    exact .regular ⟨_, tok_str _ _, _, tok_str _ _, _, tok_str _ _, _, tok_str _ _, rfl⟩ rfl ht (tok_str _ _)
  | .regular true c =>
    simp only [Tree.node, Tree.entriesAt, List.append_assoc, if_true]
    exact .executable ⟨_, tok_str _ _, _, tok_str _ _, _, tok_str _ _, _, tok_str _ _, _, tok_str _ _, _, tok_str _ _, rfl⟩
      rfl ht (tok_str _ _)
  | .symlink tg =>
    simp only [Tree.node, Tree.entriesAt, List.append_assoc]
    exact .symlink ⟨_, tok_str _ _, _, tok_str _ _, _, tok_str _ _, _, tok_str _ _, _, tok_str _ _, _, tok_str _ _, rfl⟩ ht
  | .directory es =>
    simp only [Tree.node, Tree.entriesAt, List.append_assoc]
    exact .directory ⟨_, tok_str _ _, _, tok_str _ _, _, tok_str _ _, rfl⟩ (relEntries_tree es ht.2 cs hcs rest)
theorem relEntries_tree (es : Entries) (ht : es.Each NameRd NodeRd) (cs : List Bytes) (hcs : ∀ c ∈ cs, Good c) (rest : Bytes) :
    RelEntries (absPath cs) (es.nodes ++ (str b!")" ++ rest)) (es.entriesAt (absPath cs)) rest := by
  match es with
  | .nil => exact .close (tok_str _ _)
  | .cons n t es =>
    obtain ⟨hn, ht, hes⟩ := ht
    have hg := nameOk_good hn.1
    have hcs' : ∀ c ∈ cs ++ [n], Good c := by
      intro c hc
      rcases List.mem_append.1 hc with hc | hc
      · exact hcs c hc
      · rw [List.mem_singleton.1 hc]; exact hg
    simp only [Entries.nodes, Entries.entriesAt, List.append_assoc]
    refine .entry (n := n) ⟨_, tok_str _ _, _, tok_str _ _, _, tok_str _ _, _, tok_str _ _, _, tok_str _ _, rfl⟩
      hn.1.2.2.2.1 hn.1.2.2.2.2 hn.2.2 ?_ (tok_str _ _) hn.2.1 (relEntries_tree es hes cs hcs rest)
    rw [pathJoin_good hcs hg, ← absPath_snoc cs n hcs]
    exact relNode_tree t ht _ hcs' _
end

/-- Either all paths are in order, or there is a first place where they are not. -/
theorem inOrder_or (ps : List Bytes) : InOrder ps ∨ ∃ l a b l', ps = l ++ a :: b :: l' ∧ InOrder (l ++ [a]) ∧
    ¬ (a ≤ b ∨ splitByte a 47 ≤ splitByte b 47) := by
  induction ps with
  | nil => exact .inl trivial
  | cons a ps ih =>
    cases ps with
    | nil => exact .inl trivial
    | cons b ps =>
      by_cases h : a ≤ b ∨ splitByte a 47 ≤ splitByte b 47
      · rcases ih with ih | ⟨l, c, d, l', e, h1, h2⟩
        · exact .inl ⟨h, ih⟩
        · refine .inr ⟨a :: l, c, d, l', by rw [e]; rfl, ?_, h2⟩
          cases l with
          | nil =>
            simp only [List.nil_append, List.cons.injEq] at e
            obtain ⟨rfl, _⟩ := e
            exact ⟨h, trivial⟩
          | cons x l =>
            simp only [List.cons_append, List.cons.injEq] at e
            obtain ⟨rfl, _⟩ := e
            exact ⟨h, h1⟩
      · exact .inr ⟨[], a, b, ps, rfl, trivial, h⟩

/-- C26 for the serialisation of any tree, its entries in any order: if the paths of its entries are in the order that the reader asks for,
everything is returned and then `io.EOF`; if not, the headers before the first violation are returned and then the error that says so, and
`io.EOF` is never returned. `plan`: any `Read`s after each `Next`. -/
theorem C26_tree (t : Tree) (ht : t.Each NameRd NodeRd) (rest : Bytes) (e : Err) :
    ∃ r s', newReader ⟨t.nar ++ rest, e⟩ = (.ok r, s') ∧
    (InOrder ((t.entriesAt b!"/").map Entry.path) → ∀ plan, plan.length = (t.entriesAt b!"/").length →
      (r.session plan).1.map Prod.fst = (t.entriesAt b!"/").map (Call.ok ∘ hdrOf) ∧ (r.session plan).2.next.1 = .err .eof) ∧
    (¬ InOrder ((t.entriesAt b!"/").map Entry.path) → ∃ k, k < (t.entriesAt b!"/").length ∧ ∀ plan, plan.length = k →
      (r.session plan).1.map Prod.fst = ((t.entriesAt b!"/").take k).map (Call.ok ∘ hdrOf) ∧
      (r.session plan).2.next.1 = .err (.msg "received header in the wrong order")) := by
  have htok : Tok b!"nix-archive-1" (t.nar ++ rest) (t.node ++ rest) := by
    rw [Tree.nar, List.append_assoc]; exact tok_str _ _
  have hnew := (newReader_iff ⟨t.nar ++ rest, e⟩ ⟨⟨⟨t.node ++ rest, e⟩, 0, 0⟩, .start, none, [], false⟩ ⟨t.node ++ rest, e⟩).2
    ⟨htok, rfl, rfl⟩
  have hrel : RelNode b!"/" (t.node ++ rest) (t.entriesAt b!"/") rest := relNode_tree t ht [] (by simp) rest
  refine ⟨_, _, hnew, ?_, ?_⟩
  · intro ho plan hlen
    obtain ⟨h1, r', h2, _⟩ := accepts_session hnew ((t.entriesAt b!"/").map full) rest
      ⟨.inl ⟨_, hrel, rfl⟩, by rw [List.map_map]; exact ho⟩ plan (by simp [hlen])
    refine ⟨?_, by rw [h2]⟩
    rw [h1]
    clear h1 h2 hrel ho
    generalize t.entriesAt b!"/" = es at hlen
    induction es generalizing plan with
    | nil => simp
    | cons x es ih =>
      cases plan with
      | nil => simp at hlen
      | cons ks plan => simp only [List.map_cons, List.zipWith_cons_cons, ih plan (by simpa using hlen)]; rfl
  · intro ho
    rcases inOrder_or ((t.entriesAt b!"/").map Entry.path) with h | ⟨l, a, b, l', h1, h2, h3⟩
    · exact absurd h ho
    · obtain ⟨es1, rs, e1, e2, e3⟩ := List.map_eq_append_iff.1 h1
      obtain ⟨x, rs', rfl, rfl, e4⟩ := List.map_eq_cons_iff.1 e3
      obtain ⟨y, es2, rfl, rfl, rfl⟩ := List.map_eq_cons_iff.1 e4
      refine ⟨es1.length + 1, by rw [e1]; simp, ?_⟩
      intro plan hlen
      rw [e1] at hrel ⊢
      have := C26_unordered _ _ _ hnew es1 es2 x y rest hrel (by rw [List.map_append, e2]; exact h2) h3 plan hlen
      refine ⟨?_, this.2⟩
      rw [this.1, show es1 ++ x :: y :: es2 = (es1 ++ [x]) ++ (y :: es2) by simp, List.take_left' (by simp)]

theorem entriesAt_head (t : Tree) (p : Bytes) : ∃ e es, t.entriesAt p = e :: es ∧ e.path = p := by
  cases t <;> exact ⟨_, _, rfl, rfl⟩

theorem mem_names (es : Entries) (p m : Bytes) (h : m ∈ es.names) : ∃ e ∈ es.entriesAt p, e.path = childPath p m := by
  match es with
  | .nil => cases h
  | .cons n t es =>
    rcases List.mem_cons.1 h with rfl | h
    · obtain ⟨e, es', h1, h2⟩ := entriesAt_head t (childPath p m)
      exact ⟨e, by simp [Entries.entriesAt, h1], h2⟩
    · obtain ⟨e, h1, h2⟩ := mem_names es p m h
      exact ⟨e, by simp [Entries.entriesAt, h1], h2⟩

theorem names_each {P : Bytes → Prop} {Q : Tree → Prop} {es : Entries} (h : es.Each P Q) : ∀ n ∈ es.names, P n := by
  match es with
  | .nil => simp [Entries.names]
  | .cons n t es =>
    intro m hm
    rcases List.mem_cons.1 hm with rfl | hm
    · exact h.1
    · exact names_each h.2.2 m hm

/-- entries of the same directory are in order -/
def Siblings (a b : Entry) : Prop := ∀ d n m : Bytes, n ≠ [] → m ≠ [] → (47 : UInt8) ∉ n → (47 : UInt8) ∉ m →
  a.path = childPath d n → b.path = childPath d m → n ≤ m

mutual
theorem sorted_tree (t : Tree) (ht : t.Each NameRd NodeRd) (p : Bytes) (h : (t.entriesAt p).Pairwise Siblings) : t.Sorted := by
  match t with
  | .regular _ _ => trivial
  | .symlink _ => trivial
  | .directory es => exact sorted_entries es ht.2 p (List.pairwise_cons.1 h).2
theorem sorted_entries (es : Entries) (ht : es.Each NameRd NodeRd) (p : Bytes) (h : (es.entriesAt p).Pairwise Siblings) :
    es.names.Pairwise (· ≤ ·) ∧ es.Sorted := by
  match es with
  | .nil => exact ⟨List.Pairwise.nil, trivial⟩
  | .cons n t es =>
    obtain ⟨h1, h2, h3⟩ := List.pairwise_append.1 h
    obtain ⟨i1, i2⟩ := sorted_entries es ht.2.2 p h2
    refine ⟨List.pairwise_cons.2 ⟨?_, i1⟩, sorted_tree t ht.2.1 _ h1, i2⟩
    intro m hm
    obtain ⟨e, es', e1, e2⟩ := entriesAt_head t (childPath p n)
    obtain ⟨e', m1, m2⟩ := mem_names es p m hm
    have hn := ht.1.1
    have hm' := (names_each ht.2.2 m hm).1
    exact h3 e (by rw [e1]; simp) e' m1 p n m hn.1 hm'.1 hn.2.2.2.1 hm'.2.2.2.1 e2 m2
end

theorem run_nexts (r : Reader) (n : Nat) (hs : List Header)
    (h : (r.session (List.replicate n [])).1.map Prod.fst = hs.map Call.ok) :
    hdrsOf (r.run (List.replicate n .next)).1 = hs := by
  induction n generalizing r hs with
  | zero =>
    cases hs with
    | nil => rfl
    | cons _ _ => simp [Reader.session] at h
  | succ n ih =>
    cases hs with
    | nil => simp [Reader.session, List.replicate_succ] at h
    | cons x hs =>
      simp only [List.replicate_succ, Reader.session, Reader.reads, List.map_cons, List.cons.injEq] at h
      simp only [List.replicate_succ, Reader.run, Reader.op]
      have := ih _ _ h.2
      rw [h.1]
      simp only [hdrsOf, List.filterMap_cons] at this ⊢
      rw [this]

/-- C26: trees with a directory whose names are not in non-decreasing order are not in order, so they are refused (`C26_tree`). -/
theorem C26_unsorted (t : Tree) (ht : t.Each NameRd NodeRd) (hs : ¬ t.Sorted) :
    ¬ InOrder ((t.entriesAt b!"/").map Entry.path) := by
  intro ho
  apply hs
  obtain ⟨r, s', hnew, h, _⟩ := C26_tree t ht [] .eof
  have h1 := (h ho (List.replicate (t.entriesAt b!"/").length []) (by simp)).1
  have h2 := run_nexts r _ ((t.entriesAt b!"/").map hdrOf) (by rw [h1, List.map_map])
  have h3 := C26_order _ _ r hnew (List.replicate (t.entriesAt b!"/").length .next)
  rw [h2, List.pairwise_map] at h3
  exact sorted_tree t ht b!"/" (h3.imp fun h => h.2.2)

/-- The hypotheses are met: a directory with the entries `b`, `a`. -/
example : (Tree.directory (.cons b!"b" (.symlink b!"x") (.cons b!"a" (.symlink b!"y") .nil))).Each NameRd NodeRd ∧
    ¬ (Tree.directory (.cons b!"b" (.symlink b!"x") (.cons b!"a" (.symlink b!"y") .nil))).Sorted := by
  simp only [Tree.Each, Entries.Each, Tree.Sorted, Entries.Sorted, Entries.names, NameRd, NodeRd, NameOk]
  decide

end Verif.Props
