import Verif.Lemmas.NarWriterSound

namespace Verif.Nar
open Verif.GoLib Verif.Spec Verif.Wire

/-- The writer waits with the activations `stk`; once the current contents are closed the output is
`out`. -/
structure Ready (w : Writer) (stk : List Header) (out : Bytes) : Prop where
  opened : w.closed = false
  phase : w.phase = .running stk
  cur : ∃ h c o, Cur h c o w.st ∧ Complete h c ∧ out = o ++ hdrBytes h ++ c ++ pad c.length

/-- `w.run ops` succeeds everywhere and ends in `w'`. -/
def RunsTo (w : Writer) (ops : List WOp) (w' : Writer) : Prop :=
  (∀ o ∈ (w.run ops).1, o.good = true) ∧ (w.run ops).2 = w'

theorem run_append' (w : Writer) (a b : List WOp) :
    (w.run (a ++ b)).1 = (w.run a).1 ++ ((w.run a).2.run b).1 ∧
      (w.run (a ++ b)).2 = ((w.run a).2.run b).2 := by
  induction a generalizing w with
  | nil => exact ⟨rfl, rfl⟩
  | cons o a ih => simp [Writer.run, ih]

theorem RunsTo.append {w w1 w2 : Writer} {a b : List WOp} (h1 : RunsTo w a w1) (h2 : RunsTo w1 b w2) :
    RunsTo w (a ++ b) w2 := by
  obtain ⟨e1, e2⟩ := run_append' w a b
  constructor
  · intro o ho
    rw [e1, List.mem_append, h1.2] at ho
    rcases ho with ho | ho
    · exact h1.1 o ho
    · exact h2.1 o ho
  · rw [e2, h1.2, h2.2]

theorem runsTo_nil (w : Writer) : RunsTo w [] w := ⟨by simp [Writer.run], rfl⟩

theorem runsTo_cons {w w1 w2 : Writer} {o : WOp} {os : List WOp} (h : (w.op o).2 = w1)
    (hg : (w.op o).1.good = true) (h2 : RunsTo w1 os w2) : RunsTo w (o :: os) w2 := by
  constructor
  · intro x hx
    simp only [Writer.run, List.mem_cons, h] at hx
    rcases hx with rfl | hx
    · exact hg
    · exact h2.1 x hx
  · simp only [Writer.run, h]; exact h2.2

theorem descend_run (h d : Header) (cs : List Bytes) (n : Bytes) (S : List Header)
    (hb : ∀ z ∈ cs ++ [n], Good z) (hp : h.path = absPath (cs ++ [n])) (hk : KnownType h.typ)
    (hd : d.path = absPath cs) (hdt : d.typ = b!"directory") (hn : ¬ DotDot n) (h0 : (0 : UInt8) ∉ n)
    (J : List Header) : ∀ (out : Bytes) (cw : Option CW),
    (∀ j ∈ J, ∃ m x, j.path = absPath (cs ++ m :: x) ∧ (∀ z ∈ cs ++ m :: x, Good z) ∧ m < n) →
    descend h (J ++ d :: S) ⟨⟨out, none⟩, cw⟩ = (.ok (h :: d :: S),
      ⟨⟨out ++ closes J ++ entryBytes n ++ hdrBytes h, none⟩, some (cwOf h)⟩) := by
  induction J with
  | nil =>
    intro out cw _
    simp only [List.nil_append]
    unfold descend
    rw [M.bind_ok (a := some n) (s' := ⟨⟨out, none⟩, cw⟩) (by simp [ret, place_down hb hd hp hdt hn h0])]
    simp only []
    rw [M.bind_ok (entryStart_ok n _ _), M.bind_ok (emitStart_ok h hk _ _)]
    simp [closes, entryBytes]
  | cons j J ih =>
    intro out cw hJ
    obtain ⟨m, x, e, hg, hlt⟩ := hJ j (by simp)
    simp only [List.cons_append]
    unfold descend
    rw [M.bind_ok (a := none) (s' := ⟨⟨out, none⟩, cw⟩) (by
      simp [ret, place_up (c := cs) (y := []) hg hb e hp hlt])]
    simp only []
    rw [wr_bind, if_neg (by simp), wr_bind, ih _ _ (fun j' hj' => hJ j' (List.mem_cons_of_mem _ hj'))]
    simp [closes]

theorem writes_run {h : Header} {out : Bytes} (hs : toUint64 h.size < 2 ^ 63) (cks : List Bytes) :
    ∀ (c : Bytes) (w : Writer), Cur h c out w.st → w.closed = false →
      (h.typ = b!"regular" → c.length + cks.flatten.length = toUint64 h.size) →
      (h.typ ≠ b!"regular" → cks.flatten = []) →
      ∃ w', RunsTo w (cks.map .write) w' ∧ w'.phase = w.phase ∧ w'.closed = false ∧
        Cur h (c ++ cks.flatten) out w'.st := by
  induction cks with
  | nil =>
    intro c w hc hcl _ _
    exact ⟨w, runsTo_nil w, rfl, hcl, by simpa using hc⟩
  | cons p cks ih =>
    intro c w hc hcl h1 h2
    simp only [List.flatten_cons, List.length_append] at h1
    have hfit : if h.typ = b!"regular" then c.length + p.length ≤ toUint64 h.size else p = [] := by
      split
      · rename_i hr; have := h1 hr; omega
      · rename_i hr; have := h2 hr; simp at this; exact this.1
    have hlen : p.length < 2 ^ 63 := by
      split at hfit
      · omega
      · rw [hfit]; simp
    obtain ⟨w1, e, e1, e2, e3⟩ := write_cur hc p hs hlen hfit
    obtain ⟨w2, r1, r2, r3, r4⟩ := ih (c ++ p) w1 e3 (by rw [e2]; exact hcl)
      (by intro hr; have := h1 hr; rw [List.length_append]; omega)
      (by intro hr; have := h2 hr; simp at this; simpa using this.2)
    refine ⟨w2, ?_, by rw [r2, e1], r3, by simpa using r4⟩
    exact runsTo_cons (by simp [Writer.op, e]) (by simp [Writer.op, e, WOut.good]) r1

/-- leaves and empty directories -/
def IsHead (e : Entry) (t : Tree) : Prop :=
  match t with
  | .regular x c => e.kind = b!"regular" ∧ e.executable = x ∧ e.target = [] ∧ e.contents = c
  | .symlink l => e.kind = b!"symlink" ∧ e.executable = false ∧ e.target = l ∧ e.contents = []
  | .directory _ => e.kind = b!"directory" ∧ e.executable = false ∧ e.target = [] ∧ e.contents = []

/-- the part of a tree before its entries -/
def headPart : Tree → Bytes
  | .directory _ => (Tree.directory .nil).openPart
  | t => t.openPart

theorem head_facts {e : Entry} {t : Tree} (hh : IsHead e t) (hn : NodeWr t) {cs : List Bytes}
    (hp : e.path = absPath cs) (h0 : ∀ c ∈ cs, (0 : UInt8) ∉ c) :
    KnownType (hdrOf e).typ ∧ (hdrOf e).validate = .ok () ∧ toUint64 (hdrOf e).size < 2 ^ 63 ∧
    ((hdrOf e).typ = b!"regular" → e.contents.length = toUint64 (hdrOf e).size) ∧
    ((hdrOf e).typ ≠ b!"regular" → e.contents = []) ∧
    hdrBytes (hdrOf e) ++ e.contents ++ pad e.contents.length = headPart t := by
  have hval : (hdrOf e).validate = .ok () := by
    apply (Props.C34_validate_iff _).1.2
    refine ⟨⟨join cs b!"/", hp⟩, ?_, ?_, ?_, ?_, ?_⟩
    · intro c hc e0
      subst e0
      simp only [hdrOf, hp] at hc
      rcases mem_absPath hc with h | ⟨x, hx, h⟩
      · simp at h
      · exact h0 x hx h
    all_goals
      cases t <;> obtain ⟨h1, h2, h3, h4⟩ := hh <;> simp [hdrOf, h1, h2, h3, h4]
    exact hn
  have hs : toUint64 (hdrOf e).size = e.contents.length % 2 ^ 64 := by
    simp only [hdrOf, toUint64]; omega
  have hlen : e.contents.length < 2 ^ 63 := by
    cases t with
    | regular x c => rw [hh.2.2.2]; exact hn
    | symlink l => rw [hh.2.2.2]; simp
    | directory es => rw [hh.2.2.2]; simp
  have hs' : toUint64 (hdrOf e).size = e.contents.length := by
    rw [hs]; exact Nat.mod_eq_of_lt (by omega)
  refine ⟨?_, hval, by omega, fun _ => hs'.symm, ?_, ?_⟩
  · cases t <;> simp [hdrOf, KnownType, hh.1]
  · cases t <;> simp [hdrOf, hh.1, hh.2.2.2]
  · have hk : KnownType (hdrOf e).typ := by cases t <;> simp [hdrOf, KnownType, hh.1]
    rw [← leafTree_open hk (fun _ => hs'.symm) (by cases t <;> simp [hdrOf, hh.1, hh.2.2.2])]
    cases t <;> obtain ⟨h1, h2, h3, h4⟩ := hh <;> simp [leafTree, headPart, hdrOf, h1, h2, h3, h4]

theorem entry_run {e : Entry} {t : Tree} {cks : List Bytes} {w : Writer} {J : List Header} {d : Header}
    {S : List Header} {out n : Bytes} {cs : List Bytes}
    (hr : Ready w (J ++ d :: S) out) (hh : IsHead e t) (hnode : NodeWr t)
    (hb : ∀ z ∈ cs ++ [n], Good z) (h0 : ∀ c ∈ cs ++ [n], (0 : UInt8) ∉ c)
    (hp : e.path = absPath (cs ++ [n])) (hd : d.path = absPath cs) (hdt : d.typ = b!"directory")
    (hn : ¬ DotDot n) (hck : cks.flatten = e.contents)
    (hJ : ∀ j ∈ J, ∃ m x, j.path = absPath (cs ++ m :: x) ∧ (∀ z ∈ cs ++ m :: x, Good z) ∧ m < n) :
    ∃ w', RunsTo w (.header (hdrOf e) :: cks.map .write) w' ∧
      Ready w' (hdrOf e :: d :: S) (out ++ closes J ++ entryBytes n ++ headPart t) := by
  obtain ⟨f1, f2, f3, f4, f5, f6⟩ := head_facts hh hnode hp h0
  obtain ⟨h, c, o, hcur, hcomp, rfl⟩ := hr.cur
  obtain ⟨cw, hclose⟩ := contentClose_complete hcur hcomp
  have hdesc := descend_run (hdrOf e) d cs n S hb hp f1 hd hdt hn (h0 n (by simp)) J
    (o ++ hdrBytes h ++ c ++ pad c.length) cw hJ
  have hem : emitHeader (hdrOf e) w.phase w.st = (.ok (hdrOf e :: d :: S), ⟨⟨o ++ hdrBytes h ++ c ++ pad c.length ++ closes J ++ entryBytes n ++ hdrBytes (hdrOf e), none⟩, some (cwOf (hdrOf e))⟩) := by
    rw [hr.phase]
    show (contentClose >>= fun _ => descend (hdrOf e) (J ++ d :: S)) w.st = _
    rw [M.bind_ok hclose, hdesc]
  have hwh : w.writeHeader (hdrOf e) = (.ok (), ⟨⟨⟨o ++ hdrBytes h ++ c ++ pad c.length ++ closes J ++ entryBytes n ++ hdrBytes (hdrOf e), none⟩, some (cwOf (hdrOf e))⟩, .running (hdrOf e :: d :: S), false⟩) := by
    unfold Writer.writeHeader
    rw [f2]
    simp only []
    rw [if_neg (by rw [hr.opened]; simp), if_neg (by rw [hr.phase]; simp), hem, hr.opened]
  obtain ⟨w', r1, r2, r3, r4⟩ := writes_run f3 cks []
    ⟨⟨⟨o ++ hdrBytes h ++ c ++ pad c.length ++ closes J ++ entryBytes n ++ hdrBytes (hdrOf e), none⟩, some (cwOf (hdrOf e))⟩, .running (hdrOf e :: d :: S), false⟩
    (cur_start (hdrOf e) _) rfl
    (by intro hreg; rw [hck]; simpa using f4 hreg) (by rw [hck]; exact f5)
  refine ⟨w', runsTo_cons (by simp only [Writer.op, hwh]) (by simp [Writer.op, hwh, WOut.good]) r1, r3, r2,
    hdrOf e, e.contents, o ++ hdrBytes h ++ c ++ pad c.length ++ closes J ++ entryBytes n, ?_, f4, ?_⟩
  · rw [List.nil_append, hck] at r4
    exact r4
  · rw [← f6]; simp

theorem writeOps_append (a b : List (Entry × List Bytes)) : writeOps (a ++ b) = writeOps a ++ writeOps b := by
  simp [writeOps]

mutual
theorem tree_run (t : Tree) (ht : t.All NameWr NodeWr) (cs : List Bytes) (n : Bytes)
    (hb : ∀ z ∈ cs ++ [n], NameWr z) (w : Writer) (J : List Header) (d : Header) (S : List Header)
    (out : Bytes) (hr : Ready w (J ++ d :: S) out) (hd : d.path = absPath cs) (hdt : d.typ = b!"directory")
    (hJ : ∀ j ∈ J, ∃ m x, j.path = absPath (cs ++ m :: x) ∧ (∀ z ∈ cs ++ m :: x, Good z) ∧ m < n)
    (es : List (Entry × List Bytes)) (hes : es.map (·.1) = t.entriesAt (absPath (cs ++ [n])))
    (hck : ∀ e ∈ es, e.2.flatten = e.1.contents) :
    ∃ w' J' out', RunsTo w (writeOps es) w' ∧ Ready w' (J' ++ d :: S) out' ∧
      out' ++ closes J' = out ++ closes J ++ entryBytes n ++ t.node ++ str b!")" ∧
      (∀ j ∈ J', ∃ x, j.path = absPath (cs ++ n :: x) ∧ (∀ z ∈ cs ++ n :: x, Good z)) := by
  have hg : ∀ z ∈ cs ++ [n], Good z := fun z hz => (hb z hz).good
  have h0 : ∀ z ∈ cs ++ [n], (0 : UInt8) ∉ z := fun z hz => (hb z hz).1.2.2.2.2
  have hnn : ¬ DotDot n := (hb n (by simp)).2
  have leaf : ∀ e : Entry, t.entriesAt (absPath (cs ++ [n])) = [e] → e.path = absPath (cs ++ [n]) →
      IsHead e t → NodeWr t → headPart t = t.openPart →
      ∃ w' J' out', RunsTo w (writeOps es) w' ∧ Ready w' (J' ++ d :: S) out' ∧
      out' ++ closes J' = out ++ closes J ++ entryBytes n ++ t.node ++ str b!")" ∧
      (∀ j ∈ J', ∃ x, j.path = absPath (cs ++ n :: x) ∧ (∀ z ∈ cs ++ n :: x, Good z)) := by
    intro e he hep hh hnode hhp
    rw [he] at hes
    obtain ⟨⟨e', cks⟩, rfl⟩ : ∃ x, es = [x] := by
      rcases es with _ | ⟨x, _ | _⟩ <;> simp at hes
      exact ⟨x, rfl⟩
    simp only [List.map_cons, List.map_nil, List.cons.injEq, and_true] at hes
    subst hes
    obtain ⟨w', r1, r2⟩ := entry_run (cks := cks) hr hh hnode hg h0 hep hd hdt hnn (hck (e', cks) (by simp)) hJ
    refine ⟨w', [hdrOf e'], _, by simpa [writeOps] using r1, r2, ?_, ?_⟩
    · rw [hhp, Tree.node_eq]; simp [closes]
    · intro j hj
      rw [List.mem_singleton.1 hj]
      exact ⟨[], by simpa [hdrOf] using hep, by simpa using hg⟩
  match t with
  | .regular x c =>
    exact leaf _ rfl rfl ⟨rfl, rfl, rfl, rfl⟩ ht rfl
  | .symlink l =>
    exact leaf _ rfl rfl ⟨rfl, rfl, rfl, rfl⟩ ht rfl
  | .directory ents =>
    simp only [Tree.entriesAt] at hes
    obtain ⟨⟨e', cks⟩, es', rfl⟩ : ∃ x es', es = x :: es' := by
      rcases es with _ | ⟨x, es'⟩
      · simp at hes
      · exact ⟨x, es', rfl⟩
    simp only [List.map_cons, List.cons.injEq] at hes
    obtain ⟨rfl, hes⟩ := hes
    obtain ⟨w1, r1, r2⟩ := entry_run (e := ⟨absPath (cs ++ [n]), b!"directory", false, [], []⟩) (t := .directory ents) (cks := cks)
      hr ⟨rfl, rfl, rfl, rfl⟩ trivial hg h0 rfl hd hdt hnn (hck (⟨absPath (cs ++ [n]), b!"directory", false, [], []⟩, cks) (by simp)) hJ
    simp only [Tree.All] at ht
    obtain ⟨w2, J2, out2, q1, q2, q3, q4⟩ := entries_run ents ht.2.2 ht.2.1 (cs ++ [n]) hb w1 []
      (hdrOf ⟨absPath (cs ++ [n]), b!"directory", false, [], []⟩) (d :: S) _ r2 rfl rfl (by simp) es' hes
      (fun e he => hck e (List.mem_cons_of_mem _ he))
    refine ⟨w2, J2 ++ [hdrOf ⟨absPath (cs ++ [n]), b!"directory", false, [], []⟩], out2, ?_, by simpa using q2, ?_, ?_⟩
    · have := r1.append q1
      simpa [writeOps] using this
    · have : out2 ++ closes (J2 ++ [hdrOf ⟨absPath (cs ++ [n]), b!"directory", false, [], []⟩]) =
        out2 ++ closes J2 ++ (str b!")" ++ str b!")") := by simp [closes]
      rw [this, q3]
      simp [headPart, Tree.openPart, Entries.nodes, Tree.node, closes]
    · intro j hj
      rcases List.mem_append.1 hj with hj | hj
      · obtain ⟨m, x, e1, e2⟩ := q4 j hj
        exact ⟨m :: x, by simpa using e1, by simpa using e2⟩
      · rw [List.mem_singleton.1 hj]
        exact ⟨[], rfl, by simpa using hg⟩
theorem entries_run (ents : Entries) (ha : ents.All NameWr NodeWr) (hsorted : ents.names.Pairwise (· < ·))
    (cs : List Bytes) (hb : ∀ z ∈ cs, NameWr z) (w : Writer) (J : List Header) (d : Header) (S : List Header)
    (out : Bytes) (hr : Ready w (J ++ d :: S) out) (hd : d.path = absPath cs) (hdt : d.typ = b!"directory")
    (hJ : ∀ j ∈ J, ∃ m x, j.path = absPath (cs ++ m :: x) ∧ (∀ z ∈ cs ++ m :: x, Good z) ∧
      ∀ n ∈ ents.names, m < n)
    (es : List (Entry × List Bytes)) (hes : es.map (·.1) = ents.entriesAt (absPath cs))
    (hck : ∀ e ∈ es, e.2.flatten = e.1.contents) :
    ∃ w' J' out', RunsTo w (writeOps es) w' ∧ Ready w' (J' ++ d :: S) out' ∧
      out' ++ closes J' = out ++ closes J ++ ents.nodes ∧
      (∀ j ∈ J', ∃ m x, j.path = absPath (cs ++ m :: x) ∧ (∀ z ∈ cs ++ m :: x, Good z)) := by
  have hg : ∀ z ∈ cs, Good z := fun z hz => (hb z hz).good
  match ents with
  | .nil =>
    simp only [Entries.entriesAt, List.map_eq_nil_iff] at hes
    subst hes
    refine ⟨w, J, out, runsTo_nil w, hr, by simp [Entries.nodes], ?_⟩
    intro j hj
    obtain ⟨m, x, h1, h2, _⟩ := hJ j hj
    exact ⟨m, x, h1, h2⟩
  | .cons n t rest =>
    simp only [Entries.All] at ha
    simp only [Entries.names, List.pairwise_cons] at hsorted
    simp only [Entries.entriesAt, ← absPath_snoc cs n hg] at hes
    obtain ⟨es1, es2, rfl, he1, he2⟩ := List.map_eq_append_iff.1 hes
    have hbn : ∀ z ∈ cs ++ [n], NameWr z := by
      intro z hz
      rcases List.mem_append.1 hz with h | h
      · exact hb z h
      · rw [List.mem_singleton.1 h]; exact ha.1
    obtain ⟨w1, J1, out1, q1, q2, q3, q4⟩ := tree_run t ha.2.1 cs n hbn w J d S out hr hd hdt
      (by
        intro j hj
        obtain ⟨m, x, h1, h2, h3⟩ := hJ j hj
        exact ⟨m, x, h1, h2, h3 n (by simp [Entries.names])⟩) es1 he1
      (fun e he => hck e (List.mem_append_left _ he))
    obtain ⟨w2, J2, out2, p1, p2, p3, p4⟩ := entries_run rest ha.2.2 hsorted.2 cs hb w1 J1 d S out1 q2 hd hdt
      (by
        intro j hj
        obtain ⟨x, h1, h2⟩ := q4 j hj
        exact ⟨n, x, h1, h2, fun k hk => hsorted.1 k hk⟩) es2 he2
      (fun e he => hck e (List.mem_append_right _ he))
    refine ⟨w2, J2, out2, by rw [writeOps_append]; exact q1.append p1, p2, ?_, p4⟩
    rw [p3, q3]
    simp [Entries.nodes, entryBytes]
end

end Verif.Nar
