import Verif.Spec.NarParen
import Verif.Props.NarLang

/-! # Reading a canonical archive with the relaxed grammar -/

namespace Verif.Nar
open Verif.GoLib Verif.Spec Verif.Wire Verif.Props

theorem putUint64_inj {a b : Nat} (ha : a < 2 ^ 64) (hb : b < 2 ^ 64) (h : putUint64 a = putUint64 b) :
    a = b := by
  rw [← getUint64_put a ha, ← getUint64_put b hb, h]

theorem tok_canon {t u d d' : Bytes} (ht : t.length < 2 ^ 64) (hu : u.length < 2 ^ 64)
    (h : Tok t (str u ++ d) d') : t = u ∧ d' = d := by
  obtain ⟨len, p, e, hl, hp⟩ := h
  rw [str_eq, packet, hl, le8_eq] at e
  simp only [List.append_assoc] at e
  obtain ⟨e1, e2⟩ := List.append_inj e (by simp [putUint64_length])
  have hlen := putUint64_inj hu ht e1
  obtain ⟨e3, e4⟩ := List.append_inj e2 hlen
  refine ⟨e3.symm, ?_⟩
  have hpl : (pad u.length).length = (8 - t.length % 8) % 8 := by simp [pad, hlen]
  rcases hp with hp | ⟨hp, rfl⟩
  · exact (List.append_inj e4 (by rw [hpl, hp])).2.symm
  · have := congrArg List.length e4
    simp only [List.length_append, List.length_nil] at this
    rw [hpl] at this
    exact (List.length_eq_zero_iff.1 (by omega)).symm

theorem toks_canon {t u d d' : Bytes} {ts : List Bytes} (ht : t.length < 2 ^ 64) (hu : u.length < 2 ^ 64)
    (h : Toks (t :: ts) (str u ++ d) d') : t = u ∧ Toks ts d d' := by
  obtain ⟨m, h1, h2⟩ := h
  obtain ⟨e1, rfl⟩ := tok_canon ht hu h1
  exact ⟨e1, h2⟩

theorem cutTok_canon {max : Nat} {u d : Bytes} (hm : max < 2 ^ 64) (hu : u.length < 2 ^ 64)
    (h : CutTok max (str u ++ d)) : False := by
  rw [str_eq, packet] at h
  rcases h with h | ⟨n, h1, h2, h⟩
  · have := congrArg List.length h
    simp [putUint64_length] at this
  · rw [le8_eq] at h
    simp only [List.append_assoc] at h
    have h' : putUint64 u.length ++ (u ++ (pad u.length ++ d)) = putUint64 n ++ [] := by simpa using h
    obtain ⟨e1, e2⟩ := List.append_inj h' (by simp [putUint64_length])
    have := putUint64_inj hu (by omega) e1
    have hz : u = [] := (List.append_eq_nil_iff.1 e2).1
    subst hz
    simp at this
    omega

/-- a place between nodes of an archive: after a node, or inside a directory; with the entries that are
left in each of the directories the place is in -/
inductive Place where
  | after (fs : List Entries)
  | inDir (es : Entries) (fs : List Entries)

/-- the data from a place on -/
def afterData (R : Bytes) : List Entries → Bytes
  | [] => R
  | es :: fs => str b!")" ++ (es.nodes ++ (str b!")" ++ afterData R fs))

def Place.data (R : Bytes) : Place → Bytes
  | .after fs => afterData R fs
  | .inDir es fs => es.nodes ++ (str b!")" ++ afterData R fs)

/-- the closing parentheses that are left -/
def Place.closes : Place → Nat
  | .after fs => 2 * fs.length
  | .inDir _ fs => 2 * fs.length + 1

mutual
def treeWt (k : Nat) : Tree → Nat
  | .regular _ _ => k
  | .symlink _ => k
  | .directory es => k + entriesWt (k + 1) es
def entriesWt (k : Nat) : Entries → Nat
  | .nil => 0
  | .cons _ t es => treeWt k t + entriesWt k es
end

def framesWt : List Entries → Nat
  | [] => 0
  | es :: fs => entriesWt (fs.length + 1) es + framesWt fs

/-- the sum of the depths of the nodes that are left -/
def Place.wt : Place → Nat
  | .after fs => framesWt fs
  | .inDir es fs => entriesWt (fs.length + 1) es + framesWt fs

def depth (e : Entry) : Nat := (cleanComps e.path).length

def wt (es : List Entry) : Nat := (es.map depth).sum

theorem wt_append (a b : List Entry) : wt (a ++ b) = wt a + wt b := by simp [wt]
theorem wt_cons (a : Entry) (b : List Entry) : wt (a :: b) = depth a + wt b := by simp [wt]
theorem wt_nil : wt [] = 0 := rfl

theorem treeWt_pos {k : Nat} (hk : 0 < k) (t : Tree) : 0 < treeWt k t := by
  cases t <;> simp [treeWt] <;> omega

theorem entriesWt_zero {k : Nat} (hk : 0 < k) {es : Entries} (h : entriesWt k es = 0) : es = .nil := by
  cases es with
  | nil => rfl
  | cons n t es =>
    have := treeWt_pos hk t
    simp only [entriesWt] at h
    omega

/-- the entries and directories are as required -/
abbrev FitsE (es : Entries) : Prop := es.All NameFits NodeFits
abbrev Fits (t : Tree) : Prop := t.All NameFits NodeFits

def Place.Fits : Place → Prop
  | .after fs => ∀ es ∈ fs, FitsE es
  | .inDir es fs => FitsE es ∧ ∀ es ∈ fs, FitsE es

mutual
theorem noParen_last (t : Tree) (h : t.NoParen) : t.ParenLast := by
  cases t with
  | regular => trivial
  | symlink => trivial
  | directory es => exact noParenE_last es h
theorem noParenE_last (es : Entries) (h : es.NoParen) : es.ParenLast := by
  cases es with
  | nil => trivial
  | cons n t es => exact .inr ⟨h.1, h.2.1, noParenE_last es h.2.2⟩
end

/-- a token read at a place where a closing parenthesis is left is a closing parenthesis or `entry` -/
theorem tok_place {R t d' : Bytes} {pos : Place} (hc : 0 < pos.closes) (ht : t.length < 2 ^ 64)
    (h : Tok t (pos.data R) d') :
    (t = b!"entry" ∧ ∃ n tr es fs, pos = .inDir (.cons n tr es) fs ∧
      d' = str b!"(" ++ (str b!"name" ++ (str n ++ (str b!"node" ++ (tr.node ++ afterData R (es :: fs)))))) ∨
    (t = b!")" ∧ ∃ pos' : Place, d' = pos'.data R ∧ pos'.closes + 1 = pos.closes ∧ pos'.wt = pos.wt ∧
      (pos.Fits → pos'.Fits) ∧ (∀ es fs, pos = .after (es :: fs) → pos' = .inDir es fs) ∧
      (∀ es fs, pos = .inDir es fs → es = .nil ∧ pos' = .after fs)) := by
  rcases pos with fs | ⟨es, fs⟩
  · cases fs with
    | nil => simp [Place.closes] at hc
    | cons es fs =>
      obtain ⟨rfl, rfl⟩ := tok_canon ht (by decide) h
      refine .inr ⟨rfl, .inDir es fs, rfl, ?_, rfl, ?_, ?_, ?_⟩
      · simp [Place.closes]; omega
      · intro hf
        exact ⟨hf es (by simp), fun e he => hf e (by simp [he])⟩
      · intro es' fs' e
        cases e; rfl
      · intro es' fs' e
        cases e
  · cases es with
    | nil =>
      obtain ⟨rfl, rfl⟩ := tok_canon (u := b!")") (d := afterData R fs) ht (by decide) (by simpa [Place.data, Entries.nodes] using h)
      refine .inr ⟨rfl, .after fs, rfl, ?_, ?_, ?_, ?_, ?_⟩
      · simp [Place.closes]
      · simp [Place.wt, entriesWt]
      · exact fun hf => hf.2
      · intro es' fs' e
        cases e
      · intro es' fs' e
        cases e; exact ⟨rfl, rfl⟩
    | cons n tr es =>
      simp only [Place.data, Entries.nodes, List.append_assoc] at h
      obtain ⟨rfl, rfl⟩ := tok_canon ht (by decide) h
      exact .inl ⟨rfl, n, tr, es, fs, rfl, rfl⟩

/-- the entry at a place -/
theorem toks_entry {R n d' : Bytes} {pos : Place} (hc : 0 < pos.closes) (hn : n.length ≤ 255)
    (hf : pos.Fits)
    (h : Toks [b!"entry", b!"(", b!"name", n, b!"node"] (pos.data R) d') :
    ∃ tr es fs, pos = .inDir (.cons n tr es) fs ∧ d' = tr.node ++ afterData R (es :: fs) := by
  obtain ⟨m, h1, h⟩ := h
  rcases tok_place hc (by decide) h1 with ⟨_, n', tr, es, fs, rfl, rfl⟩ | ⟨e, _⟩
  · obtain ⟨_, h⟩ := toks_canon (by decide) (by decide) h
    obtain ⟨_, h⟩ := toks_canon (by decide) (by decide) h
    obtain ⟨rfl, g⟩ := toks_canon (by omega) hf.1.1.2 h
    obtain ⟨_, g⟩ := toks_canon (by decide) (by decide) g
    exact ⟨tr, es, fs, rfl, g.symm⟩
  · exact absurd e (by decide)

/-- the three kinds of nodes, by their third token -/
theorem toks_node {tr : Tree} {D d' u : Bytes} (hu : u.length < 2 ^ 64) {ts : List Bytes}
    (h : Toks ([b!"(", b!"type", u] ++ ts) (tr.node ++ D) d') :
    (∃ ex c, tr = .regular ex c ∧ u = b!"regular" ∧
      Toks ts ((if ex then str b!"executable" ++ str b!"" else []) ++ (str b!"contents" ++
        (str c ++ (str b!")" ++ D)))) d') ∨
    (∃ tg, tr = .symlink tg ∧ u = b!"symlink" ∧
      Toks ts (str b!"target" ++ (str tg ++ (str b!")" ++ D))) d') ∨
    (∃ es, tr = .directory es ∧ u = b!"directory" ∧ Toks ts (es.nodes ++ (str b!")" ++ D)) d') := by
  simp only [List.cons_append, List.nil_append] at h
  cases tr with
  | regular ex c =>
    simp only [Tree.node, List.append_assoc] at h
    obtain ⟨_, h⟩ := toks_canon (by decide) (by decide) h
    obtain ⟨_, h⟩ := toks_canon (by decide) (by decide) h
    obtain ⟨rfl, g⟩ := toks_canon hu (by decide) h
    exact .inl ⟨ex, c, rfl, rfl, g⟩
  | symlink tg =>
    simp only [Tree.node, List.append_assoc] at h
    obtain ⟨_, h⟩ := toks_canon (by decide) (by decide) h
    obtain ⟨_, h⟩ := toks_canon (by decide) (by decide) h
    obtain ⟨rfl, g⟩ := toks_canon hu (by decide) h
    exact .inr (.inl ⟨tg, rfl, rfl, g⟩)
  | directory es =>
    simp only [Tree.node, List.append_assoc] at h
    obtain ⟨_, h⟩ := toks_canon (by decide) (by decide) h
    obtain ⟨_, h⟩ := toks_canon (by decide) (by decide) h
    obtain ⟨rfl, g⟩ := toks_canon hu (by decide) h
    exact .inr (.inr ⟨es, rfl, rfl, g⟩)

theorem str_inj {c c' m m' : Bytes} (h : c.length < 2 ^ 64) (h' : c'.length < 2 ^ 64)
    (e : str c ++ m = str c' ++ m') : c = c' ∧ m = m' := by
  have := tok_str c m
  rw [e] at this
  exact tok_canon h h' this

/-- what reading a node does -/
structure NodeRead (R : Bytes) (k : Nat) (t : Tree) (fs : List Entries) (es : List Entry) (d' : Bytes)
    (pos' : Place) : Prop where
  data : d' = pos'.data R
  fits : pos'.Fits
  closes : 2 * fs.length ≤ pos'.closes
  wt : wt es + pos'.wt ≤ treeWt fs.length t + framesWt fs
  strict : k < fs.length → Nar.wt es + pos'.wt < treeWt fs.length t + framesWt fs
  same : k = fs.length → (pos' = .after fs ∧ t.NoParen ∧ t.All NameShort NodeRd) ∨
    (2 * fs.length < pos'.closes ∧ (treeWt fs.length t + framesWt fs ≤ Nar.wt es →
      t.ParenLast ∧ t.All NameShort NodeRd ∧ framesWt fs = 0))

/-- what reading entries does -/
structure EntriesRead (R : Bytes) (k : Nat) (pos : Place) (es : List Entry) (d' : Bytes)
    (pos' : Place) : Prop where
  data : d' = pos'.data R
  fits : pos'.Fits
  closes : pos.closes ≤ pos'.closes + 1
  wt : wt es + pos'.wt ≤ pos.wt
  strict : 2 * k + 1 < pos.closes → pos.wt ≤ Nar.wt es → pos.wt = 0
  same : ∀ es0 fs, pos = .inDir es0 fs → k = fs.length →
    (pos' = .after fs ∧ es0.NoParen ∧ es0.All NameShort NodeRd) ∨
    (2 * fs.length < pos'.closes ∧ (pos.wt ≤ Nar.wt es →
      es0.ParenLast ∧ es0.All NameShort NodeRd ∧ framesWt fs = 0))

theorem depth_abs {cs : List Bytes} (h : ∀ c ∈ cs, Good c) (k tg c ex) :
    depth ⟨absPath cs, k, ex, tg, c⟩ = cs.length := by
  simp only [depth]
  rw [cleanComps_absPath h]

abbrev NodeIH (N : Nat) (R : Bytes) : Prop := ∀ {p d : Bytes} {es : List Entry} {d' : Bytes},
    d.length < N → RelNode p d es d' →
    ∀ (cs : List Bytes) (_ : ∀ c ∈ cs, Good c) (_ : p = absPath cs) (t : Tree) (fs : List Entries)
    (_ : d = t.node ++ afterData R fs) (_ : Fits t) (_ : ∀ es ∈ fs, FitsE es)
    (_ : cs.length ≤ fs.length), ∃ pos', NodeRead R cs.length t fs es d' pos'

abbrev EntriesIH (N : Nat) (R : Bytes) : Prop := ∀ {p d : Bytes} {es : List Entry} {d' : Bytes},
    d.length < N → RelEntries p d es d' →
    ∀ (cs : List Bytes) (_ : ∀ c ∈ cs, Good c) (_ : p = absPath cs) (pos : Place)
    (_ : d = pos.data R) (_ : pos.Fits) (_ : 2 * cs.length + 1 ≤ pos.closes),
    ∃ pos', EntriesRead R cs.length pos es d' pos'

theorem read_node {N : Nat} {R : Bytes} (IH : EntriesIH N R) {p d : Bytes} {es : List Entry} {d' : Bytes}
    (hN : d.length ≤ N) (h : RelNode p d es d')
    (cs : List Bytes) (hcs : ∀ c ∈ cs, Good c) (hp : p = absPath cs) (t : Tree) (fs : List Entries)
    (hd : d = t.node ++ afterData R fs) (ht : Fits t) (hfs : ∀ es ∈ fs, FitsE es)
    (hk : cs.length ≤ fs.length) : ∃ pos', NodeRead R cs.length t fs es d' pos' := by
  have leaf : ∀ (c k tg ex), (t.NoParen ∧ t.All NameShort NodeRd) → (treeWt fs.length t = fs.length) →
      d' = afterData R fs → ∃ pos', NodeRead R cs.length t fs [⟨p, k, ex, tg, c⟩] d' pos' := by
    intro c k tg ex hq hw e
    refine ⟨.after fs, e, hfs, by simp [Place.closes], ?_, ?_, fun _ => .inl ⟨rfl, hq⟩⟩
    · rw [hp, wt_cons, wt_nil, depth_abs hcs, hw]; simp [Place.wt]; omega
    · intro hlt
      rw [hp, wt_cons, wt_nil, depth_abs hcs, hw]; simp [Place.wt]; omega
  cases h with
  | regular h1 h2 h3 h4 =>
    rename_i m m' c
    rw [hd] at h1
    rcases toks_node (ts := [b!"contents"]) (by decide) h1 with ⟨ex, c', rfl, _, h1⟩ | ⟨_, _, e, _⟩ | ⟨_, _, e, _⟩
    · cases ex with
      | true =>
        simp only [if_true, List.append_assoc] at h1
        exact absurd (toks_canon (by decide) (by decide) h1).1 (by decide)
      | false =>
        simp only [Bool.false_eq_true, if_false, List.nil_append] at h1
        obtain ⟨_, h1⟩ := toks_canon (by decide) (by decide) h1
        rw [← h1] at h2
        obtain ⟨rfl, rfl⟩ := str_inj ht (by omega) h2
        obtain ⟨_, rfl⟩ := tok_canon (by decide) (by decide) h4
        exact leaf _ _ _ _ ⟨trivial, h3⟩ rfl rfl
    · exact absurd e (by decide)
    · exact absurd e (by decide)
  | executable h1 h2 h3 h4 =>
    rename_i m m' c
    rw [hd] at h1
    rcases toks_node (ts := [b!"executable", [], b!"contents"]) (by decide) h1 with
      ⟨ex, c', rfl, _, h1⟩ | ⟨_, _, e, _⟩ | ⟨_, _, e, _⟩
    · cases ex with
      | false =>
        simp only [Bool.false_eq_true, if_false, List.nil_append] at h1
        exact absurd (toks_canon (by decide) (by decide) h1).1 (by decide)
      | true =>
        simp only [if_true, List.append_assoc] at h1
        obtain ⟨_, h1⟩ := toks_canon (by decide) (by decide) h1
        obtain ⟨_, h1⟩ := toks_canon (by decide) (by decide) h1
        obtain ⟨_, h1⟩ := toks_canon (by decide) (by decide) h1
        rw [← h1] at h2
        obtain ⟨rfl, rfl⟩ := str_inj ht (by omega) h2
        obtain ⟨_, rfl⟩ := tok_canon (by decide) (by decide) h4
        exact leaf _ _ _ _ ⟨trivial, h3⟩ rfl rfl
    · exact absurd e (by decide)
    · exact absurd e (by decide)
  | symlink h1 h2 =>
    rename_i tg
    rw [hd] at h1
    rcases toks_node (ts := [b!"target", tg, b!")"]) (by decide) h1 with ⟨_, _, _, e, _⟩ | ⟨tg', rfl, _, h1⟩ | ⟨_, _, e, _⟩
    · exact absurd e (by decide)
    · obtain ⟨_, h1⟩ := toks_canon (by decide) (by decide) h1
      obtain ⟨rfl, g1⟩ := toks_canon (by omega) ht h1
      obtain ⟨_, g1⟩ := toks_canon (by decide) (by decide) g1
      exact leaf _ _ _ _ ⟨trivial, h2⟩ rfl g1.symm
    · exact absurd e (by decide)
  | nothing h1 =>
    rw [hd] at h1
    rcases toks_node (ts := []) (by decide) h1 with ⟨_, _, _, e, _⟩ | ⟨_, _, e, _⟩ | ⟨_, _, e, _⟩ <;>
      exact absurd e (by decide)
  | directory h1 h2 =>
    rename_i m xs
    have hl := toks_length h1
    simp only [List.length_cons, List.length_nil] at hl
    rw [hd] at h1
    rcases toks_node (ts := []) (by decide) h1 with ⟨_, _, _, e, _⟩ | ⟨_, _, e, _⟩ | ⟨es0, rfl, _, h1⟩
    · exact absurd e (by decide)
    · exact absurd e (by decide)
    · have hw : (Place.inDir es0 fs).wt = entriesWt (fs.length + 1) es0 + framesWt fs := rfl
      have hcl : (Place.inDir es0 fs).closes = 2 * fs.length + 1 := rfl
      obtain ⟨pos', hr⟩ := IH (by omega) h2 cs hcs hp (.inDir es0 fs) h1.symm ⟨ht.2.2, hfs⟩
        (by rw [hcl]; omega)
      have h3 := hr.wt
      have h4 := hr.closes
      rw [hw] at h3
      rw [hcl] at h4
      refine ⟨pos', hr.data, hr.fits, by omega, ?_, ?_, ?_⟩
      · rw [hp, wt_cons, depth_abs hcs]; simp only [treeWt]; omega
      · intro hlt
        rw [hp, wt_cons, depth_abs hcs]; simp only [treeWt]; omega
      · intro hk'
        rcases hr.same es0 fs rfl hk' with ⟨h5, h6, h7⟩ | ⟨h5, h6⟩
        · exact .inl ⟨h5, h6, trivial, ht.2.1, h7⟩
        · refine .inr ⟨h5, ?_⟩
          rw [hp, wt_cons, depth_abs hcs, hk']
          intro hle
          simp only [treeWt] at hle
          obtain ⟨h7, h8, h9⟩ := h6 (by rw [hw]; omega)
          exact ⟨h7, ⟨trivial, ht.2.1, h8⟩, h9⟩
theorem read_entries {N : Nat} {R : Bytes} (IHn : NodeIH N R) (IH : EntriesIH N R) {p d : Bytes}
    {es : List Entry} {d' : Bytes} (hN : d.length ≤ N) (h : RelEntries p d es d')
    (cs : List Bytes) (hcs : ∀ c ∈ cs, Good c) (hp : p = absPath cs) (pos : Place)
    (hd : d = pos.data R) (hf : pos.Fits) (hk : 2 * cs.length + 1 ≤ pos.closes) :
    ∃ pos', EntriesRead R cs.length pos es d' pos' := by
  cases h with
  | close h1 =>
    rw [hd] at h1
    rcases tok_place (by omega) (by decide) h1 with ⟨e, _⟩ | ⟨_, pos', e, h2, h3, h4, h5, h6⟩
    · exact absurd e (by decide)
    · refine ⟨pos', e, h4 hf, by omega, by rw [wt_nil]; omega, ?_, ?_⟩
      · intro _ hle
        rw [wt_nil] at hle; omega
      · intro es0 fs e' hk'
        obtain ⟨e1, e2⟩ := h6 es0 fs e'
        subst e1
        exact .inl ⟨e2, trivial, trivial⟩
  | unknown h1 h2 h3 h4 h5 =>
    rw [hd] at h1
    rcases tok_place (by omega) (by omega) h1 with ⟨e, _⟩ | ⟨e, _⟩
    · exact absurd e h2
    · exact absurd e h3
  | entry h1 h2 h3 h4 h5 h6 h7 h8 =>
    rename_i m1 m2 m3 es1 es2 n
    have hl := toks_length h1
    have hl1 := relNode_le h5
    have hl2 := tok_length h6
    simp only [List.length_cons, List.length_nil] at hl
    rw [hd] at h1
    obtain ⟨tr, es0, fs, hpos, hm1⟩ := toks_entry (by omega) h4 hf h1
    clear hd
    subst hpos
    have hn : Good n := nameOk_good hf.1.1.1
    have hcl : (Place.inDir (.cons n tr es0) fs).closes = 2 * fs.length + 1 := rfl
    have hw : (Place.inDir (.cons n tr es0) fs).wt =
      treeWt (fs.length + 1) tr + entriesWt (fs.length + 1) es0 + framesWt fs := rfl
    have hlen : (cs ++ [n]).length = cs.length + 1 := by simp
    have hlen' : (es0 :: fs).length = fs.length + 1 := by simp
    have hfw : framesWt (es0 :: fs) = entriesWt (fs.length + 1) es0 + framesWt fs := rfl
    rw [hcl] at hk
    obtain ⟨pos1, hr⟩ := IHn (by omega) h5 (cs ++ [n]) (good_snoc hcs hn)
      (by rw [hp]; exact pathJoin_good hcs hn) tr (es0 :: fs) hm1 hf.1.2.1
      (List.forall_mem_cons.2 ⟨hf.1.2.2, hf.2⟩)
      (by rw [hlen, hlen']; omega)
    have hr1 := hr.closes
    have hr2 := hr.wt
    rw [hlen'] at hr1 hr2
    rw [hfw] at hr2
    rw [hr.data] at h6
    rcases tok_place (by omega) (by decide) h6 with ⟨e, _⟩ | ⟨_, pos2, e, g2, g3, g4, g5, g6⟩
    · exact absurd e (by decide)
    · obtain ⟨pos', hs⟩ := IH (by omega) h8 cs hcs hp pos2 e (g4 hr.fits) (by omega)
      have hs1 := hs.closes
      have hs2 := hs.wt
      refine ⟨pos', hs.data, hs.fits, by rw [hcl]; omega, by rw [wt_append, hw]; omega, ?_, ?_⟩
      · rw [hcl, hw, wt_append]
        intro hlt hle
        have := hr.strict (by rw [hlen, hlen']; omega)
        rw [hlen', hfw] at this
        omega
      · intro es0' fs' e' hk'
        cases e'
        rcases hr.same (by rw [hlen, hlen']; omega) with ⟨q1, q2, q3⟩ | ⟨q1, q2⟩
        · subst q1
          obtain rfl := g5 _ _ rfl
          rcases hs.same es0 fs rfl hk' with ⟨p1, p2, p3⟩ | ⟨p1, p2⟩
          · exact .inl ⟨p1, ⟨h7, q2, p2⟩, ⟨hf.1.1.1, h4⟩, q3, p3⟩
          · refine .inr ⟨p1, ?_⟩
            rw [hw, wt_append]
            intro hle
            obtain ⟨p3, p4, p5⟩ := p2 (by omega)
            exact ⟨.inr ⟨h7, q2, p3⟩, ⟨⟨hf.1.1.1, h4⟩, q3, p4⟩, p5⟩
        · rw [hlen'] at q1
          refine .inr ⟨by omega, ?_⟩
          rw [hw, wt_append]
          intro hle
          have hz := hs.strict (by omega) (by omega)
          rw [hlen', hfw] at q2
          obtain ⟨p3, p4, p5⟩ := q2 (by omega)
          have : es0 = .nil := entriesWt_zero (k := fs.length + 1) (by omega) (by omega)
          subst this
          exact ⟨.inl ⟨rfl, p3⟩, ⟨⟨hf.1.1.1, h4⟩, p4, trivial⟩, by omega⟩
  | lastEntry h1 h5 h6 =>
    rename_i m1 m2
    have hl := toks_length h1
    simp only [List.length_cons, List.length_nil] at hl
    rw [hd] at h1
    obtain ⟨tr, es0, fs, hpos, hm1⟩ := toks_entry (by omega) (by decide) hf h1
    clear hd
    subst hpos
    have hn : Good b!")" := nameOk_good hf.1.1.1
    have hcl : (Place.inDir (.cons b!")" tr es0) fs).closes = 2 * fs.length + 1 := rfl
    have hw : (Place.inDir (.cons b!")" tr es0) fs).wt =
      treeWt (fs.length + 1) tr + entriesWt (fs.length + 1) es0 + framesWt fs := rfl
    have hlen : (cs ++ [b!")"]).length = cs.length + 1 := by simp
    have hlen' : (es0 :: fs).length = fs.length + 1 := by simp
    have hfw : framesWt (es0 :: fs) = entriesWt (fs.length + 1) es0 + framesWt fs := rfl
    rw [hcl] at hk
    obtain ⟨pos1, hr⟩ := IHn (by omega) h5 (cs ++ [b!")"]) (good_snoc hcs hn)
      (by rw [hp]; exact pathJoin_good hcs hn) tr (es0 :: fs) hm1 hf.1.2.1
      (List.forall_mem_cons.2 ⟨hf.1.2.2, hf.2⟩)
      (by rw [hlen, hlen']; omega)
    have hr1 := hr.closes
    have hr2 := hr.wt
    rw [hlen'] at hr1 hr2
    rw [hfw] at hr2
    rw [hr.data] at h6
    rcases tok_place (by omega) (by decide) h6 with ⟨e, _⟩ | ⟨_, pos2, e, g2, g3, g4, g5, g6⟩
    · exact absurd e (by decide)
    · refine ⟨pos2, e, g4 hr.fits, by rw [hcl]; omega, by rw [hw]; omega, ?_, ?_⟩
      · rw [hcl, hw]
        intro hlt hle
        have := hr.strict (by rw [hlen, hlen']; omega)
        rw [hlen', hfw] at this
        omega
      · intro es0' fs' e' hk'
        cases e'
        refine .inr ⟨by omega, ?_⟩
        rw [hw]
        intro hle
        have short : NameShort b!")" := ⟨hf.1.1.1, by decide⟩
        rcases hr.same (by rw [hlen, hlen']; omega) with ⟨q1, q2, q3⟩ | ⟨q1, q2⟩
        · subst q1
          have hz : (Place.after (es0 :: fs)).wt = entriesWt (fs.length + 1) es0 + framesWt fs := rfl
          have : es0 = .nil := entriesWt_zero (k := fs.length + 1) (by omega) (by omega)
          subst this
          exact ⟨.inl ⟨rfl, noParen_last _ q2⟩, ⟨short, q3, trivial⟩, by omega⟩
        · rw [hlen', hfw] at q2
          obtain ⟨p3, p4, p5⟩ := q2 (by omega)
          have : es0 = .nil := entriesWt_zero (k := fs.length + 1) (by omega) (by omega)
          subst this
          exact ⟨.inl ⟨rfl, p3⟩, ⟨short, p4, trivial⟩, by omega⟩

theorem read_all (R : Bytes) (N : Nat) : NodeIH N R ∧ EntriesIH N R := by
  induction N with
  | zero => exact ⟨fun h => absurd h (Nat.not_lt_zero _), fun h => absurd h (Nat.not_lt_zero _)⟩
  | succ N ih =>
    exact ⟨fun hN h => read_node ih.2 (Nat.le_of_lt_succ hN) h,
      fun hN h => read_entries ih.1 ih.2 (Nat.le_of_lt_succ hN) h⟩

theorem toks_node2 {tr : Tree} {D d' : Bytes} (h : Toks [b!"(", b!"type"] (tr.node ++ D) d') :
    ∃ u rest, u.length < 2 ^ 64 ∧ d' = str u ++ rest := by
  cases tr with
  | regular ex c =>
    simp only [Tree.node, List.append_assoc] at h
    obtain ⟨_, h⟩ := toks_canon (by decide) (by decide) h
    obtain ⟨_, h⟩ := toks_canon (by decide) (by decide) h
    exact ⟨b!"regular", _, by decide, h.symm⟩
  | symlink tg =>
    simp only [Tree.node, List.append_assoc] at h
    obtain ⟨_, h⟩ := toks_canon (by decide) (by decide) h
    obtain ⟨_, h⟩ := toks_canon (by decide) (by decide) h
    exact ⟨b!"symlink", _, by decide, h.symm⟩
  | directory es =>
    simp only [Tree.node, List.append_assoc] at h
    obtain ⟨_, h⟩ := toks_canon (by decide) (by decide) h
    obtain ⟨_, h⟩ := toks_canon (by decide) (by decide) h
    exact ⟨b!"directory", _, by decide, h.symm⟩

/-- the data at a place with a closing parenthesis left starts with a token -/
theorem place_str {R : Bytes} {pos : Place} (hc : 0 < pos.closes) :
    ∃ u rest, u.length < 2 ^ 64 ∧ pos.data R = str u ++ rest := by
  rcases pos with fs | ⟨es, fs⟩
  · cases fs with
    | nil => simp [Place.closes] at hc
    | cons es fs => exact ⟨b!")", _, by decide, rfl⟩
  · cases es with
    | nil => exact ⟨b!")", _, by decide, by simp only [Place.data, Entries.nodes, List.nil_append]; rfl⟩
    | cons n tr es =>
      exact ⟨b!"entry", _, by decide, by simp only [Place.data, Entries.nodes, List.append_assoc]; rfl⟩

/-- the header of a regular file -/
theorem toks_contents {tr : Tree} {D d' : Bytes} {x : List Bytes} (ht : Fits tr)
    (hx : x = [] ∨ x = [b!"executable", []])
    (h : Toks ([b!"(", b!"type", b!"regular"] ++ x ++ [b!"contents"]) (tr.node ++ D) d') :
    ∃ c, c.length < 2 ^ 64 ∧ d' = str c ++ (str b!")" ++ D) := by
  rw [List.append_assoc] at h
  rcases toks_node (by decide) h with ⟨ex, c, rfl, _, h⟩ | ⟨_, _, e, _⟩ | ⟨_, _, e, _⟩
  · rcases hx with rfl | rfl
    · cases ex with
      | true =>
        simp only [if_true, List.append_assoc, List.nil_append] at h
        exact absurd (toks_canon (by decide) (by decide) h).1 (by decide)
      | false =>
        simp only [Bool.false_eq_true, if_false, List.nil_append] at h
        obtain ⟨_, h⟩ := toks_canon (by decide) (by decide) h
        exact ⟨c, ht, h.symm⟩
    · cases ex with
      | false =>
        simp only [Bool.false_eq_true, if_false, List.nil_append] at h
        exact absurd (toks_canon (by decide) (by decide) h).1 (by decide)
      | true =>
        simp only [if_true, List.append_assoc, List.cons_append, List.nil_append] at h
        obtain ⟨_, h⟩ := toks_canon (by decide) (by decide) h
        obtain ⟨_, h⟩ := toks_canon (by decide) (by decide) h
        obtain ⟨_, h⟩ := toks_canon (by decide) (by decide) h
        exact ⟨c, ht, h.symm⟩
  · exact absurd e (by decide)
  · exact absurd e (by decide)

abbrev NoCutIH (N : Nat) (R : Bytes) : Prop := ∀ {p d : Bytes} {xs : List Seen},
    d.length < N → CutNode p d xs →
    ∀ (cs : List Bytes) (_ : ∀ c ∈ cs, Good c) (_ : p = absPath cs) (t : Tree) (fs : List Entries)
    (_ : d = t.node ++ afterData R fs) (_ : Fits t) (_ : ∀ es ∈ fs, FitsE es)
    (_ : cs.length ≤ fs.length), False

abbrev NoCutEntriesIH (N : Nat) (R : Bytes) : Prop := ∀ {p d : Bytes} {xs : List Seen},
    d.length < N → CutEntries p d xs →
    ∀ (cs : List Bytes) (_ : ∀ c ∈ cs, Good c) (_ : p = absPath cs) (pos : Place)
    (_ : d = pos.data R) (_ : pos.Fits) (_ : 2 * cs.length + 1 ≤ pos.closes), False

theorem no_cut_node {N : Nat} {R : Bytes} (IH : NoCutEntriesIH N R) {p d : Bytes} {xs : List Seen}
    (hN : d.length ≤ N) (h : CutNode p d xs)
    (cs : List Bytes) (hcs : ∀ c ∈ cs, Good c) (hp : p = absPath cs) (t : Tree) (fs : List Entries)
    (hd : d = t.node ++ afterData R fs) (ht : Fits t) (hfs : ∀ es ∈ fs, FitsE es)
    (hk : cs.length ≤ fs.length) : False := by
  cases h with
  | type h1 h2 =>
    rw [hd] at h1
    obtain ⟨u, rest, hu, rfl⟩ := toks_node2 h1
    exact cutTok_canon (by decide) hu h2
  | regular h1 h2 =>
    rw [hd] at h1
    rcases toks_node (ts := []) (by decide) h1 with ⟨ex, c, rfl, _, h1⟩ | ⟨_, _, e, _⟩ | ⟨_, _, e, _⟩
    · rw [← h1] at h2
      cases ex with
      | true =>
        simp only [if_true, List.append_assoc] at h2
        exact cutTok_canon (by decide) (by decide) h2
      | false =>
        simp only [Bool.false_eq_true, if_false, List.nil_append] at h2
        exact cutTok_canon (by decide) (by decide) h2
    · exact absurd e (by decide)
    · exact absurd e (by decide)
  | executable h1 h2 =>
    rw [hd] at h1
    rcases toks_node (ts := [b!"executable", []]) (by decide) h1 with
      ⟨ex, c, rfl, _, h1⟩ | ⟨_, _, e, _⟩ | ⟨_, _, e, _⟩
    · cases ex with
      | false =>
        simp only [Bool.false_eq_true, if_false, List.nil_append] at h1
        exact absurd (toks_canon (by decide) (by decide) h1).1 (by decide)
      | true =>
        simp only [if_true, List.append_assoc] at h1
        obtain ⟨_, h1⟩ := toks_canon (by decide) (by decide) h1
        obtain ⟨_, h1⟩ := toks_canon (by decide) (by decide) h1
        rw [← h1] at h2
        exact cutTok_canon (by decide) (by decide) h2
    · exact absurd e (by decide)
    · exact absurd e (by decide)
  | length hx h1 =>
    rw [hd] at h1
    obtain ⟨c, _, e⟩ := toks_contents ht hx h1
    have := congrArg List.length e
    have hs := str_pos c
    simp only [List.length_append, List.length_nil] at this
    omega
  | contents hx h1 h2 h3 h4 =>
    rename_i m c n x
    rw [hd] at h1
    obtain ⟨c', hc, e⟩ := toks_contents ht hx h1
    rw [e, le8_eq, str_eq, packet] at h2
    simp only [List.append_assoc] at h2
    obtain ⟨e1, e2⟩ := List.append_inj h2 (by simp [putUint64_length])
    have := putUint64_inj hc (by omega) e1
    have hl := congrArg List.length e2
    have hs := str_pos b!")"
    simp only [List.length_append] at hl
    omega
  | close hx h1 h2 h3 h4 =>
    rename_i m c m' x
    rw [hd] at h1
    obtain ⟨c', hc, e⟩ := toks_contents ht hx h1
    rw [e] at h2
    obtain ⟨rfl, rfl⟩ := str_inj hc (by omega) h2
    exact cutTok_canon (by decide) (by decide) h4
  | target h1 h2 =>
    rw [hd] at h1
    rcases toks_node (ts := [b!"target"]) (by decide) h1 with ⟨_, _, _, e, _⟩ | ⟨tg', rfl, _, h1⟩ | ⟨_, _, e, _⟩
    · exact absurd e (by decide)
    · obtain ⟨_, h1⟩ := toks_canon (by decide) (by decide) h1
      rw [← h1] at h2
      exact cutTok_canon (by decide) ht h2
    · exact absurd e (by decide)
  | symlink h1 h2 h3 =>
    rename_i m tg
    rw [hd] at h1
    rcases toks_node (ts := [b!"target", tg]) (by decide) h1 with ⟨_, _, _, e, _⟩ | ⟨tg', rfl, _, h1⟩ | ⟨_, _, e, _⟩
    · exact absurd e (by decide)
    · obtain ⟨_, h1⟩ := toks_canon (by decide) (by decide) h1
      obtain ⟨rfl, g1⟩ := toks_canon (by omega) ht h1
      rw [← g1] at h3
      exact cutTok_canon (by decide) (by decide) h3
    · exact absurd e (by decide)
  | directory h1 h2 =>
    rename_i m xs
    have hl := toks_length h1
    simp only [List.length_cons, List.length_nil] at hl
    rw [hd] at h1
    rcases toks_node (ts := []) (by decide) h1 with ⟨_, _, _, e, _⟩ | ⟨_, _, e, _⟩ | ⟨es0, rfl, _, h1⟩
    · exact absurd e (by decide)
    · exact absurd e (by decide)
    · exact IH (by omega) h2 cs hcs hp (.inDir es0 fs) h1.symm ⟨ht.2.2, hfs⟩
        (by simp only [Place.closes]; omega)

theorem no_cut_entries {N : Nat} {R : Bytes} (IHn : NoCutIH N R) (IH : NoCutEntriesIH N R) {p d : Bytes}
    {xs : List Seen} (hN : d.length ≤ N) (h : CutEntries p d xs)
    (cs : List Bytes) (hcs : ∀ c ∈ cs, Good c) (hp : p = absPath cs) (pos : Place)
    (hd : d = pos.data R) (hf : pos.Fits) (hk : 2 * cs.length + 1 ≤ pos.closes) : False := by
  cases h with
  | token h1 =>
    obtain ⟨u, rest, hu, e⟩ := place_str (R := R) (pos := pos) (by omega)
    rw [hd, e] at h1
    exact cutTok_canon (by decide) hu h1
  | unknown h1 h2 h3 h4 h5 =>
    rw [hd] at h1
    rcases tok_place (by omega) (by omega) h1 with ⟨e, _⟩ | ⟨e, _⟩
    · exact absurd e h2
    · exact absurd e h3
  | name h1 h2 =>
    rw [hd] at h1
    obtain ⟨m, h0, h1⟩ := h1
    rcases tok_place (by omega) (by decide) h0 with ⟨_, n', tr, es, fs, rfl, rfl⟩ | ⟨e, _⟩
    · obtain ⟨_, h1⟩ := toks_canon (by decide) (by decide) h1
      obtain ⟨_, h1⟩ := toks_canon (by decide) (by decide) h1
      rw [← h1] at h2
      exact cutTok_canon (by decide) hf.1.1.2 h2
    · exact absurd e (by decide)
  | node h1 h2 h3 h4 h5 =>
    rename_i m n
    have hl := toks_length h1
    simp only [List.length_cons, List.length_nil] at hl
    rw [hd] at h1
    obtain ⟨tr, es0, fs, hpos, hm1⟩ := toks_entry (by omega) h4 hf h1
    clear hd
    subst hpos
    have hn : Good n := nameOk_good hf.1.1.1
    have hcl : (Place.inDir (.cons n tr es0) fs).closes = 2 * fs.length + 1 := rfl
    exact IHn (by omega) h5 (cs ++ [n]) (good_snoc hcs hn)
      (by rw [hp]; exact pathJoin_good hcs hn) tr (es0 :: fs) hm1 hf.1.2.1
      (List.forall_mem_cons.2 ⟨hf.1.2.2, hf.2⟩) (by simp; omega)
  | entry h1 h2 h3 h4 h5 h6 h7 h8 =>
    rename_i m1 m2 m3 es1 es2 n
    have hl := toks_length h1
    have hl1 := relNode_le h5
    have hl2 := tok_length h6
    simp only [List.length_cons, List.length_nil] at hl
    rw [hd] at h1
    obtain ⟨tr, es0, fs, hpos, hm1⟩ := toks_entry (by omega) h4 hf h1
    clear hd
    subst hpos
    have hn : Good n := nameOk_good hf.1.1.1
    have hcl : (Place.inDir (.cons n tr es0) fs).closes = 2 * fs.length + 1 := rfl
    obtain ⟨pos1, hr⟩ := (read_all R (m1.length + 1)).1 (by omega) h5 (cs ++ [n]) (good_snoc hcs hn)
      (by rw [hp]; exact pathJoin_good hcs hn) tr (es0 :: fs) hm1 hf.1.2.1
      (List.forall_mem_cons.2 ⟨hf.1.2.2, hf.2⟩) (by simp; omega)
    have hr1 := hr.closes
    simp only [List.length_cons] at hr1
    rw [hr.data] at h6
    rcases tok_place (by omega) (by decide) h6 with ⟨e, _⟩ | ⟨_, pos2, e, g2, g3, g4, g5, g6⟩
    · exact absurd e (by decide)
    · exact IH (by omega) h8 cs hcs hp pos2 e (g4 hr.fits) (by omega)

theorem no_cut (R : Bytes) (N : Nat) : NoCutIH N R ∧ NoCutEntriesIH N R := by
  induction N with
  | zero => exact ⟨fun h => absurd h (Nat.not_lt_zero _), fun h => absurd h (Nat.not_lt_zero _)⟩
  | succ N ih =>
    exact ⟨fun hN h => no_cut_node ih.2 (Nat.le_of_lt_succ hN) h,
      fun hN h => no_cut_entries ih.1 ih.2 (Nat.le_of_lt_succ hN) h⟩

/-- closing parentheses -/
def parens : Nat → Bytes
  | 0 => []
  | k + 1 => str b!")" ++ parens k

theorem parens_add (k : Nat) (D : Bytes) : parens k ++ (str b!")" ++ D) = str b!")" ++ (parens k ++ D) := by
  induction k with
  | zero => rfl
  | succ k ih => simp only [parens, List.append_assoc, ih]

theorem rel_leaf_regular (p : Bytes) (ex : Bool) (c D : Bytes) (hc : c.length < 2 ^ 63) :
    RelNode p ((Tree.regular ex c).node ++ D) [⟨p, b!"regular", ex, [], c⟩] D := by
  cases ex with
  | false =>
    simp only [Tree.node, List.append_assoc, Bool.false_eq_true, if_false, List.nil_append]
    exact .regular ⟨_, tok_str _ _, _, tok_str _ _, _, tok_str _ _, _, tok_str _ _, rfl⟩ rfl hc (tok_str _ _)
  | true =>
    simp only [Tree.node, List.append_assoc, if_true]
    exact .executable ⟨_, tok_str _ _, _, tok_str _ _, _, tok_str _ _, _, tok_str _ _, _, tok_str _ _, _,
      tok_str _ _, rfl⟩ rfl hc (tok_str _ _)

theorem rel_leaf_symlink (p tg D : Bytes) (hc : tg.length ≤ 4095) :
    RelNode p ((Tree.symlink tg).node ++ D) [⟨p, b!"symlink", false, tg, []⟩] D := by
  simp only [Tree.node, List.append_assoc]
  exact .symlink ⟨_, tok_str _ _, _, tok_str _ _, _, tok_str _ _, _, tok_str _ _, _, tok_str _ _, _,
    tok_str _ _, rfl⟩ hc

mutual
theorem rel_quiet (t : Tree) (hn : t.NoParen) (ht : t.All NameShort NodeRd) (cs : List Bytes)
    (hcs : ∀ c ∈ cs, Good c) (D : Bytes) :
    RelNode (absPath cs) (t.node ++ D) (t.entriesAt (absPath cs)) D := by
  cases t with
  | regular ex c => exact rel_leaf_regular _ _ _ _ ht
  | symlink tg => exact rel_leaf_symlink _ _ _ ht
  | directory es =>
    simp only [Tree.node, List.append_assoc, Tree.entriesAt]
    exact .directory ⟨_, tok_str _ _, _, tok_str _ _, _, tok_str _ _, rfl⟩
      (rel_quiet_entries es hn ht.2.2 cs hcs D)
theorem rel_quiet_entries (es : Entries) (hn : es.NoParen) (ht : es.All NameShort NodeRd) (cs : List Bytes)
    (hcs : ∀ c ∈ cs, Good c) (D : Bytes) :
    RelEntries (absPath cs) (es.nodes ++ (str b!")" ++ D)) (es.entriesAt (absPath cs)) D := by
  cases es with
  | nil => exact .close (tok_str _ _)
  | cons n t es =>
    have hg : Good n := nameOk_good ht.1.1
    simp only [Entries.nodes, List.append_assoc, Entries.entriesAt]
    have h1 := rel_quiet t hn.2.1 ht.2.1 (cs ++ [n]) (good_snoc hcs hg)
      (str b!")" ++ (es.nodes ++ (str b!")" ++ D)))
    rw [← pathJoin_good hcs hg] at h1
    rw [← absPath_snoc cs n hcs, ← pathJoin_good hcs hg]
    exact .entry ⟨_, tok_str _ _, _, tok_str _ _, _, tok_str _ _, _, tok_str _ _, _, tok_str _ _, rfl⟩
      ht.1.1.2.2.2.1 ht.1.1.2.2.2.2 ht.1.2 h1 (tok_str _ _) hn.1 (rel_quiet_entries es hn.2.2 ht.2.2 cs hcs D)
end

mutual
theorem rel_last (t : Tree) (hn : t.ParenLast) (ht : t.All NameShort NodeRd) (cs : List Bytes)
    (hcs : ∀ c ∈ cs, Good c) : ∃ j, ∀ D,
    RelNode (absPath cs) (t.node ++ D) (t.entriesAt (absPath cs)) (parens j ++ D) := by
  cases t with
  | regular ex c => exact ⟨0, fun D => rel_leaf_regular _ _ _ _ ht⟩
  | symlink tg => exact ⟨0, fun D => rel_leaf_symlink _ _ _ ht⟩
  | directory es =>
    obtain ⟨j, h⟩ := rel_last_entries es hn ht.2.2 cs hcs
    refine ⟨j, fun D => ?_⟩
    simp only [Tree.node, List.append_assoc, Tree.entriesAt]
    exact .directory ⟨_, tok_str _ _, _, tok_str _ _, _, tok_str _ _, rfl⟩ (h D)
theorem rel_last_entries (es : Entries) (hn : es.ParenLast) (ht : es.All NameShort NodeRd) (cs : List Bytes)
    (hcs : ∀ c ∈ cs, Good c) : ∃ j, ∀ D,
    RelEntries (absPath cs) (es.nodes ++ (str b!")" ++ D)) (es.entriesAt (absPath cs)) (parens j ++ D) := by
  cases es with
  | nil => exact ⟨0, fun D => .close (tok_str _ _)⟩
  | cons n t es =>
    have hg : Good n := nameOk_good ht.1.1
    rcases hn with ⟨rfl, hn⟩ | ⟨h1, h2, h3⟩
    · obtain ⟨j, h⟩ := rel_last t hn ht.2.1 (cs ++ [n]) (good_snoc hcs hg)
      simp only [Entries.nodes, List.append_assoc, Entries.entriesAt, List.nil_append, List.append_nil]
      rw [← absPath_snoc cs n hcs]
      rw [← pathJoin_good hcs hg] at h ⊢
      by_cases hp : n = b!")"
      · subst hp
        refine ⟨j + 1, fun D => ?_⟩
        have h' := h (str b!")" ++ (str b!")" ++ D))
        rw [parens_add, parens_add] at h'
        refine .lastEntry ⟨_, tok_str _ _, _, tok_str _ _, _, tok_str _ _, _, tok_str _ _, _, tok_str _ _, rfl⟩
          h' ?_
        simp only [parens, List.append_assoc]
        exact tok_str _ _
      · refine ⟨j, fun D => ?_⟩
        have h' := h (str b!")" ++ (str b!")" ++ D))
        rw [parens_add, parens_add] at h'
        have := RelEntries.entry (p := absPath cs) (es2 := []) (d' := parens j ++ D)
          ⟨_, tok_str _ _, _, tok_str _ _, _, tok_str _ _, _, tok_str _ _, _, tok_str _ _, rfl⟩
          ht.1.1.2.2.2.1 ht.1.1.2.2.2.2 ht.1.2 h' (tok_str _ _) hp (.close (tok_str _ _))
        rwa [List.append_nil] at this
    · obtain ⟨j, h⟩ := rel_last_entries es h3 ht.2.2 cs hcs
      refine ⟨j, fun D => ?_⟩
      simp only [Entries.nodes, List.append_assoc, Entries.entriesAt]
      have g1 := rel_quiet t h2 ht.2.1 (cs ++ [n]) (good_snoc hcs hg)
        (str b!")" ++ (es.nodes ++ (str b!")" ++ D)))
      rw [← pathJoin_good hcs hg] at g1
      rw [← absPath_snoc cs n hcs, ← pathJoin_good hcs hg]
      exact .entry ⟨_, tok_str _ _, _, tok_str _ _, _, tok_str _ _, _, tok_str _ _, _, tok_str _ _, rfl⟩
        ht.1.1.2.2.2.1 ht.1.1.2.2.2.2 ht.1.2 g1 (tok_str _ _) h1 (h D)
end

mutual
theorem wt_tree (t : Tree) (ht : Fits t) (cs : List Bytes) (hcs : ∀ c ∈ cs, Good c) :
    wt (t.entriesAt (absPath cs)) = treeWt cs.length t := by
  cases t with
  | regular ex c => simp only [Tree.entriesAt, wt_cons, wt_nil, depth_abs hcs, treeWt]; rfl
  | symlink tg => simp only [Tree.entriesAt, wt_cons, wt_nil, depth_abs hcs, treeWt]; rfl
  | directory es =>
    simp only [Tree.entriesAt, wt_cons, depth_abs hcs, treeWt]
    rw [wt_entries es ht.2.2 cs hcs]
theorem wt_entries (es : Entries) (ht : FitsE es) (cs : List Bytes) (hcs : ∀ c ∈ cs, Good c) :
    wt (es.entriesAt (absPath cs)) = entriesWt (cs.length + 1) es := by
  cases es with
  | nil => rfl
  | cons n t es =>
    have hg : Good n := nameOk_good ht.1.1
    simp only [Entries.entriesAt, wt_append, entriesWt]
    rw [wt_entries es ht.2.2 cs hcs, ← absPath_snoc cs n hcs,
      wt_tree t ht.2.1 (cs ++ [n]) (good_snoc hcs hg)]
    simp
end

end Verif.Nar
