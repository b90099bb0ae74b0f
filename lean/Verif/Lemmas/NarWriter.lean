import Verif.Spec.NarWriting
import Verif.Lemmas.NarSession
import Verif.Lemmas.NarSorted
import Verif.Props.NarHeader

namespace Verif.Spec

/-- append an entry -/
def Entries.snoc : Entries → Bytes → Tree → Entries
  | .nil, n, t => .cons n t .nil
  | .cons m u es, n, t => .cons m u (es.snoc n t)

theorem Entries.nodes_snoc (es : Entries) (n : Bytes) (t : Tree) :
    (es.snoc n t).nodes = es.nodes ++ (str b!"entry" ++ str b!"(" ++ str b!"name" ++ str n ++
      str b!"node" ++ t.node ++ str b!")") := by
  match es with
  | .nil => simp [Entries.snoc, Entries.nodes]
  | .cons m u es => simp [Entries.snoc, Entries.nodes, Entries.nodes_snoc es]

theorem Entries.names_snoc (es : Entries) (n : Bytes) (t : Tree) :
    (es.snoc n t).names = es.names ++ [n] := by
  match es with
  | .nil => simp [Entries.snoc, Entries.names]
  | .cons m u es => simp [Entries.snoc, Entries.names, Entries.names_snoc es]

theorem Entries.entriesAt_snoc (es : Entries) (n : Bytes) (t : Tree) (p : Bytes) :
    (es.snoc n t).entriesAt p = es.entriesAt p ++ t.entriesAt (childPath p n) := by
  match es with
  | .nil => simp [Entries.snoc, Entries.entriesAt]
  | .cons m u es => simp [Entries.snoc, Entries.entriesAt, Entries.entriesAt_snoc es]

theorem Entries.all_snoc {P : Bytes → Prop} {Q : Tree → Prop} (es : Entries) (n : Bytes) (t : Tree) :
    (es.snoc n t).All P Q ↔ es.All P Q ∧ P n ∧ t.All P Q := by
  match es with
  | .nil => simp [Entries.snoc, Entries.All]
  | .cons m u es => simp [Entries.snoc, Entries.All, Entries.all_snoc es, and_assoc]

/-- the node without its closing parenthesis -/
def Tree.openPart : Tree → Bytes
  | .regular exec c =>
    str b!"(" ++ str b!"type" ++ str b!"regular" ++
      (if exec then str b!"executable" ++ str b!"" else []) ++ str b!"contents" ++ str c
  | .symlink t => str b!"(" ++ str b!"type" ++ str b!"symlink" ++ str b!"target" ++ str t
  | .directory es => str b!"(" ++ str b!"type" ++ str b!"directory" ++ es.nodes

theorem Tree.node_eq (t : Tree) : t.node = t.openPart ++ str b!")" := by
  cases t <;> simp [Tree.node, Tree.openPart]

end Verif.Spec

namespace Verif.Nar
open Verif.GoLib Verif.Spec Verif.Wire

/-! ### emission on an unlimited sink -/

theorem wr_str (b out : Bytes) (cw : Option CW) :
    wr (writeString b) ⟨⟨out, none⟩, cw⟩ = (.ok (), ⟨⟨out ++ str b, none⟩, cw⟩) := by
  unfold wr
  rw [(emits_writeString b ⟨out, none⟩).1 rfl, str_eq]

theorem wr_bytes (b out : Bytes) (cw : Option CW) :
    wr (writeBytes b) ⟨⟨out, none⟩, cw⟩ = (.ok (), ⟨⟨out ++ str b, none⟩, cw⟩) := wr_str b out cw

theorem wr_bind {α : Type} (b out : Bytes) (cw : Option CW) (f : Unit → M WState α) :
    (wr (writeString b) >>= f) ⟨⟨out, none⟩, cw⟩ = f () ⟨⟨out ++ str b, none⟩, cw⟩ :=
  M.bind_ok (wr_str b out cw)

theorem wr_bind' {α : Type} (b out : Bytes) (cw : Option CW) (f : Unit → M WState α) :
    (wr (writeBytes b) >>= f) ⟨⟨out, none⟩, cw⟩ = f () ⟨⟨out ++ str b, none⟩, cw⟩ :=
  M.bind_ok (wr_str b out cw)

/-- the three node types -/
def KnownType (t : Bytes) : Prop := t = b!"regular" ∨ t = b!"symlink" ∨ t = b!"directory"

/-- what `emitNode` writes for a header before it waits -/
def hdrBytes (h : Header) : Bytes :=
  str b!"(" ++ str b!"type" ++ str h.typ ++
    (if h.typ = b!"regular" then
      (if h.executable then str b!"executable" ++ str b!"" else []) ++ str b!"contents" ++
        putUint64 (toUint64 h.size)
     else if h.typ = b!"symlink" then str b!"target" ++ str h.linkTarget
     else [])

/-- the content writer set up for a header -/
def cwOf (h : Header) : CW :=
  if h.typ = b!"regular" then ⟨⟨0, toUint64 h.size, false⟩, false⟩ else ⟨⟨0, 0, false⟩, true⟩

theorem setContentWriter_ok (n : Nat) (out : Bytes) (cw : Option CW) :
    setContentWriter n ⟨⟨out, none⟩, cw⟩ =
      (.ok (), ⟨⟨out ++ putUint64 n, none⟩, some ⟨⟨0, n, false⟩, false⟩⟩) := by
  unfold setContentWriter newBytesWriter
  have : writeUint64 n ⟨out, none⟩ = (.ok (), ⟨out ++ putUint64 n, none⟩) := rfl
  rw [M.bind_ok this]
  rfl

theorem emitStart_ok (h : Header) (hk : KnownType h.typ) (out : Bytes) (cw : Option CW) :
    emitStart h ⟨⟨out, none⟩, cw⟩ = (.ok (), ⟨⟨out ++ hdrBytes h, none⟩, some (cwOf h)⟩) := by
  unfold emitStart hdrBytes cwOf
  rw [wr_bind, wr_bind, wr_bind]
  unfold typeRegular typeSymlink typeDirectory
  by_cases h1 : h.typ = b!"regular"
  · simp only [h1, if_true]
    by_cases h2 : h.executable = true
    · simp only [h2, if_true]
      rw [wr_bind, wr_bind', wr_bind, setContentWriter_ok]
      simp
    · simp only [h2, Bool.false_eq_true, if_false]
      rw [wr_bind, setContentWriter_ok]
      simp
  · by_cases h2 : h.typ = b!"symlink"
    · rw [if_neg h1, if_pos h2, wr_bind, wr_bind]
      simp [setDummyWriter, h1, h2]
    · have h3 : h.typ = b!"directory" := by
        rcases hk with hk | hk | hk
        · exact absurd hk h1
        · exact absurd hk h2
        · exact hk
      rw [if_neg h1, if_neg h2, if_pos h3]
      simp [setDummyWriter, h1, h2]

theorem entryStart_ok (n out : Bytes) (cw : Option CW) :
    entryStart n ⟨⟨out, none⟩, cw⟩ = (.ok (), ⟨⟨out ++ (str b!"entry" ++ str b!"(" ++ str b!"name" ++
      str n ++ str b!"node"), none⟩, cw⟩) := by
  unfold entryStart
  rw [wr_bind, wr_bind, wr_bind, wr_bind, wr_str]
  simp

/-! ### placing a header -/

theorem relResult_up (m : Bytes) (x : List Bytes) (n : Bytes) (y : List Bytes) (hn : Good n) :
    2 < (relResult (m :: x) (n :: y)).length ∧ (relResult (m :: x) (n :: y)).take 2 = b!".." := by
  unfold relResult
  rw [if_neg (by simp)]
  simp only [List.map_cons, List.cons_append]
  rw [join_cons (by simp)]
  have hne : join (x.map (fun _ => b!"..") ++ n :: y) b!"/" ≠ [] := by
    cases x with
    | nil =>
      simp only [List.map_nil, List.nil_append]
      cases y with
      | nil => simpa [join] using hn.1
      | cons z y => rw [join_cons (by simp)]; simp
    | cons w x =>
      rw [List.map_cons, List.cons_append, join_cons (by simp)]; simp
  generalize join (x.map (fun _ => b!"..") ++ n :: y) b!"/" = z at hne
  cases z with
  | nil => exact absurd rfl hne
  | cons c z => simp

theorem place_up {cur h : Header} {c : List Bytes} {m n : Bytes} {x y : List Bytes}
    (ha : ∀ z ∈ c ++ m :: x, Good z) (hb : ∀ z ∈ c ++ n :: y, Good z)
    (e1 : cur.path = absPath (c ++ m :: x)) (e2 : h.path = absPath (c ++ n :: y)) (hlt : m < n) :
    place cur h = .ok none := by
  unfold place
  rw [e1, e2, ordered_abs ha hb (by
    apply List.le_of_lt
    apply List.append_left_lt
    rw [List.cons_lt_cons_iff]; exact .inl hlt)]
  rw [rel_absPath ha hb, stripCommon_append]
  have hs : stripCommon (m :: x) (n :: y) = (m :: x, n :: y) := by
    unfold stripCommon
    rw [if_neg]
    intro e; subst e; exact absurd hlt (List.lt_irrefl _)
  rw [hs]
  have := relResult_up m x n y (hb n (by simp))
  simp only [Bool.not_true, Bool.false_eq_true, if_false]
  rw [if_pos ⟨this.1, this.2⟩]

theorem isValidNodeName_good {n : Bytes} (hg : Good n) (h0 : (0 : UInt8) ∉ n) :
    isValidNodeName n = true := (isValidNodeName_iff n).2 ⟨hg.2.2.2, h0⟩

theorem place_down {cur h : Header} {c : List Bytes} {n : Bytes}
    (hb : ∀ z ∈ c ++ [n], Good z) (e1 : cur.path = absPath c) (e2 : h.path = absPath (c ++ [n]))
    (hd : cur.typ = b!"directory") (hn : ¬ DotDot n) (h0 : (0 : UInt8) ∉ n) :
    place cur h = .ok (some n) := by
  have ha : ∀ z ∈ c, Good z := fun z hz => hb z (List.mem_append_left _ hz)
  unfold place
  rw [e1, e2, ordered_abs ha hb (List.le_append_left)]
  rw [rel_absPath ha hb]
  have hs := stripCommon_append c [] [n]
  rw [List.append_nil] at hs
  rw [hs]
  have : relResult (stripCommon [] [n]).1 (stripCommon [] [n]).2 = n := by
    simp [stripCommon, relResult, join]
  rw [this]
  simp only [Bool.not_true, Bool.false_eq_true, if_false]
  rw [if_neg (show ¬(n.length > 2 ∧ n.take 2 = b!"..") from hn),
    if_neg (by simpa [typeDirectory] using hd), if_neg (by simp [isValidNodeName_good (hb n (by simp)) h0])]

/-- two lists compared: equal, one a proper prefix of the other, or a first difference -/
theorem cases_common (a b : List Bytes) : a = b ∨ (∃ n y, b = a ++ n :: y) ∨ (∃ m x, a = b ++ m :: x) ∨
    ∃ c m x n y, a = c ++ m :: x ∧ b = c ++ n :: y ∧ m ≠ n := by
  induction a generalizing b with
  | nil =>
    cases b with
    | nil => exact .inl rfl
    | cons n y => exact .inr (.inl ⟨n, y, rfl⟩)
  | cons m x ih =>
    cases b with
    | nil => exact .inr (.inr (.inl ⟨m, x, rfl⟩))
    | cons n y =>
      by_cases hmn : m = n
      · subst hmn
        rcases ih y with rfl | ⟨n, z, rfl⟩ | ⟨m', z, rfl⟩ | ⟨c, m', x', n', y', rfl, rfl, hne⟩
        · exact .inl rfl
        · exact .inr (.inl ⟨n, z, rfl⟩)
        · exact .inr (.inr (.inl ⟨m', z, rfl⟩))
        · exact .inr (.inr (.inr ⟨m :: c, m', x', n', y', rfl, rfl, hne⟩))
      · exact .inr (.inr (.inr ⟨[], m, x, n, y, rfl, rfl, hmn⟩))

theorem place_ordered {cur h : Header} {r : Option Bytes} (hp : place cur h = .ok r) :
    pathIsLexicographicallyOrdered cur.path h.path = true := by
  unfold place at hp
  by_cases ho : pathIsLexicographicallyOrdered cur.path h.path = true
  · exact ho
  · simp [ho] at hp

/-- When `place` on clean paths gives a name. -/
theorem place_some {cur h : Header} {a b : List Bytes} {r : Bytes}
    (ha : ∀ z ∈ a, Good z) (hb : ∀ z ∈ b, Good z)
    (e1 : cur.path = absPath a) (e2 : h.path = absPath b) (hp : place cur h = .ok (some r))
    (hne : b ≠ a) :
    b = a ++ [r] ∧ ¬ DotDot r ∧ cur.typ = b!"directory" ∧ (0 : UInt8) ∉ r := by
  have ho := place_ordered hp
  unfold place at hp
  rw [ho] at hp
  simp only [Bool.not_true, Bool.false_eq_true, if_false] at hp
  rw [e1, e2, rel_absPath ha hb] at hp
  simp only [] at hp
  by_cases h1 : (relResult (stripCommon a b).1 (stripCommon a b).2).length > 2 ∧
      (relResult (stripCommon a b).1 (stripCommon a b).2).take 2 = b!".."
  · rw [if_pos h1] at hp; simp at hp
  rw [if_neg h1] at hp
  by_cases h2 : cur.typ = typeDirectory
  case neg => rw [if_pos h2] at hp; simp at hp
  rw [if_neg (by simpa using h2)] at hp
  by_cases h3 : isValidNodeName (relResult (stripCommon a b).1 (stripCommon a b).2) = true
  case neg => simp [h3] at hp
  simp only [h3, Bool.not_true, Bool.false_eq_true, if_false, Res.ok.injEq, Option.some.injEq] at hp
  rcases cases_common a b with rfl | ⟨n, y, rfl⟩ | ⟨m, x, rfl⟩ | ⟨c, m, x, n, y, rfl, rfl, hmn⟩
  · exact absurd rfl hne
  · have hs := stripCommon_append a [] (n :: y)
    rw [List.append_nil] at hs
    rw [hs] at hp h1 h3
    have e : relResult (stripCommon [] (n :: y)).1 (stripCommon [] (n :: y)).2 = join (n :: y) b!"/" := by
      simp [stripCommon, relResult]
    rw [e] at hp h1 h3
    obtain ⟨h4, h5⟩ := (isValidNodeName_iff _).1 h3
    cases y with
    | nil =>
      have : n = r := hp
      subst this
      exact ⟨rfl, h1, h2, h5⟩
    | cons z y =>
      rw [join_cons (by simp)] at h4
      simp at h4
  · rw [e1, e2] at ho
    exact absurd (ordered_prefix ha (List.prefix_append _ _) ho).symm hne
  · exfalso
    apply h1
    rw [stripCommon_append]
    have hs : stripCommon (m :: x) (n :: y) = (m :: x, n :: y) := by
      unfold stripCommon
      rw [if_neg hmn]
    rw [hs]
    exact relResult_up m x n y (hb n (by simp))

/-! ### contents -/

/-- The header `h` was written after `out`, and then the contents `c`. -/
structure Cur (h : Header) (c out : Bytes) (st : WState) : Prop where
  sink : st.sink = ⟨out ++ hdrBytes h ++ c, none⟩
  reg : h.typ = b!"regular" → st.cw = some ⟨⟨c.length, toUint64 h.size, false⟩, false⟩ ∧
    c.length ≤ toUint64 h.size
  other : h.typ ≠ b!"regular" → st.cw = some ⟨⟨0, 0, false⟩, true⟩ ∧ c = []

/-- the contents are complete -/
def Complete (h : Header) (c : Bytes) : Prop := h.typ = b!"regular" → c.length = toUint64 h.size

theorem contentClose_complete {h : Header} {c out : Bytes} {st : WState} (hc : Cur h c out st)
    (hf : Complete h c) :
    ∃ cw, contentClose st = (.ok (), ⟨⟨out ++ hdrBytes h ++ c ++ pad c.length, none⟩, cw⟩) := by
  rcases st with ⟨sink, cw⟩
  have hs := hc.sink
  simp only [] at hs
  by_cases hr : h.typ = b!"regular"
  · obtain ⟨h1, h2⟩ := hc.reg hr
    have hf := hf hr
    simp only [] at h1
    subst h1
    subst hs
    unfold contentClose BytesWriter.close
    simp only [Bool.false_eq_true, if_false]
    rw [if_neg (by simp [hf])]
    rw [(emits_writePadding (toUint64 h.size) ⟨out ++ hdrBytes h ++ c, none⟩).1 rfl]
    simp only []
    rw [hf]
    exact ⟨_, rfl⟩
  · obtain ⟨h1, h2⟩ := hc.other hr
    simp only [] at h1
    subst h1
    subst hs
    subst h2
    unfold contentClose BytesWriter.close
    simp only [if_true, Bool.false_eq_true, if_false]
    rw [if_neg (by simp)]
    have e := (emits_writePadding 0 ⟨[], none⟩).1 rfl
    rw [e]
    refine ⟨some ⟨⟨0, 0, true⟩, true⟩, by simp [pad]⟩

theorem contentClose_ok {h : Header} {c out : Bytes} {st st' : WState} (hc : Cur h c out st)
    (ho : contentClose st = (.ok (), st')) : Complete h c := by
  intro hr
  obtain ⟨h1, h2⟩ := hc.reg hr
  unfold contentClose BytesWriter.close at ho
  rw [h1] at ho
  simp only [Bool.false_eq_true, if_false] at ho
  by_cases e : c.length = toUint64 h.size
  · exact e
  · rw [if_pos e] at ho
    simp at ho

theorem write_cur {h : Header} {c out : Bytes} {w : Writer} (hc : Cur h c out w.st) (p : Bytes)
    (hsz : toUint64 h.size < 2 ^ 63) (hp : p.length < 2 ^ 63)
    (hfit : if h.typ = b!"regular" then c.length + p.length ≤ toUint64 h.size else p = []) :
    ∃ w', w.write p = (.ok (p.length, none), w') ∧ w'.phase = w.phase ∧ w'.closed = w.closed ∧
      Cur h (c ++ p) out w'.st := by
  rcases w with ⟨⟨sink, cw⟩, ph, cl⟩
  have hs := hc.sink
  simp only [] at hs
  by_cases hr : h.typ = b!"regular"
  · obtain ⟨h1, h2⟩ := hc.reg hr
    rw [if_pos hr] at hfit
    simp only [] at h1
    subst h1 hs
    unfold Writer.write BytesWriter.write
    simp only [Bool.false_eq_true, if_false]
    rw [if_neg (by rw [Nat.mod_eq_of_lt (by omega)]; omega)]
    simp only [Sink.write]
    refine ⟨_, rfl, rfl, rfl, ⟨by simp, ?_, fun h' => absurd hr h'⟩⟩
    intro _
    simp only [List.length_append]
    rw [Nat.mod_eq_of_lt (by omega)]
    exact ⟨rfl, hfit⟩
  · obtain ⟨h1, h2⟩ := hc.other hr
    rw [if_neg hr] at hfit
    simp only [] at h1
    subst h1 hs hfit h2
    refine ⟨_, rfl, rfl, rfl, ⟨by simp, fun h' => absurd h' hr, fun _ => ⟨rfl, rfl⟩⟩⟩

theorem write_good {h : Header} {c out : Bytes} {w : Writer} (hc : Cur h c out w.st) (p : Bytes)
    (hsz : toUint64 h.size < 2 ^ 63) (hp : p.length < 2 ^ 63)
    (hg : WOut.good (.write (w.write p).1) = true) :
    (w.write p).2.phase = w.phase ∧ (w.write p).2.closed = w.closed ∧
      Cur h (c ++ p) out (w.write p).2.st := by
  by_cases hfit : if h.typ = b!"regular" then c.length + p.length ≤ toUint64 h.size else p = []
  · obtain ⟨w', e, h1, h2, h3⟩ := write_cur hc p hsz hp hfit
    rw [e]; exact ⟨h1, h2, h3⟩
  · exfalso
    by_cases hr : h.typ = b!"regular"
    · obtain ⟨h1, h2⟩ := hc.reg hr
      rw [if_pos hr] at hfit
      unfold Writer.write BytesWriter.write at hg
      rw [h1] at hg
      simp only [Bool.false_eq_true, if_false] at hg
      rw [if_pos (by rw [Nat.mod_eq_of_lt (by omega)]; omega)] at hg
      simp [WOut.good] at hg
    · obtain ⟨h1, h2⟩ := hc.other hr
      rw [if_neg hr] at hfit
      unfold Writer.write BytesWriter.write at hg
      rw [h1] at hg
      simp only [if_true, Nat.zero_add] at hg
      have : 0 < p.length := List.length_pos_iff.2 hfit
      rw [if_pos (by rw [Nat.mod_eq_of_lt (by omega)]; omega)] at hg
      simp [WOut.good] at hg

/-- the leaf, or empty directory, for a header with contents -/
def leafTree (h : Header) (c : Bytes) : Tree :=
  if h.typ = b!"regular" then .regular h.executable c
  else if h.typ = b!"symlink" then .symlink h.linkTarget
  else .directory .nil

theorem leafTree_open {h : Header} {c : Bytes} (hk : KnownType h.typ) (hf : Complete h c)
    (h0 : h.typ ≠ b!"regular" → c = []) :
    (leafTree h c).openPart = hdrBytes h ++ c ++ pad c.length := by
  unfold leafTree hdrBytes
  by_cases hr : h.typ = b!"regular"
  · simp only [hr, if_true, Tree.openPart]
    rw [← hf hr]
    simp only [str_eq c, packet, List.append_assoc]
  · rw [h0 hr]
    by_cases h2 : h.typ = b!"symlink"
    · simp [h2, Tree.openPart, pad]
    · have h3 : h.typ = b!"directory" := by
        rcases hk with hk | hk | hk
        · exact absurd hk hr
        · exact absurd hk h2
        · exact hk
      simp [h3, Tree.openPart, Entries.nodes, pad]

theorem leafTree_entries {h : Header} {c : Bytes} (hk : KnownType h.typ)
    (hv : h.validate = .ok ()) (hs : 0 ≤ h.size ∧ h.size < 2 ^ 63) (hf : Complete h c)
    (h0 : h.typ ≠ b!"regular" → c = []) (p : Bytes) (hp : h.path = p) :
    ((leafTree h c).entriesAt p).map (fun e => (hdrOf e, e.contents)) = [(h, c)] := by
  subst hp
  have hv := (Props.C34_validate_iff h).1.1 hv
  unfold leafTree
  rcases h with ⟨hpath, typ, target, size, exec⟩
  simp only [] at *
  have hsz : c.length = toUint64 size → (c.length : Int) = size := by
    intro e; unfold toUint64 at e; omega
  rcases hk with rfl | rfl | rfl
  · have := hsz (hf rfl)
    have h1 : target = [] := hv.noTarget (.inl rfl)
    simp [Tree.entriesAt, hdrOf, h1, this]
  · have hc := h0 (by decide)
    subst hc
    have h1 : size = 0 := hv.noSize (.inr rfl)
    have h2 : exec = false := hv.noExec (.inr rfl)
    simp [Tree.entriesAt, hdrOf, h1, h2]
  · have hc := h0 (by decide)
    subst hc
    have h1 : size = 0 := hv.noSize (.inl rfl)
    have h2 : exec = false := hv.noExec (.inl rfl)
    have h3 : target = [] := hv.noTarget (.inr rfl)
    simp [Tree.entriesAt, Entries.entriesAt, hdrOf, h1, h2, h3]

end Verif.Nar
