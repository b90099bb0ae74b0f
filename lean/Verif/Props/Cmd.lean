import Verif.Spec.NarCalls
import Verif.Lemmas.NarIter
import Verif.Model.Cmd
import Verif.Spec.Cmd
import Verif.Props.Store

/-!
# The commands (C72, C73, C92), and that iterating over an archive ends (C91, C93)
-/

namespace Verif.Props
open Verif.Nar Verif.GoLib Verif.Spec Verif.Wire Verif.Cmd
open Verif.Derivation (escapes escaped)

/-! ## C91 -/

theorem newReader_left {s s' : Stream} {r : Reader} (h : newReader s = (.ok r, s')) :
    r.st.left ≤ s.data.length := by
  have hf := (fwd_expectString narVersionMagic1 (by simp [narVersionMagic1])).le s
  unfold newReader at h
  rcases he : expectString narVersionMagic1 s with ⟨_ | _ | _, s1⟩
  · rw [he] at h hf
    simp at h
    obtain ⟨rfl, rfl⟩ := h
    exact hf
  · rw [he] at h; simp at h
  · rw [he] at h; simp at h

/-- C91: whatever bytes are read and whatever calls are made, at most one header is returned for every 24 bytes
of input. -/
theorem C91_header_bound (s s' : Stream) (r : Reader) (hnew : newReader s = (.ok r, s')) (ops : List ROp) :
    (hdrsOf (r.run ops).1).length * 24 ≤ s.data.length :=
  Nat.le_trans (hdrs_bound (shrInv_new hnew) ops) (newReader_left hnew)

theorem all_hdrs {r : Reader} {ops : List ROp}
    (h : ∀ o, ROut.next o ∈ (r.run ops).1 → ∃ h, o = .ok h) :
    ops.count .next = (hdrsOf (r.run ops).1).length := by
  induction ops generalizing r with
  | nil => rfl
  | cons o ops ih =>
    have hi := ih (r := (r.op o).2) (fun x hx => h x (by simp only [Reader.run]; exact List.mem_cons_of_mem _ hx))
    simp only [Reader.run, hdrsOf, List.filterMap_cons] at hi ⊢
    cases o with
    | next =>
      obtain ⟨hd, he⟩ := h r.next.1 (by simp [Reader.run, Reader.op])
      simp only [Reader.op] at hi ⊢
      rw [he]
      simp [hi]
    | read k => simp only [Reader.op] at hi ⊢; simp [hi]
    | close => simp only [Reader.op] at hi ⊢; simp [hi]

theorem run_no_bad {s s' : Stream} {r : Reader} (hnew : newReader s = (.ok r, s')) (hterm : s.term ≠ outOfFuel)
    (ops : List ROp) (hcl : ROp.close ∉ ops) (o : Call Header) (ho : ROut.next o ∈ (r.run ops).1) :
    ∃ pre, ROp.close ∉ pre ∧ o = (r.run pre).2.next.1 := by
  have key : ∀ (ops pre : List ROp), ROp.close ∉ pre → ROp.close ∉ ops →
      ROut.next o ∈ ((r.run pre).2.run ops).1 → ∃ pre, ROp.close ∉ pre ∧ o = (r.run pre).2.next.1 := by
    intro ops
    induction ops with
    | nil => intro pre _ _ h; simp [Reader.run] at h
    | cons x ops ih =>
      intro pre hp hc h
      simp only [Reader.run, List.mem_cons] at h
      rcases h with h | h
      · cases x with
        | next =>
          simp only [Reader.op, ROut.next.injEq] at h
          exact ⟨pre, hp, h⟩
        | read k => simp [Reader.op] at h
        | close => simp [Reader.op] at h
      · refine ih (pre ++ [x]) ?_ (fun h => hc (List.mem_cons_of_mem _ h)) ?_
        · simp only [List.mem_append, List.mem_singleton, not_or]
          exact ⟨hp, fun h => hc (by rw [h]; simp)⟩
        · rw [run_append r pre [x]]
          simp only [Reader.run]
          exact h
  exact key ops [] (by simp) hcl ho

/-- C91: so the loop of calls to `Next` ends: in any sequence of calls of `Next` and `Read` with more calls of `Next` than
a 24th of the input has bytes, one returned an error. -/
theorem C91_ends (s s' : Stream) (r : Reader) (hnew : newReader s = (.ok r, s')) (hterm : s.term ≠ outOfFuel)
    (ops : List ROp) (hcl : ROp.close ∉ ops) (hlong : s.data.length < ops.count .next * 24) :
    ∃ e, ROut.next (.err e) ∈ (r.run ops).1 := by
  refine Classical.byContradiction fun hne => ?_
  have : ops.count .next = (hdrsOf (r.run ops).1).length := by
    refine all_hdrs ?_
    intro o ho
    obtain ⟨pre, hp, rfl⟩ := run_no_bad hnew hterm ops hcl o ho
    have := C79_next_total s s' r hnew pre hp hterm
    cases hn : (r.run pre).2.next.1 with
    | ok h => exact ⟨h, rfl⟩
    | err e => rw [hn] at ho; exact absurd ⟨e, ho⟩ hne
    | panic => exact absurd hn this.1
    | block => exact absurd hn this.2.1
  have := C91_header_bound s s' r hnew ops
  omega

example : ∃ r s', newReader ⟨sampleTree.nar, .eof⟩ = (.ok r, s') ∧ sampleTree.nar.length = 880 ∧
    (hdrsOf (r.run (List.replicate 37 .next)).1).length = 5 ∧ 880 < (List.replicate 37 ROp.next).count .next * 24 :=
  ⟨_, _, newReader_nar' _ _, by decide +kernel, by decide +kernel, by decide +kernel⟩

theorem snoc_next {r : Reader} {pre : List ROp} : (r.run (pre ++ [.next])).2 = (r.run pre).2.next.2 := by
  rw [run_append r pre [.next]]; rfl

theorem lsLoop_total {s s' : Stream} {r : Reader} (hnew : newReader s = (.ok r, s')) (hterm : s.term ≠ outOfFuel)
    (path : Bytes) (recursive : Bool) (fuel : Nat) (pre : List ROp) (hp : ROp.close ∉ pre)
    (hi : ShrInv (r.run pre).2) (hf : (r.run pre).2.st.left < fuel) :
    (lsLoop path recursive fuel (r.run pre).2).2 ≠ .panic ∧ (lsLoop path recursive fuel (r.run pre).2).2 ≠ .block ∧
      (lsLoop path recursive fuel (r.run pre).2).2 ≠ .err outOfFuel := by
  induction fuel generalizing pre with
  | zero => omega
  | succ fuel ih =>
    have ht := C79_next_total s s' r hnew pre hp hterm
    have hs := shrInv_next hi
    have ih' := ih (pre ++ [.next]) (by simp [hp])
    rw [snoc_next] at ih'
    unfold lsLoop
    rcases hn : (r.run pre).2.next with ⟨c, r'⟩
    rw [hn] at ht hs ih'
    cases c with
    | ok h =>
      have := ih' hs.1 (by have := hs.2.2 h rfl; omega)
      simp only []
      split
      · exact this
      · split
        · exact ⟨by simp, by simp, by simp⟩
        · exact this
    | err e =>
      simp only []
      split
      · exact ⟨by simp, by simp, by simp⟩
      · refine ⟨by simp, by simp, ?_⟩
        intro h
        cases h
        exact ht.2.2 rfl
    | panic => exact absurd rfl ht.1
    | block => exact absurd rfl ht.2.1

theorem newReader_total (s : Stream) : (newReader s).1 ≠ .panic ∧ (newReader s).1 ≠ .err outOfFuel := by
  have hf := (fwd_expectString narVersionMagic1 (by simp [narVersionMagic1])).noPanic s
  unfold newReader
  rcases he : expectString narVersionMagic1 s with ⟨_ | _ | _, s1⟩
  · simp
  · simp [outOfFuel]
  · rw [he] at hf; exact absurd rfl hf

/-- C91: `gonix nar ls` ends without panic or deadlock on a file with any contents. -/
theorem C91_ls_total (s : Stream) (hterm : s.term ≠ outOfFuel) (path : Bytes) (recursive : Bool) :
    (lsRun s path recursive).2 ≠ .panic ∧ (lsRun s path recursive).2 ≠ .block ∧
      (lsRun s path recursive).2 ≠ .err outOfFuel := by
  have h0 := newReader_total s
  unfold lsRun
  rcases hn : newReader s with ⟨_ | e | _, s1⟩
  · rename_i r
    exact lsLoop_total hn hterm path recursive (s.data.length + 1) [] (by simp) (shrInv_new hn)
      (Nat.lt_succ_of_le (newReader_left hn))
  · rw [hn] at h0
    refine ⟨by simp, by simp, ?_⟩
    intro h
    cases h
    exact h0.2 rfl
  · rw [hn] at h0; exact absurd rfl h0.1

/-- What `io.Copy` gets out of a reader. -/
theorem copyAll_eq (fuel : Nat) (r : Reader) (hf : r.st.rem < fuel) :
    copyAll fuel r = (r.st.stream.data.take r.st.rem,
      if r.st.rem ≤ r.st.stream.data.length ∨ r.st.stream.term = .eof then .ok () else .err r.st.stream.term) := by
  induction fuel generalizing r with
  | zero => omega
  | succ fuel ih =>
    unfold copyAll
    by_cases h0 : r.st.rem = 0
    · have e : r.read 32768 = (.err .eof, r) := by unfold Reader.read; rw [if_pos h0]
      rw [e, h0]
      simp
    · by_cases hd : r.st.stream.data = []
      · have e : r.read 32768 = (.err r.st.stream.term, r) := by
          unfold Reader.read
          rw [if_neg h0]
          simp only []
          rw [if_pos (by simp [hd])]
        rw [e, hd]
        simp only [List.take_nil, List.length_nil]
        split <;> simp [*]
      · have hne : r.st.stream.data.take (min 32768 r.st.rem) ≠ [] := by
          intro h
          rw [List.take_eq_nil_iff] at h
          rcases h with h | h
          · omega
          · exact hd h
        have e : r.read 32768 = (.ok (r.st.stream.data.take (min 32768 r.st.rem)),
            { r with st := ⟨⟨r.st.stream.data.drop (r.st.stream.data.take (min 32768 r.st.rem)).length, r.st.stream.term⟩,
              r.st.rem - (r.st.stream.data.take (min 32768 r.st.rem)).length, r.st.len⟩ }) := by
          unfold Reader.read
          rw [if_neg h0]
          simp only []
          rw [if_neg (by simp [hne])]
        rw [e]
        have hl := List.length_take (i := min 32768 r.st.rem) (l := r.st.stream.data)
        have hpos : 0 < (r.st.stream.data.take (min 32768 r.st.rem)).length := List.length_pos_iff.2 hne
        simp only []
        rw [ih _ (by simp only; omega)]
        simp only [List.length_drop]
        refine Prod.ext ?_ ?_
        · simp only []
          rw [hl]
          generalize r.st.stream.data = d at *
          generalize r.st.rem = m at *
          by_cases hm : min 32768 m ≤ d.length
          · rw [Nat.min_eq_left hm, ← List.take_append_drop (min 32768 m) (d.take m), List.take_take,
              Nat.min_eq_left (Nat.min_le_right _ _), List.drop_take]
          · have hl2 : min (min 32768 m) d.length = d.length := Nat.min_eq_right (by omega)
            rw [hl2, List.drop_length, List.take_nil, List.append_nil,
              List.take_of_length_le (by omega), List.take_of_length_le (by omega)]
        · simp only []
          have : (r.st.rem - (List.take (min 32768 r.st.rem) r.st.stream.data).length ≤
              r.st.stream.data.length - (List.take (min 32768 r.st.rem) r.st.stream.data).length) ↔
              r.st.rem ≤ r.st.stream.data.length := by omega
          simp only [this]

theorem catLoop_total {s s' : Stream} {r : Reader} (hnew : newReader s = (.ok r, s')) (hterm : s.term ≠ outOfFuel)
    (path : Bytes) (fuel : Nat) (pre : List ROp) (hp : ROp.close ∉ pre)
    (hi : ShrInv (r.run pre).2) (hf : (r.run pre).2.st.left < fuel) :
    (catLoop path fuel (r.run pre).2).2 ≠ .panic ∧ (catLoop path fuel (r.run pre).2).2 ≠ .block ∧
      (catLoop path fuel (r.run pre).2).2 ≠ .err outOfFuel := by
  induction fuel generalizing pre with
  | zero => omega
  | succ fuel ih =>
    have ht := C79_next_total s s' r hnew pre hp hterm
    have hs := shrInv_next hi
    have hr := rinv_run (rinv_new hnew) pre
    have ih' := ih (pre ++ [.next]) (by simp [hp])
    rw [snoc_next] at ih'
    unfold catLoop
    rcases hn : (r.run pre).2.next with ⟨c, r'⟩
    rw [hn] at ht hs ih'
    cases c with
    | ok h =>
      obtain ⟨_, _, st, k, hres, _, rfl⟩ := next_ok hn
      obtain ⟨n, hok, _⟩ := resume_ok hr _ hres
      simp only []
      split
      · split
        · exact ⟨by simp, by simp, by simp [outOfFuel]⟩
        · have hc := hok.1.content.1
          rw [copyAll_eq _ _ (by simp only; omega)]
          simp only [hok.1.term]
          split
          · exact ⟨by simp, by simp, by simp⟩
          · exact ⟨by simp, by simp, by simpa using hterm⟩
      · exact ih' hs.1 (by have := hs.2.2 h rfl; omega)
    | err e =>
      refine ⟨by simp, by simp, ?_⟩
      simp only []
      split
      · simp [outOfFuel]
      · intro h
        cases h
        exact ht.2.2 rfl
    | panic => exact absurd rfl ht.1
    | block => exact absurd rfl ht.2.1

/-- C91: `gonix nar cat` ends without panic or deadlock on a file with any contents. -/
theorem C91_cat_total (s : Stream) (hterm : s.term ≠ outOfFuel) (path : Bytes) :
    (catRun s path).2 ≠ .panic ∧ (catRun s path).2 ≠ .block ∧ (catRun s path).2 ≠ .err outOfFuel := by
  have h0 := newReader_total s
  unfold catRun
  rcases hn : newReader s with ⟨_ | e | _, s1⟩
  · rename_i r
    exact catLoop_total hn hterm path (s.data.length + 1) [] (by simp) (shrInv_new hn)
      (Nat.lt_succ_of_le (newReader_left hn))
  · rw [hn] at h0
    refine ⟨by simp, by simp, ?_⟩
    intro h
    cases h
    exact h0.2 rfl
  · rw [hn] at h0; exact absurd rfl h0.1

/-! ## C72 -/

theorem formatUint_decimal (n : Nat) : formatUint n = decimal n := by
  induction n using Nat.strongRecOn with
  | ind n ih =>
    have hd : ∀ k, k < 10 → UInt8.ofNat (48 + k) = UInt8.ofNat (Nat.digitChar k).toNat := by decide
    unfold formatUint decimal
    split
    · rename_i h
      rw [Nat.toDigits_of_lt_base h]
      simp only [List.map_cons, List.map_nil]
      rw [hd n h]
    · rename_i h
      rw [Nat.toDigits_of_base_le (by decide) (by omega), List.map_append, ih (n / 10) (by omega)]
      simp only [List.map_cons, List.map_nil, decimal]
      rw [hd (n % 10) (by omega)]

mutual
theorem entry_kinds (t : Tree) (p : Bytes) : ∀ e ∈ t.entriesAt p, e.kind = b!"regular" ∨ e.kind = b!"symlink" ∨ e.kind = b!"directory" := by
  cases t with
  | regular ex c => simp [Tree.entriesAt]
  | symlink t => simp [Tree.entriesAt]
  | directory es =>
    intro e he
    rw [Tree.entriesAt] at he
    rcases List.mem_cons.1 he with rfl | he
    · simp
    · exact entry_kinds' es p e he
theorem entry_kinds' (es : Entries) (p : Bytes) : ∀ e ∈ es.entriesAt p, e.kind = b!"regular" ∨ e.kind = b!"symlink" ∨ e.kind = b!"directory" := by
  cases es with
  | nil => simp [Entries.entriesAt]
  | cons n t es =>
    intro e he
    rw [Entries.entriesAt] at he
    rcases List.mem_append.1 he with he | he
    · exact entry_kinds t _ e he
    · exact entry_kinds' es p e he
end

/-- C72: the line printed for an entry. -/
theorem C72_line (e : Entry) (hk : e.kind = b!"regular" ∨ e.kind = b!"symlink" ∨ e.kind = b!"directory") :
    headerLineString (hdrOf e) = e.line := by
  have hsize : (hdrOf e).size > 0 ↔ e.contents ≠ [] := by
    simp only [hdrOf, ← List.length_pos_iff]; omega
  have hm : modeString (hdrOf e).mode = (if e.kind = b!"symlink" then b!"Lrwxrwxrwx"
     else if e.kind = b!"directory" ∨ e.executable then b!"-r-xr-xr-x" else b!"-r--r--r--") := by
    have e1 : (hdrOf e).mode = (⟨[], e.kind, [], 0, e.executable⟩ : Header).mode := rfl
    rw [e1]
    rcases hk with h | h | h <;> rw [h] <;> cases e.executable <;> decide +kernel
  unfold headerLineString Entry.line
  rw [hm]
  have e2 : (hdrOf e).size.toNat = e.contents.length := by simp [hdrOf]
  have e3 : (hdrOf e).linkTarget = e.target := rfl
  have e4 : (hdrOf e).path = e.path := rfl
  rw [e2, e3, e4, formatUint_decimal]
  have f1 : (if (hdrOf e).size > 0 then b!" (" ++ decimal e.contents.length ++ b!" bytes)" else []) =
      (if e.contents = [] then [] else b!" (" ++ decimal e.contents.length ++ b!" bytes)") := by
    by_cases h : e.contents = []
    · rw [if_neg (by rw [hsize]; simp [h]), if_pos h]
    · rw [if_pos (hsize.2 h), if_neg h]
  have f2 : (if e.target ≠ [] then b!" -> " ++ e.target else []) = (if e.target = [] then [] else b!" -> " ++ e.target) := by
    by_cases h : e.target = [] <;> simp [h]
  rw [f1, f2]

theorem shown_eq (path : Bytes) (recursive : Bool) (e : Entry) : e.shown path recursive =
    (hasPrefix (hdrOf e).path path && (recursive || !contains ((hdrOf e).path.drop path.length) b!"/")) := by
  unfold Entry.shown hasPrefix
  have : contains (List.drop path.length e.path) b!"/" = (List.drop path.length e.path).contains 47 := by
    rw [Bool.eq_iff_iff, contains_singleton, List.contains_iff_mem]
  have e4 : (hdrOf e).path = e.path := rfl
  rw [e4, this]

/-- The loop on an archive whose headers are those of `es`. -/
theorem lsLoop_at (path : Bytes) (recursive : Bool) (es : List Entry)
    (hk : ∀ e ∈ es, e.kind = b!"regular" ∨ e.kind = b!"symlink" ∨ e.kind = b!"directory") (fuel : Nat) (r : Reader) (h : At es r)
    (hf : es.length < fuel) :
    lsLoop path recursive fuel r =
      (((es.takeWhile fun e => hasPrefix e.path path || !strLt path e.path).filter (·.shown path recursive)).flatMap Entry.line, .ok ()) := by
  induction es generalizing fuel r with
  | nil =>
    cases fuel with
    | zero => simp at hf
    | succ fuel =>
      obtain ⟨r1, hr⟩ := at_end h
      unfold lsLoop
      rw [hr]
      simp
  | cons e es ih =>
    cases fuel with
    | zero => simp at hf
    | succ fuel =>
      obtain ⟨r1, tail, hr, h1, _, _⟩ := at_next h
      have ih' := ih (fun e he => hk e (List.mem_cons_of_mem _ he)) fuel r1 h1 (by simp at hf; omega)
      unfold lsLoop
      rw [hr]
      simp only []
      have e4 : (hdrOf e).path = e.path := rfl
      rw [List.takeWhile_cons]
      have hl := C72_line e (hk e (by simp))
      have hs := shown_eq path recursive e
      rw [e4] at hs ⊢
      by_cases hp : hasPrefix e.path path = true
      · have hw : (hasPrefix e.path path || !strLt path e.path) = true := by rw [hp]; rfl
        rw [if_pos hp, if_pos hw, ih', List.filter_cons, hs, hp, hl]
        simp only [Bool.true_and]
        by_cases hq : (recursive || !contains (e.path.drop path.length) b!"/") = true
        · rw [if_pos hq, if_pos hq, List.flatMap_cons]
        · rw [if_neg hq, if_neg hq]; rfl
      · rw [if_neg hp]
        by_cases hlt : strLt path e.path = true
        · have hw : ¬ (hasPrefix e.path path || !strLt path e.path) = true := by simp [hp, hlt]
          rw [if_pos hlt, if_neg hw]
          rfl
        · have hw : (hasPrefix e.path path || !strLt path e.path) = true := by simp [hlt]
          rw [if_neg hlt, if_pos hw, ih', List.filter_cons, hs]
          rw [if_neg (by simp [hp])]

/-- C72 as stated is false: `/` comes after `-` in the order of bytes, so in a tree with `a/x` and `a-b` the listing of
`/a-b` ends before that entry is reached. -/
theorem C72_refuted : ∃ t : Tree, t.All NameRd NodeRd ∧ ∃ e ∈ t.entriesAt b!"/", e.path = b!"/a-b" ∧
    lsRun ⟨t.nar, .eof⟩ b!"/a-b" true = ([], .ok ()) := by
  refine ⟨.directory (.cons b!"a" (.directory (.cons b!"x" (.symlink b!"y") .nil)) (.cons b!"a-b" (.symlink b!"z") .nil)), ?_,
    ⟨b!"/a-b", b!"symlink", false, b!"z", []⟩, by decide +kernel, rfl, by decide +kernel⟩
  simp only [Tree.All, Entries.All, NameRd, NodeRd, Entries.names]
  decide

/-- C72 for every PATH: no line is printed but those of matching entries, in the order of the archive, each at most
once, and the command succeeds. -/
theorem C72_sound_partial (t : Tree) (ht : t.All NameRd NodeRd) (rest : Bytes) (e : Err) (path : Bytes) (recursive : Bool) :
    ∃ es : List Entry, es.Sublist ((t.entriesAt b!"/").filter (·.shown path recursive)) ∧
      lsRun ⟨t.nar ++ rest, e⟩ path recursive = (es.flatMap Entry.line, .ok ()) := by
  refine ⟨((t.entriesAt b!"/").takeWhile fun e => hasPrefix e.path path || !strLt path e.path).filter
    (·.shown path recursive), ?_, ?_⟩
  rotate_left
  · unfold lsRun
    rw [newReader_nar]
    exact lsLoop_at path recursive _ (entry_kinds t _) _ _ (at_new t ht rest e)
      (by have := entries_le_node t b!"/"; simp [Tree.nar]; omega)
  · exact (List.takeWhile_sublist _).filter _

/-- C72, exactly, for every PATH: the command looks at the entries in the order of the archive, stops before the first one that does not
start with PATH and is greater than it (byte by byte), and prints the matching ones among those before. -/
theorem C72_exact (t : Tree) (ht : t.All NameRd NodeRd) (rest : Bytes) (e : Err) (path : Bytes) (recursive : Bool) :
    lsRun ⟨t.nar ++ rest, e⟩ path recursive =
      ((((t.entriesAt b!"/").takeWhile fun e => hasPrefix e.path path || !strLt path e.path).filter
        (·.shown path recursive)).flatMap Entry.line, .ok ()) := by
  unfold lsRun
  rw [newReader_nar]
  exact lsLoop_at path recursive _ (entry_kinds t _) _ _ (at_new t ht rest e)
    (by have := entries_le_node t b!"/"; simp [Tree.nar]; omega)

theorem mem_takeWhile_iff {α : Type} (p : α → Bool) (pre post : List α) (x : α) (hx : p x = true) :
    (pre.all p = true ↔ (pre ++ x :: post).takeWhile p = pre ++ x :: post.takeWhile p) ∧
    (pre.all p = false → (pre ++ x :: post).takeWhile p = pre.takeWhile p) := by
  induction pre with
  | nil => simp [List.takeWhile_cons_of_pos, hx]
  | cons y ys ih =>
    by_cases hy : p y = true
    · simp only [List.all_cons, hy, Bool.true_and, List.cons_append, List.takeWhile_cons_of_pos, List.cons.injEq, true_and]
      exact ⟨ih.1, fun h => ih.2 h⟩
    · simp [List.takeWhile_cons_of_neg, hy]

/-- C72, which lines are lost: the entries of the archive being `pre`, a matching entry `en`, `post`, the line of `en` and all later lines are missing exactly
if some entry of `pre` does not start with PATH but is greater than it; otherwise it is printed, after the lines
for `pre`. -/
theorem C72_lost (t : Tree) (ht : t.All NameRd NodeRd) (rest : Bytes) (e : Err) (path : Bytes) (recursive : Bool)
    (pre post : List Entry) (en : Entry) (hes : t.entriesAt b!"/" = pre ++ en :: post) (hs : en.shown path recursive = true) :
    ((∃ x ∈ pre, ¬ path <+: x.path ∧ strLt path x.path = true) →
      (lsRun ⟨t.nar ++ rest, e⟩ path recursive).1 <+: (pre.filter (·.shown path recursive)).flatMap Entry.line) ∧
    ((¬ ∃ x ∈ pre, ¬ path <+: x.path ∧ strLt path x.path = true) →
      (pre.filter (·.shown path recursive)).flatMap Entry.line ++ en.line <+: (lsRun ⟨t.nar ++ rest, e⟩ path recursive).1) := by
  have hpre : ∀ x : Entry, hasPrefix x.path path = true ↔ path <+: x.path := fun x => by
    simp [hasPrefix, List.isPrefixOf_iff_prefix]
  have hen : (hasPrefix en.path path || !strLt path en.path) = true := by
    have : hasPrefix en.path path = true := by
      unfold Entry.shown at hs
      simp only [Bool.and_eq_true] at hs
      first
        | exact hs.1
        | exact (hpre en).2 (by simpa using hs.1)
    rw [this]; rfl
  have hall : (∃ x ∈ pre, ¬ path <+: x.path ∧ strLt path x.path = true) ↔
      pre.all (fun e => hasPrefix e.path path || !strLt path e.path) = false := by
    rw [List.all_eq_false]
    constructor
    · rintro ⟨x, hx, h1, h2⟩
      refine ⟨x, hx, ?_⟩
      rw [← hpre] at h1
      simp [h1, h2]
    · rintro ⟨x, hx, h⟩
      refine ⟨x, hx, ?_⟩
      rw [← hpre]
      simpa using h
  rw [C72_exact t ht, hes]
  obtain ⟨m1, m2⟩ := mem_takeWhile_iff (fun e : Entry => hasPrefix e.path path || !strLt path e.path) pre post en hen
  rw [hall]
  refine ⟨fun h => ?_, fun h => ?_⟩
  · rw [m2 h]
    have : pre.takeWhile (fun e => hasPrefix e.path path || !strLt path e.path) <+: pre := List.takeWhile_prefix _
    obtain ⟨tl, htl⟩ := this
    refine ⟨(tl.filter (·.shown path recursive)).flatMap Entry.line, ?_⟩
    have := congrArg (fun l : List Entry => (l.filter (·.shown path recursive)).flatMap Entry.line) htl
    simp only [List.filter_append, List.flatMap_append] at this
    exact this
  · rw [m1.1 (by cases hb : pre.all (fun e => hasPrefix e.path path || !strLt path e.path) with | true => rfl | false => exact absurd hb h), List.filter_append, List.filter_cons_of_pos hs, List.flatMap_append, List.flatMap_cons]
    simp only [← List.append_assoc]
    exact List.prefix_append _ _

/-- both cases of `C72_lost` occur: the entries `/`, `/a`, `/a/x`, `/a-b`, and `/a-b` is lost because of `/a/x` -/
example : ∃ t : Tree, t.All NameRd NodeRd ∧ ∃ pre en post, t.entriesAt b!"/" = pre ++ en :: post ∧ en.shown b!"/a-b" true = true ∧
    ∃ x ∈ pre, ¬ b!"/a-b" <+: x.path ∧ strLt b!"/a-b" x.path = true := by
  refine ⟨.directory (.cons b!"a" (.directory (.cons b!"x" (.symlink b!"y") .nil)) (.cons b!"a-b" (.symlink b!"z") .nil)), ?_,
    [⟨b!"/", b!"directory", false, [], []⟩, ⟨b!"/a", b!"directory", false, [], []⟩, ⟨b!"/a/x", b!"symlink", false, b!"y", []⟩],
    ⟨b!"/a-b", b!"symlink", false, b!"z", []⟩, [], by decide +kernel, by decide, ?_⟩
  · simp only [Tree.All, Entries.All, NameRd, NodeRd, Entries.names]
    decide
  · decide +kernel

/-- C72: exactly the matching entries are printed when PATH has no byte below the slash (`-`, `.`, `+`, space, `"`,
…). (Missing: the other PATHs, for which it is false; entries called `)`, see C23.) -/
theorem C72_ls_partial (t : Tree) (ht : t.All NameRd NodeRd) (rest : Bytes) (e : Err) (path : Bytes) (recursive : Bool)
    (hp : ∀ c ∈ path, 47 ≤ c) :
    lsRun ⟨t.nar ++ rest, e⟩ path recursive =
      (((t.entriesAt b!"/").filter (·.shown path recursive)).flatMap Entry.line, .ok ()) := by
  unfold lsRun
  rw [newReader_nar]
  simp only []
  rw [lsLoop_at path recursive _ (entry_kinds t _) _ _ (at_new t ht rest e)
    (by have := entries_le_node t b!"/"; simp [Tree.nar]; omega)]
  have key : ∀ es : List Entry, es.Pairwise (fun a b => slashLe a.path b.path = true ∧ a.path ≠ b.path) →
      (es.takeWhile fun e => hasPrefix e.path path || !strLt path e.path).filter (·.shown path recursive) =
      es.filter (·.shown path recursive) := by
    intro es hpw
    induction es with
    | nil => rfl
    | cons a es ih =>
      rw [List.pairwise_cons] at hpw
      rw [List.takeWhile_cons]
      split
      · rw [List.filter_cons, List.filter_cons, ih hpw.2]
      · rename_i hc
        simp only [Bool.or_eq_true, not_or, Bool.not_eq_true', Bool.not_eq_false] at hc
        obtain ⟨h1, h2⟩ := hc
        have h1' : ¬ path <+: a.path := by
          intro h; exact h1 (List.isPrefixOf_iff_prefix.2 h)
        rw [strLt_iff] at h2
        symm
        rw [List.filter_nil, List.filter_eq_nil_iff]
        intro b hb hs
        have hb' : path <+: b.path := by
          unfold Entry.shown at hs
          rw [Bool.and_eq_true] at hs
          exact List.isPrefixOf_iff_prefix.1 hs.1
        rcases List.mem_cons.1 hb with rfl | hb
        · exact h1' hb'
        · exact slashLe_prefix hp h1' h2 (hpw.1 b hb).1 hb'
  rw [key _ (tree_slashLe t ht)]

example : sampleTree.All NameRd NodeRd ∧ (∀ c ∈ b!"/b", 47 ≤ c) ∧
    lsRun ⟨sampleTree.nar, .eof⟩ b!"/b" true = (b!"-r-xr-xr-x /b\nLrwxrwxrwx /b/x -> ../a.txt\n-r-xr-xr-x /bin (2 bytes)\n", .ok ()) ∧
    lsRun ⟨sampleTree.nar, .eof⟩ b!"/b" false = (b!"-r-xr-xr-x /b\n-r-xr-xr-x /bin (2 bytes)\n", .ok ()) :=
  ⟨sampleTree_ok, by decide, by decide +kernel, by decide +kernel⟩

/-! ## C73 -/

theorem catLoop_at (path : Bytes) (es : List Entry) (fuel : Nat) (r : Reader) (h : At es r) (hf : es.length < fuel) :
    catLoop path fuel r =
      match es.find? (fun e => e.path = path) with
      | none => ([], .err (.msg "requested path not found"))
      | some e => if e.kind = b!"regular" then (e.contents, .ok ()) else ([], .err (.msg "unable to cat non-regular file")) := by
  induction es generalizing fuel r with
  | nil =>
    cases fuel with
    | zero => simp at hf
    | succ fuel =>
      obtain ⟨r1, hr⟩ := at_end h
      unfold catLoop
      rw [hr]
      simp
  | cons e es ih =>
    cases fuel with
    | zero => simp at hf
    | succ fuel =>
      obtain ⟨r1, tail, hr, h1, h2, h3⟩ := at_next h
      have ih' := ih fuel r1 h1 (by simp at hf; omega)
      unfold catLoop
      rw [hr]
      simp only []
      have e4 : (hdrOf e).path = e.path := rfl
      have e5 : (hdrOf e).typ = e.kind := rfl
      rw [List.find?_cons, e4, e5]
      by_cases hp : e.path = path
      · rw [if_pos hp]
        simp only [hp, decide_true]
        by_cases hk : e.kind = b!"regular"
        · rw [if_neg (by simp [hk, typeRegular]), if_pos hk, copyAll_eq _ _ (by rw [h3]; simp [hdrOf]), h2, h3]
          simp
        · rw [if_pos (by exact hk), if_neg hk]
      · rw [if_neg hp, ih']
        simp only [hp, decide_false]

/-- C73 as stated is false: the archive may be cut off within the file, and `cat` prints what there is and succeeds. -/
theorem C73_refuted : ∃ (t : Tree) (n : Nat), t.All NameRd NodeRd ∧ n < t.nar.length ∧
    catRun ⟨t.nar.take n, .eof⟩ b!"/a.txt" = (b!"hello", .ok ()) ∧
    ∃ e ∈ t.entriesAt b!"/", e.path = b!"/a.txt" ∧ e.contents = b!"hello, world" :=
  ⟨sampleTree, 237, sampleTree_ok, by decide +kernel, by decide +kernel,
    ⟨b!"/a.txt", b!"regular", false, [], b!"hello, world"⟩, by decide +kernel, rfl, rfl⟩

/-- C73, for complete archives: if PATH is a regular file its contents are printed exactly; if it is a directory or
symlink, or there is no such entry, the command fails and prints nothing. (Missing: truncated archives, see
C73_refuted; entries called `)`, see C23.) -/
theorem C73_cat_partial (t : Tree) (ht : t.All NameRd NodeRd) (rest : Bytes) (e : Err) (path : Bytes) :
    (∀ en ∈ t.entriesAt b!"/", en.path = path → en.kind = b!"regular" →
      catRun ⟨t.nar ++ rest, e⟩ path = (en.contents, .ok ())) ∧
    ((¬ ∃ en ∈ t.entriesAt b!"/", en.path = path ∧ en.kind = b!"regular") →
      ∃ er, catRun ⟨t.nar ++ rest, e⟩ path = ([], .err er)) := by
  have hcat : catRun ⟨t.nar ++ rest, e⟩ path = catLoop path ((t.nar ++ rest).length + 1) ⟨⟨⟨t.node ++ rest, e⟩, 0, 0⟩, .start, none, [], false⟩ := by
    unfold catRun
    rw [newReader_nar]
  rw [hcat, catLoop_at path _ _ _ (at_new t ht rest e) (by have := entries_le_node t b!"/"; simp [Tree.nar]; omega)]
  have huniq : ∀ a ∈ t.entriesAt b!"/", ∀ b ∈ t.entriesAt b!"/", a.path = b.path → a = b := by
    have hpw := tree_slashLe t ht
    revert hpw
    generalize t.entriesAt b!"/" = es
    intro hpw
    induction es with
    | nil => simp
    | cons x es ih =>
      rw [List.pairwise_cons] at hpw
      intro a ha b hb hab
      rcases List.mem_cons.1 ha with rfl | ha
      · rcases List.mem_cons.1 hb with rfl | hb
        · rfl
        · exact absurd hab (hpw.1 b hb).2
      · rcases List.mem_cons.1 hb with h | hb
        · rw [h] at hab; exact absurd hab.symm (hpw.1 a ha).2
        · exact ih hpw.2 a ha b hb hab
  constructor
  · intro en hen hp hk
    cases hf : (t.entriesAt b!"/").find? (fun e => decide (e.path = path)) with
    | none =>
      have := List.find?_eq_none.1 hf en hen
      simp [hp] at this
    | some x =>
      have hx := List.find?_some hf
      have : x = en := huniq x (List.mem_of_find?_eq_some hf) en hen (by simp at hx; rw [hx, hp])
      subst this
      simp only []
      rw [if_pos hk]
  · intro hne
    cases hf : (t.entriesAt b!"/").find? (fun e => decide (e.path = path)) with
    | none => exact ⟨_, rfl⟩
    | some x =>
      have hx := List.find?_some hf
      simp only []
      rw [if_neg (fun hk => hne ⟨x, List.mem_of_find?_eq_some hf, by simpa using hx, hk⟩)]
      exact ⟨_, rfl⟩

example : catRun ⟨sampleTree.nar ++ [1, 2, 3], .io⟩ b!"/bin" = (b!"#!", .ok ()) ∧
    catRun ⟨sampleTree.nar, .eof⟩ b!"/b" = ([], .err (.msg "unable to cat non-regular file")) ∧
    catRun ⟨sampleTree.nar, .eof⟩ b!"/c" = ([], .err (.msg "requested path not found")) :=
  ⟨by decide +kernel, by decide +kernel, by decide +kernel⟩

/-! ## C93 -/

/-- C93 as stated is false: when the archive is cut off within a file, `Read` reports the regular end of the contents,
`io.EOF`, after fewer bytes than the header announced. -/
theorem C93_refuted : ∃ (n : Nat) (r : Reader) (s' : Stream), newReader ⟨sampleTree.nar.take n, .eof⟩ = (.ok r, s') ∧
    (r.run [.next, .next, .read 100, .read 100]).1 = [.next (.ok ⟨b!"/", b!"directory", [], 0, false⟩),
      .next (.ok ⟨b!"/a.txt", b!"regular", [], 12, false⟩), .read (.ok b!"hello"), .read (.err .eof)] :=
  ⟨237, ⟨⟨⟨(sampleTree.node ++ []).take 213, .eof⟩, 0, 0⟩, .start, none, [], false⟩, ⟨(sampleTree.node ++ []).take 213, .eof⟩, by
    unfold newReader Tree.nar
    have e1 : (str b!"nix-archive-1" ++ sampleTree.node).take 237 = str b!"nix-archive-1" ++ sampleTree.node.take 213 := by
      decide +kernel
    have := expectString_str b!"nix-archive-1" (sampleTree.node.take 213) .eof (by simp)
    unfold narVersionMagic1
    rw [e1, this, List.append_nil], by decide +kernel⟩

example : ∃ r s', newReader ⟨sampleTree.nar, .eof⟩ = (.ok r, s') ∧
    (r.run [.next, .next, .read 7, .read 0, .read 100, .read 1]).1.drop 2 =
      [.read (.ok b!"hello, "), .read (.ok []), .read (.ok b!"world"), .read (.err .eof)] :=
  ⟨_, _, newReader_nar' _ _, by decide +kernel⟩

theorem reads_facts (ks : List Nat) (r : Reader) :
    delivered (r.reads ks).1 <+: r.st.stream.data ∧
    (r.reads ks).2.st.stream.data = r.st.stream.data.drop (delivered (r.reads ks).1).length ∧
    (r.reads ks).2.st.stream.term = r.st.stream.term ∧
    (delivered (r.reads ks).1).length + (r.reads ks).2.st.rem = r.st.rem ∧
    (.err .eof ∈ (r.reads ks).1 → (r.reads ks).2.st.rem = 0 ∨ (r.reads ks).2.st.stream = ⟨[], .eof⟩) := by
  induction ks generalizing r with
  | nil => simp [Reader.reads, delivered]
  | cons k ks ih =>
    obtain ⟨i1, i2, i3, i4, i5⟩ := ih (r.read k).2
    unfold Reader.reads
    simp only []
    by_cases h0 : r.st.rem = 0
    · have e : r.read k = (.err .eof, r) := by unfold Reader.read; rw [if_pos h0]
      rw [e] at i1 i2 i3 i4 i5 ⊢
      simp only [delivered]
      refine ⟨i1, i2, i3, i4, fun _ => .inl (by simp only [] at i4; omega)⟩
    · by_cases hd : r.st.stream.data.take (min k r.st.rem) = [] ∧ k ≠ 0
      · have e : r.read k = (.err r.st.stream.term, r) := by
          unfold Reader.read
          rw [if_neg h0]
          simp only []
          rw [if_pos hd]
        have hnil : r.st.stream.data = [] := by
          rw [List.take_eq_nil_iff] at hd
          rcases hd.1 with h | h
          · omega
          · exact h
        rw [e] at i1 i2 i3 i4 i5 ⊢
        simp only [delivered]
        refine ⟨i1, i2, i3, i4, ?_⟩
        intro h
        rcases List.mem_cons.1 h with h | h
        · right
          simp only [Res.err.injEq] at h
          have e1 : (r.reads ks).2.st.stream.data = [] := by rw [i2, hnil]; simp
          have e2 : (r.reads ks).2.st.stream.term = .eof := by rw [i3, h]
          cases hs : (r.reads ks).2.st.stream
          rw [hs] at e1 e2
          simp_all
        · exact i5 h
      · have e : r.read k = (.ok (r.st.stream.data.take (min k r.st.rem)),
            { r with st := ⟨⟨r.st.stream.data.drop (r.st.stream.data.take (min k r.st.rem)).length, r.st.stream.term⟩,
              r.st.rem - (r.st.stream.data.take (min k r.st.rem)).length, r.st.len⟩ }) := by
          unfold Reader.read
          rw [if_neg h0]
          simp only []
          rw [if_neg hd]
        rw [e] at i1 i2 i3 i4 i5 ⊢
        have hl := List.length_take (i := min k r.st.rem) (l := r.st.stream.data)
        simp only [delivered, List.length_append] at i1 i2 i3 i4 i5 ⊢
        refine ⟨?_, ?_, i3, by omega, ?_⟩
        · obtain ⟨z, hz⟩ := i1
          refine ⟨z, ?_⟩
          rw [List.append_assoc, hz, hl]
          by_cases hm : min k r.st.rem ≤ r.st.stream.data.length
          · rw [Nat.min_eq_left hm, List.take_append_drop]
          · have hl2 : min (min k r.st.rem) r.st.stream.data.length = r.st.stream.data.length := Nat.min_eq_right (by omega)
            rw [hl2, List.drop_length, List.append_nil, List.take_of_length_le (by omega)]
        · rw [i2, List.drop_drop]
        · intro h
          rcases List.mem_cons.1 h with h | h
          · cases h
          · exact i5 h

/-- C93, what holds: after any `Next` that returned a header, `Read` calls with any buffer sizes deliver the following bytes of
the archive, never more than the announced size, and `io.EOF` only if all of them were delivered or the archive
has ended. (Missing: that the latter is reported as an error, which is false.) -/
theorem C93_read_partial (s s' : Stream) (r r1 : Reader) (hnew : newReader s = (.ok r, s')) (ops : List ROp)
    (h : Header) (hn : (r.run ops).2.next = (.ok h, r1)) (ks : List Nat) :
    delivered (r1.reads ks).1 <+: r1.st.stream.data ∧ ((delivered (r1.reads ks).1).length : Int) ≤ h.size ∧
    (.err .eof ∈ (r1.reads ks).1 → ((delivered (r1.reads ks).1).length : Int) = h.size ∨
      ((r1.reads ks).2.st.stream = ⟨[], .eof⟩ ∧ s.term = .eof)) := by
  have hr := rinv_run (rinv_new hnew) ops
  obtain ⟨_, _, st, k, hres, _, rfl⟩ := next_ok hn
  obtain ⟨n, hok, _⟩ := resume_ok hr _ hres
  have hc := hok.1.content.1
  have htm := hok.1.term
  obtain ⟨i1, i2, i3, i4, i5⟩ := reads_facts ks { (r.run ops).2 with st := st, phase := .waiting k, prev := h.path }
  simp only [] at i1 i2 i3 i4 i5
  refine ⟨i1, by omega, ?_⟩
  intro he
  rcases i5 he with h0 | h0
  · left; omega
  · right
    refine ⟨h0, ?_⟩
    rw [h0] at i3
    rw [← htm, ← i3]

/-! ## C92 -/

/-- C92: `gonix drv show --format aterm` on a file with a canonical derivation (nothing to escape in builder and platform,
values escaped as Nix does) prints the file. -/
theorem C92_show (jsonName : Bytes → Res (Option Bytes)) (os : Store.Fs) (fs : Store.FSStore) (p : Bytes) (t : Derivation.DrvText) (h : t.Closed)
    (ho : os.openFile (fs.getFilepath p) = .ok ⟨t.text, .eof⟩)
    (d : Derivation.Derivation) (hd : Derivation.readDerivation jsonName ⟨t.text, .eof⟩ = .ok d)
    (hp : ∀ e ∈ escapes, e.1 ∉ t.platform) (hb : ∀ e ∈ escapes, e.1 ∉ t.builder) (he : ∀ e ∈ t.env, ∃ v, e.2 = escaped v) :
    showAterm (fs.get jsonName os) p = .ok t.text := by
  have hg : fs.get jsonName os p = .ok d := (C90_get_iff jsonName os fs p d).2 ⟨_, ho, hd⟩
  have hw := (C61_rewrite_partial jsonName t h d hd).2 ⟨hp, hb, he⟩
  unfold showAterm
  rw [hg]
  simp only [hw]

example : let t : Derivation.DrvText := { escapedBuilder with builder := b!"x" }
    showAterm (Store.FSStore.get (fun _ => .panic) ⟨fun _ => .ok none, fun _ => .ok ⟨t.text, .eof⟩⟩ ⟨b!"/d"⟩) b!"/nix/store/x.drv" =
      .ok t.text ∧ (∀ e ∈ escapes, e.1 ∉ t.builder) ∧ ∀ e ∈ t.env, e.2 = escaped e.2 := by decide +kernel

/-- C92: whatever the file contains, the command prints the text of the derivation that `Get` delivers, or fails. -/
theorem C92_show_iff (jsonName : Bytes → Res (Option Bytes)) (os : Store.Fs) (fs : Store.FSStore) (p out : Bytes) :
    showAterm (fs.get jsonName os) p = .ok out ↔
      ∃ s d, os.openFile (fs.getFilepath p) = .ok s ∧ Derivation.readDerivation jsonName s = .ok d ∧
        (d.write ⟨[], none⟩).1 = .ok () ∧ (d.write ⟨[], none⟩).2.out = out := by
  unfold showAterm
  constructor
  · intro h
    split at h
    · cases h
    · cases h
    · rename_i d hg
      obtain ⟨s, h1, h2⟩ := (C90_get_iff jsonName os fs p d).1 hg
      refine ⟨s, d, h1, h2, ?_⟩
      split at h
      · rename_i w hw; rw [hw]; exact ⟨rfl, Res.ok.inj h⟩
      · cases h
      · cases h
  · rintro ⟨s, d, h1, h2, h3, h4⟩
    rw [(C90_get_iff jsonName os fs p d).2 ⟨s, h1, h2⟩]
    simp only []
    rcases hw : d.write ⟨[], none⟩ with ⟨_ | _ | _, w⟩
    · rw [hw] at h4; simp only []; exact congrArg Res.ok h4
    · rw [hw] at h3; cases h3
    · rw [hw] at h3; cases h3

end Verif.Props
