import Verif.Props.Cmd
import Verif.Props.NarLang
import Verif.Spec.CmdExact

/-!
# C106, C107: `gonix nar ls` and `gonix nar cat` exactly, on files with any contents
-/

namespace Verif.Props
open Verif.Nar Verif.GoLib Verif.Spec Verif.Wire Verif.Cmd

/-! ## The sequence of headers exists and is unique -/

theorem nexts_unique {r : Reader} {xs ys : List (Header × Bytes)} {c d : Call Header} (h1 : Nexts r xs c)
    (h2 : Nexts r ys d) : xs = ys ∧ c = d := by
  induction h1 generalizing ys d with
  | stop hn hc =>
    cases h2 with
    | stop hn' hc' => rw [hn] at hn'; cases hn'; exact ⟨rfl, rfl⟩
    | step hn' _ => rw [hn] at hn'; cases hn'; exact absurd rfl (hc _)
  | step hn _ ih =>
    cases h2 with
    | stop hn' hc' => rw [hn] at hn'; cases hn'; exact absurd rfl (hc' _)
    | step hn' h2 =>
      rw [hn] at hn'
      cases hn'
      obtain ⟨rfl, rfl⟩ := ih h2
      exact ⟨rfl, rfl⟩

theorem nexts_exists (n : Nat) (r : Reader) (hi : ShrInv r) (hn : r.st.left < n) :
    ∃ xs c, Nexts r xs c ∧ xs.length < n := by
  induction n generalizing r with
  | zero => omega
  | succ n ih =>
    have hs := shrInv_next hi
    rcases hq : r.next with ⟨c, r'⟩
    rw [hq] at hs
    cases c with
    | ok h =>
      obtain ⟨xs, c, hx, hl⟩ := ih r' hs.1 (by have := hs.2.2 h rfl; simp only [] at this; omega)
      exact ⟨_, _, .step hq hx, by simpa using hl⟩
    | err e => exact ⟨[], _, .stop hq (by simp), by simp⟩
    | panic => exact ⟨[], _, .stop hq (by simp), by simp⟩
    | block => exact ⟨[], _, .stop hq (by simp), by simp⟩

theorem next_hdrOk {t : Err} {r r' : Reader} {h : Header} (hi : RInv t r) (hn : r.next = (.ok h, r')) :
    RInv t r' ∧ r'.st.rem = h.size ∧ (h.typ = b!"regular" ∨ h.typ = b!"symlink" ∨ h.typ = b!"directory") := by
  have h1 := rinv_next hi
  rw [hn] at h1
  obtain ⟨_, _, st, k, hres, _, rfl⟩ := next_ok hn
  obtain ⟨n, hok, _⟩ := resume_ok hi _ hres
  refine ⟨h1, by have := hok.1.content.1; simp only; omega, ?_⟩
  have := hok.1.typ
  simpa [typeRegular, typeSymlink, typeDirectory, or_comm, or_assoc, or_left_comm] using this

/-! ## ls -/

theorem line_eq (h : Header) (hs : 0 ≤ h.size)
    (hk : h.typ = b!"regular" ∨ h.typ = b!"symlink" ∨ h.typ = b!"directory") : headerLineString h = h.line := by
  have hm : modeString h.mode = (if h.typ = b!"symlink" then b!"Lrwxrwxrwx"
     else if h.typ = b!"directory" ∨ h.executable then b!"-r-xr-xr-x" else b!"-r--r--r--") := by
    have e1 : h.mode = (⟨[], h.typ, [], 0, h.executable⟩ : Header).mode := rfl
    rw [e1]
    rcases hk with h' | h' | h' <;> rw [h'] <;> cases h.executable <;> decide +kernel
  unfold headerLineString Header.line
  rw [hm, formatUint_decimal]
  have f1 : (if h.size > 0 then b!" (" ++ decimal h.size.toNat ++ b!" bytes)" else []) =
      (if h.size = 0 then [] else b!" (" ++ decimal h.size.toNat ++ b!" bytes)") := by
    by_cases h0 : h.size = 0
    · rw [if_neg (by omega), if_pos h0]
    · rw [if_pos (by omega), if_neg h0]
  have f2 : (if h.linkTarget ≠ [] then b!" -> " ++ h.linkTarget else []) = (if h.linkTarget = [] then [] else b!" -> " ++ h.linkTarget) := by
    by_cases h0 : h.linkTarget = [] <;> simp [h0]
  rw [f1, f2]

/-- What `ls` prints when `Next` returns the headers `hs`, and how it ends when the answer after them is `c`. -/
def lsOut (path : Bytes) (recursive : Bool) (hs : List Header) (c : Call Header) : Bytes × Call Unit :=
  (((hs.takeWhile fun h => !h.beyond path).filter (·.shown path recursive)).flatMap Header.line,
    if hs.any (·.beyond path) then .ok () else
      match c with
      | .err e => if e = .eof then .ok () else .err e
      | .ok _ => .ok ()
      | .panic => .panic
      | .block => .block)

theorem lsLoop_nexts (path : Bytes) (recursive : Bool) {t : Err} {r : Reader} {xs : List (Header × Bytes)} {c : Call Header}
    (hx : Nexts r xs c) (hi : RInv t r) (fuel : Nat) (hf : xs.length < fuel) :
    lsLoop path recursive fuel r = lsOut path recursive (xs.map Prod.fst) c := by
  induction hx generalizing fuel with
  | stop hn hc =>
    cases fuel with
    | zero => simp at hf
    | succ fuel =>
      rename_i c
      unfold lsLoop
      rw [hn]
      cases c with
      | ok h => exact absurd rfl (hc h)
      | err e => rfl
      | panic => rfl
      | block => rfl
  | @step r r' h xs c hn hx ih =>
    cases fuel with
    | zero => simp at hf
    | succ fuel =>
      obtain ⟨hi', hrem, hk⟩ := next_hdrOk hi hn
      have ih' := ih hi' fuel (by simpa using hf)
      have hl := line_eq h (by omega) hk
      unfold lsLoop
      rw [hn]
      simp only [List.map_cons]
      have hc : contains (List.drop path.length h.path) b!"/" = (List.drop path.length h.path).contains 47 := by
        rw [Bool.eq_iff_iff, contains_singleton, List.contains_iff_mem]
      have hlt : strLt path h.path = decide (path < h.path) := by
        rw [Bool.eq_iff_iff, strLt_iff, decide_eq_true_iff]
      rw [ih', hc, hlt, hl]
      unfold lsOut hasPrefix
      simp only [List.takeWhile_cons, List.any_cons]
      by_cases hp : path.isPrefixOf h.path = true
      · have hb : h.beyond path = false := by simp [Header.beyond, hp]
        have hs : h.shown path recursive = (recursive || !(List.drop path.length h.path).contains 47) := by
          simp [Header.shown, hp]
        rw [if_pos hp]
        simp only [hb, Bool.not_false, if_true, Bool.false_or, List.filter_cons, hs]
        by_cases hq : (recursive || !(List.drop path.length h.path).contains 47) = true
        · rw [if_pos hq, if_pos hq, List.flatMap_cons]
        · rw [if_neg hq, if_neg hq]; rfl
      · rw [if_neg hp]
        by_cases hq : path < h.path
        · have hb : h.beyond path = true := by simp [Header.beyond, hp, hq]
          rw [if_pos (by simp [hq])]
          simp [hb]
        · have hb : h.beyond path = false := by simp [Header.beyond, hq]
          have hs : h.shown path recursive = false := by simp [Header.shown, hp]
          rw [if_neg (by simp [hq])]
          simp only [hb, Bool.not_false, if_true, Bool.false_or, List.filter_cons, hs]
          rfl

/-- C106: `gonix nar ls` on a file with any contents: if the file does not start with the magic, nothing is printed and
the error of `NewReader` is the result. -/
theorem C106_ls_open (s s' : Stream) (e : Err) (hnew : newReader s = (.err e, s')) (path : Bytes) (recursive : Bool) :
    lsRun s path recursive = ([], .err e) := by
  unfold lsRun; rw [hnew]

/-- C106: otherwise `Next` returns some headers (exactly one sequence of them) and then an answer that is none; the lines of those that match are
printed in this order, up to the first one that does not start with PATH and is greater than it. If there is
one, the command succeeds, otherwise the answer decides: `io.EOF` is success, every other error is the
result. -/
theorem C106_ls (s s' : Stream) (r : Reader) (hnew : newReader s = (.ok r, s')) (path : Bytes) (recursive : Bool) :
    ∃ xs c, Nexts r xs c ∧ (∀ ys d, Nexts r ys d → ys = xs ∧ d = c) ∧
      lsRun s path recursive =
        ((((xs.map Prod.fst).takeWhile fun h => !h.beyond path).filter (·.shown path recursive)).flatMap Header.line,
          if (xs.map Prod.fst).any (·.beyond path) then .ok () else
            match c with
            | .err e => if e = .eof then .ok () else .err e
            | .ok _ => .ok ()
            | .panic => .panic
            | .block => .block) := by
  obtain ⟨xs, c, hx, hl⟩ := nexts_exists (s.data.length + 1) r (shrInv_new hnew) (Nat.lt_succ_of_le (newReader_left hnew))
  refine ⟨xs, c, hx, fun ys d hy => nexts_unique hy hx, ?_⟩
  unfold lsRun
  rw [hnew]
  exact lsLoop_nexts path recursive hx (rinv_new hnew) _ hl

/-! ## cat -/

/-- What `cat` prints when `Next` returns the headers of `xs`, and how it ends. -/
def catOut (path : Bytes) (term : Err) (xs : List (Header × Bytes)) (c : Call Header) : Bytes × Call Unit :=
  match xs.find? (fun x => x.1.path = path) with
  | some (h, d) =>
    if h.typ = b!"regular" then
      (d.take h.size.toNat, if h.size ≤ d.length ∨ term = .eof then .ok () else .err term)
    else ([], .err (.msg "unable to cat non-regular file"))
  | none =>
    match c with
    | .err e => ([], .err (if e = .eof then .msg "requested path not found" else e))
    | .ok _ => ([], .ok ())
    | .panic => ([], .panic)
    | .block => ([], .block)

theorem catLoop_nexts (path : Bytes) {t : Err} {r : Reader} {xs : List (Header × Bytes)} {c : Call Header}
    (hx : Nexts r xs c) (hi : RInv t r) (fuel : Nat) (hf : xs.length < fuel) :
    catLoop path fuel r = catOut path t xs c := by
  induction hx generalizing fuel with
  | stop hn hc =>
    cases fuel with
    | zero => simp at hf
    | succ fuel =>
      rename_i c
      unfold catLoop
      rw [hn]
      cases c with
      | ok h => exact absurd rfl (hc h)
      | err e => rfl
      | panic => rfl
      | block => rfl
  | @step r r' h xs c hn hx ih =>
    cases fuel with
    | zero => simp at hf
    | succ fuel =>
      obtain ⟨hi', hrem, hk⟩ := next_hdrOk hi hn
      have ih' := ih hi' fuel (by simpa using hf)
      unfold catLoop
      rw [hn]
      simp only []
      unfold catOut at ih' ⊢
      rw [List.find?_cons]
      by_cases hp : h.path = path
      · rw [if_pos hp]
        simp only [hp, decide_true]
        by_cases ht : h.typ = b!"regular"
        · rw [if_neg (by simp [ht, typeRegular]), if_pos ht, copyAll_eq _ _ (by omega), hi'.term]
          have e1 : h.size.toNat = r'.st.rem := by omega
          have e2 : (h.size ≤ (r'.st.stream.data.length : Int)) ↔ r'.st.rem ≤ r'.st.stream.data.length := by omega
          rw [e1]
          simp only [e2]
        · rw [if_pos (by exact ht), if_neg ht]
      · rw [if_neg hp, ih']
        simp only [hp, decide_false]

theorem C107_cat_open (s s' : Stream) (e : Err) (hnew : newReader s = (.err e, s')) (path : Bytes) :
    catRun s path = ([], .err e) := by
  unfold catRun; rw [hnew]

/-- C107: `gonix nar cat` on a file with any contents that starts with the magic: the first header with exactly this path
decides. If it is a regular file, the bytes after it are printed up to the announced size, and the command
succeeds if they are all there or the file just ends (an I/O error is the result otherwise). If it is
something else the command fails and prints nothing; so it does if there is no such header. -/
theorem C107_cat (s s' : Stream) (r : Reader) (hnew : newReader s = (.ok r, s')) (path : Bytes) :
    ∃ xs c, Nexts r xs c ∧ (∀ ys d, Nexts r ys d → ys = xs ∧ d = c) ∧
      catRun s path =
        match xs.find? (fun x => x.1.path = path) with
        | some (h, d) =>
          if h.typ = b!"regular" then
            (d.take h.size.toNat, if h.size ≤ d.length ∨ s.term = .eof then .ok () else .err s.term)
          else ([], .err (.msg "unable to cat non-regular file"))
        | none =>
          match c with
          | .err e => ([], .err (if e = .eof then .msg "requested path not found" else e))
          | .ok _ => ([], .ok ())
          | .panic => ([], .panic)
          | .block => ([], .block) := by
  obtain ⟨xs, c, hx, hl⟩ := nexts_exists (s.data.length + 1) r (shrInv_new hnew) (Nat.lt_succ_of_le (newReader_left hnew))
  refine ⟨xs, c, hx, fun ys d hy => nexts_unique hy hx, ?_⟩
  unfold catRun
  rw [hnew]
  exact catLoop_nexts path hx (rinv_new hnew) _ hl

/-! ## On accepted files, without reference to the reader -/

theorem cut_len {p d : Bytes} {xs : List Seen} (h : CutNode p d xs) : ∀ x ∈ xs, x.1.contents.length ≤ x.2 := by
  refine CutNode.rec (motive_1 := fun _ _ xs _ => ∀ x ∈ xs, x.1.contents.length ≤ x.2)
    (motive_2 := fun _ _ xs _ => ∀ x ∈ xs, x.1.contents.length ≤ x.2) ?_ ?_ ?_ ?_ ?_ ?_ ?_ ?_ ?_ ?_ ?_ ?_ ?_ ?_ h
  · intros; simp_all
  · intros; simp_all
  · intros; simp_all
  · intros; simp_all
  · intros p d m c n x _ _ _ _ h; simp; omega
  · intros; simp_all
  · intros; simp_all
  · intros; simp_all
  · intro p d m xs _ _ ih; exact List.forall_mem_cons.2 ⟨Nat.le_refl 0, ih⟩
  · intros; simp_all
  · intro p d m xs t _ _ _ _ _ ih; exact ih
  · intros; simp_all
  · intro p d m xs n _ _ _ _ _ ih; exact ih
  · intro p d m1 m2 m3 es xs n _ _ _ _ _ _ _ _ ih x hx
    rcases List.mem_append.1 hx with hx | hx
    · obtain ⟨e, _, he⟩ := List.mem_map.1 hx
      rw [← he]
      exact Nat.le_refl _
    · exact ih x hx

theorem accepts_len {t : Err} {d rest : Bytes} {xs : List Seen} (h : Accepts t d xs rest) :
    ∀ x ∈ xs, x.1.contents.length ≤ x.2 := by
  rcases h.1 with ⟨es, _, rfl⟩ | ⟨_, _, h⟩
  · intro x hx
    obtain ⟨e, _, rfl⟩ := List.mem_map.1 hx
    simp [full]
  · exact cut_len h

/-- `r` reads the entries `xs` and then `io.EOF`, whatever is read in between. -/
def Serves (r : Reader) (xs : List Seen) : Prop :=
  ∀ plan : List (List Nat), xs.length = plan.length →
    (r.session plan).1 = List.zipWith (fun x ks => (.ok (hdrSeen x), seenReads x.2 x.1.contents ks)) xs plan ∧
    ∃ r', (r.session plan).2.next = (.err .eof, r')

theorem serves_cons {r : Reader} {x : Seen} {xs : List Seen} (h : Serves r (x :: xs)) :
    ∃ r1, r.next = (.ok (hdrSeen x), r1) ∧ Serves r1 xs ∧ ∀ ks, (r1.reads ks).1 = seenReads x.2 x.1.contents ks := by
  have hu : ∀ ks plan, r.session (ks :: plan) =
      ((r.next.1, (r.next.2.reads ks).1) :: ((r.next.2.reads ks).2.session plan).1, ((r.next.2.reads ks).2.session plan).2) :=
    fun _ _ => rfl
  have h0 := h ([] :: List.replicate xs.length []) (by simp)
  rw [hu] at h0
  simp only [List.zipWith_cons_cons, List.cons.injEq, Prod.mk.injEq] at h0
  refine ⟨r.next.2, Prod.ext h0.1.1.1 rfl, ?_, ?_⟩
  · intro plan hp
    have h1 := h ([] :: plan) (by simp [hp])
    rw [hu] at h1
    simp only [List.zipWith_cons_cons, List.cons.injEq] at h1
    exact ⟨h1.1.2, h1.2⟩
  · intro ks
    have h1 := h (ks :: List.replicate xs.length []) (by simp)
    rw [hu] at h1
    simp only [List.zipWith_cons_cons, List.cons.injEq, Prod.mk.injEq] at h1
    exact h1.1.1.2

theorem serves_nexts {t : Err} {r : Reader} {xs : List Seen} (hi : RInv t r) (h : Serves r xs)
    (hl : ∀ x ∈ xs, x.1.contents.length ≤ x.2) :
    ∃ ys, Nexts r ys (.err .eof) ∧ ys.map Prod.fst = xs.map hdrSeen ∧
      ys.map (fun y => y.2.take y.1.size.toNat) = xs.map fun x => x.1.contents := by
  induction xs generalizing r with
  | nil =>
    obtain ⟨_, r', hr⟩ := h [] rfl
    exact ⟨[], .stop hr (by simp), rfl, rfl⟩
  | cons x xs ih =>
    obtain ⟨r1, hn, h1, h2⟩ := serves_cons h
    obtain ⟨hi', hrem, _⟩ := next_hdrOk hi hn
    obtain ⟨ys, hy, e1, e2⟩ := ih hi' h1 (fun y hy => hl y (List.mem_cons_of_mem _ hy))
    refine ⟨_, .step hn hy, by rw [List.map_cons, List.map_cons, e1], ?_⟩
    rw [List.map_cons, List.map_cons, e2]
    refine congrArg (· :: _) ?_
    have hx := hl x (by simp)
    have hsz : (hdrSeen x).size.toNat = x.2 := by simp [hdrSeen]
    have hrem' : r1.st.rem = x.2 := by have : (hdrSeen x).size = (x.2 : Int) := rfl; omega
    have hr := h2 [x.2]
    have hu : (r1.reads [x.2]).1 = [(r1.read x.2).1] := rfl
    rw [hu] at hr
    simp only [seenReads] at hr
    simp only [hsz]
    by_cases h0 : x.2 = 0
    · rw [h0, List.take_zero]
      symm
      rw [← List.length_eq_zero_iff]; omega
    · unfold Reader.read at hr
      rw [hrem', if_neg h0] at hr
      simp only [Nat.min_self] at hr
      by_cases hc : x.1.contents = []
      · have e3 : (if x.2 = 0 ∨ x.1.contents = [] ∧ x.2 ≠ 0 then [Res.err Err.eof] else [Res.ok (x.1.contents.take x.2)]) =
            [Res.err Err.eof] := if_pos (.inr ⟨hc, h0⟩)
        rw [e3] at hr
        split at hr
        · rename_i h3; rw [h3.1, hc]
        · simp at hr
      · have e3 : (if x.2 = 0 ∨ x.1.contents = [] ∧ x.2 ≠ 0 then [Res.err Err.eof] else [Res.ok (x.1.contents.take x.2)]) =
            [Res.ok (x.1.contents.take x.2)] := if_neg (by simp [h0, hc])
        rw [e3] at hr
        split at hr
        · simp at hr
        · simp only [List.cons.injEq, Res.ok.injEq, and_true] at hr
          rw [hr, List.take_of_length_le hx]

theorem accepts_nexts {s : Stream} {d rest : Bytes} {xs : List Seen} (htok : Tok b!"nix-archive-1" s.data d)
    (hacc : Accepts s.term d xs rest) :
    ∃ r ys, newReader s = (.ok r, ⟨d, s.term⟩) ∧ Nexts r ys (.err .eof) ∧ ys.map Prod.fst = xs.map hdrSeen ∧
      ys.map (fun y => y.2.take y.1.size.toNat) = xs.map fun x => x.1.contents := by
  have hnew := (newReader_iff s ⟨⟨⟨d, s.term⟩, 0, 0⟩, .start, none, [], false⟩ ⟨d, s.term⟩).2 ⟨htok, rfl, rfl⟩
  have hserve : Serves ⟨⟨⟨d, s.term⟩, 0, 0⟩, .start, none, [], false⟩ xs := by
    intro plan hp
    obtain ⟨h1, r', h2, _⟩ := accepts_session hnew xs rest hacc plan hp
    exact ⟨h1, r', h2⟩
  obtain ⟨ys, h⟩ := serves_nexts (rinv_new hnew) hserve (accepts_len hacc)
  exact ⟨_, ys, hnew, h⟩

/-- C106, for the files that are accepted (see C100): the command succeeds and prints the matching lines up to the first
path beyond PATH. -/
theorem C106_ls_accepted (s : Stream) (d rest : Bytes) (xs : List Seen) (htok : Tok b!"nix-archive-1" s.data d)
    (hacc : Accepts s.term d xs rest) (path : Bytes) (recursive : Bool) :
    lsRun s path recursive =
      ((((xs.map hdrSeen).takeWhile fun h => !h.beyond path).filter (·.shown path recursive)).flatMap Header.line, .ok ()) := by
  obtain ⟨r, ys, hnew, hy, e1, _⟩ := accepts_nexts htok hacc
  obtain ⟨zs, c, hz, hu, hrun⟩ := C106_ls s _ r hnew path recursive
  obtain ⟨rfl, rfl⟩ := hu _ _ hy
  rw [hrun, e1]
  simp

theorem catOut_seen (path : Bytes) (term : Err) (ys : List (Header × Bytes)) (xs : List Seen)
    (e1 : ys.map Prod.fst = xs.map hdrSeen)
    (e2 : ys.map (fun y => y.2.take y.1.size.toNat) = xs.map fun x => x.1.contents)
    (h : (∀ x ∈ xs, x.1.contents.length = x.2) ∨ term = .eof) :
    catOut path term ys (.err .eof) =
      match xs.find? (fun x => x.1.path = path) with
      | some x => if x.1.kind = b!"regular" then (x.1.contents, .ok ()) else ([], .err (.msg "unable to cat non-regular file"))
      | none => ([], .err (.msg "requested path not found")) := by
  induction ys generalizing xs with
  | nil =>
    cases xs with
    | nil => rfl
    | cons x xs => simp at e1
  | cons y ys ih =>
    cases xs with
    | nil => simp at e1
    | cons x xs =>
      simp only [List.map_cons, List.cons.injEq] at e1 e2
      have ih' := ih xs e1.2 e2.2 (h.imp (fun h z hz => h z (List.mem_cons_of_mem _ hz)) id)
      obtain ⟨hd, b⟩ := y
      obtain ⟨rfl, _⟩ := e1
      unfold catOut at ih' ⊢
      rw [List.find?_cons, List.find?_cons]
      have hpath : (hdrSeen x).path = x.1.path := rfl
      simp only [hpath]
      by_cases hp : x.1.path = path
      · simp only [hp, decide_true]
        have hk : (hdrSeen x).typ = x.1.kind := rfl
        have hs : (hdrSeen x).size = (x.2 : Int) := rfl
        have e3 := e2.1
        simp only [hs, Int.toNat_natCast] at e3
        rw [hk, hs, Int.toNat_natCast, e3]
        by_cases hr : x.1.kind = b!"regular"
        · rw [if_pos hr, if_pos hr, if_pos ?_]
          refine h.imp (fun h => ?_) id
          have h4 := h x (by simp)
          rw [← e3, List.length_take] at h4
          omega
        · rw [if_neg hr, if_neg hr]
      · simp only [hp, decide_false]
        exact ih'

/-- C107, for the files that are accepted: the contents of the first entry with this path, as far as they
are there, if it is a regular file; failure and no output otherwise. -/
theorem C107_cat_accepted (s : Stream) (d rest : Bytes) (xs : List Seen) (htok : Tok b!"nix-archive-1" s.data d)
    (hacc : Accepts s.term d xs rest) (path : Bytes) :
    catRun s path =
      match xs.find? (fun x => x.1.path = path) with
      | some x => if x.1.kind = b!"regular" then (x.1.contents, .ok ()) else ([], .err (.msg "unable to cat non-regular file"))
      | none => ([], .err (.msg "requested path not found")) := by
  obtain ⟨r, ys, hnew, hy, e1, e2⟩ := accepts_nexts htok hacc
  obtain ⟨zs, c, hz, hu, hrun⟩ := C107_cat s _ r hnew path
  obtain ⟨rfl, rfl⟩ := hu _ _ hy
  rw [hrun]
  refine catOut_seen path s.term ys xs e1 e2 ?_
  rcases hacc.1 with ⟨es, _, rfl⟩ | ⟨h, _, _⟩
  · left
    intro x hx
    obtain ⟨e, _, rfl⟩ := List.mem_map.1 hx
    rfl
  · exact .inr h

/-- A file that is not accepted: the archive of `sampleTree` cut off within the length of the first name, so that `Next`
fails with `io.ErrUnexpectedEOF` after the first header; the line is printed and the error is the result. -/
example : lsRun ⟨sampleTree.nar.take 133, .eof⟩ b!"/" true = (b!"-r-xr-xr-x /\n", .err .unexpectedEOF) ∧
    catRun ⟨sampleTree.nar.take 133, .eof⟩ b!"/a.txt" = ([], .err .unexpectedEOF) ∧
    catRun ⟨sampleTree.nar.take 237, .io⟩ b!"/a.txt" = (b!"hello", .err .io) := by decide +kernel

/-- An accepted file: the example of C100, with the file cut off. -/
example : let d := str b!"(" ++ (str b!"type" ++ (str b!"directory" ++ (str b!"junk" ++ (str b!"entry" ++
      (str b!"(" ++ (str b!"name" ++ (str b!"a" ++ (str b!"node" ++ (str b!"(" ++ (str b!"type" ++
      (str b!"regular" ++ (str b!"contents" ++ [3, 0, 0, 0, 0, 0, 0, 0, 120, 121]))))))))))))
    Tok b!"nix-archive-1" (str b!"nix-archive-1" ++ d) d ∧
    lsRun ⟨str b!"nix-archive-1" ++ d, .eof⟩ b!"/" true = (b!"-r-xr-xr-x /\n-r--r--r-- /a (3 bytes)\n", .ok ()) ∧
    catRun ⟨str b!"nix-archive-1" ++ d, .eof⟩ b!"/a" = (b!"xy", .ok ()) :=
  ⟨tok_str _ _, by decide +kernel, by decide +kernel⟩

end Verif.Props
