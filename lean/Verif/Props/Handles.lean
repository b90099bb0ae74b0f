import Verif.Spec.Handles
import Verif.Model.Handles
import Verif.Props.FsStore
import Verif.Props.NarDump

/-!
# C134: files that are opened are closed
-/

namespace Verif.Props
open Verif.GoLib Verif.Wire Verif.Nar Verif.Store Verif.Derivation
open Verif.Handles (Handles tooMany fsGet httpGet httpHas)

theorem acquire_some {h h1 : Handles} (e : h.acquire = some h1) : h1.release = h := by
  unfold Handles.acquire at e
  split at e
  · cases e; simp [Handles.release]
  · cases e

theorem acquire_free {h : Handles} (e : h.opened < h.limit) : ∃ h1, h.acquire = some h1 := by
  unfold Handles.acquire
  rw [if_pos e]
  exact ⟨_, rfl⟩

theorem andThenH_eq {α β : Type} (r : Call α × Writer) (h : Handles) (f : α → Writer → Call β × Writer × Handles)
    (g : α → Writer → Call β × Writer) (e : ∀ a w, f a w = ((g a w).1, (g a w).2, h)) :
    Handles.andThenH r h f = ((andThen r g).1, (andThen r g).2, h) := by
  obtain ⟨r, w⟩ := r
  cases r <;> simp [Handles.andThenH, andThen, e]

theorem andThenH_handles {α β : Type} (r : Call α × Writer) (h : Handles) (f : α → Writer → Call β × Writer × Handles)
    (e : ∀ a w, (f a w).2.2 = h) : (Handles.andThenH r h f).2.2 = h := by
  obtain ⟨r, w⟩ := r
  cases r <;> simp [Handles.andThenH, e]

mutual
theorem dumpNode_handles (filter : Option Filter) (path : Bytes) (n : FNode) (sub : Bytes) (w : Writer) (h : Handles) :
    (Handles.dumpNode filter path n sub w h).2.2 = h := by
  cases n with
  | bad e => rfl
  | symlink t =>
    simp only [Handles.dumpNode]
    split
    · rfl
    · exact andThenH_handles _ _ _ fun _ _ => rfl
  | directory es =>
    simp only [Handles.dumpNode]
    split
    · rfl
    · refine andThenH_handles _ _ _ fun _ w => ?_
      cases ha : h.acquire with
      | none => rfl
      | some h1 => simp only [acquire_some ha]; exact dumpEntries_handles filter path es sub w h
  | brokenLink e => simp only [Handles.dumpNode]; split <;> rfl
  | brokenDirectory e =>
    simp only [Handles.dumpNode]
    split
    · rfl
    · refine andThenH_handles _ _ _ fun _ w => ?_
      cases ha : h.acquire with
      | none => rfl
      | some h1 => exact acquire_some ha
  | regular exec size chunks fail =>
    simp only [Handles.dumpNode]
    split
    · rfl
    · refine andThenH_handles _ _ _ fun _ w => ?_
      cases ha : h.acquire with
      | none => rfl
      | some h1 => exact acquire_some ha

theorem dumpEntries_handles (filter : Option Filter) (path : Bytes) (es : FEntries) (sub : Bytes) (w : Writer) (h : Handles) :
    (Handles.dumpEntries filter path es sub w h).2.2 = h := by
  cases es with
  | nil => rfl
  | cons n t es =>
    have h1 := dumpNode_handles filter path t (pathJoin sub n) w h
    simp only [Handles.dumpEntries]
    revert h1
    cases hd : Handles.dumpNode filter path t (pathJoin sub n) w h with
    | mk r wh =>
      obtain ⟨w', h'⟩ := wh
      intro h1
      simp only at h1
      subst h1
      cases r with
      | ok u => exact dumpEntries_handles filter path es sub w' h'
      | err e => rfl
      | panic => rfl
      | block => rfl
end

mutual
theorem dumpNode_free (filter : Option Filter) (path : Bytes) (n : FNode) (sub : Bytes) (w : Writer) (h : Handles) (hf : h.opened < h.limit) :
    Handles.dumpNode filter path n sub w h = ((dumpNode filter path n sub w).1, (dumpNode filter path n sub w).2, h) := by
  obtain ⟨h1, ha⟩ := acquire_free hf
  have hr := acquire_some ha
  cases n with
  | bad e => rfl
  | symlink t =>
    simp only [Handles.dumpNode, dumpNode]
    split
    · rfl
    · cases hw : w.writeHeader ⟨sub, typeSymlink, t, 0, false⟩ with
      | mk r w' => cases r <;> rfl
  | directory es =>
    simp only [Handles.dumpNode, dumpNode, ha, hr]
    split
    · rfl
    · exact andThenH_eq _ _ _ _ fun _ w => dumpEntries_free filter path es sub w h hf
  | brokenLink e => simp only [Handles.dumpNode, dumpNode]; split <;> rfl
  | brokenDirectory e =>
    simp only [Handles.dumpNode, dumpNode, ha, hr]
    split
    · rfl
    · exact andThenH_eq _ _ _ _ fun _ w => rfl
  | regular exec size chunks fail =>
    simp only [Handles.dumpNode, dumpNode, ha, hr]
    split
    · rfl
    · exact andThenH_eq _ _ _ _ fun _ w => rfl

theorem dumpEntries_free (filter : Option Filter) (path : Bytes) (es : FEntries) (sub : Bytes) (w : Writer) (h : Handles)
    (hf : h.opened < h.limit) :
    Handles.dumpEntries filter path es sub w h = ((dumpEntries filter path es sub w).1, (dumpEntries filter path es sub w).2, h) := by
  cases es with
  | nil => rfl
  | cons n t es =>
    simp only [Handles.dumpEntries, dumpEntries, dumpNode_free filter path t (pathJoin sub n) w h hf]
    cases hd : dumpNode filter path t (pathJoin sub n) w with
    | mk r w' =>
      cases r with
      | ok u => exact dumpEntries_free filter path es sub w' h hf
      | err e => rfl
      | panic => rfl
      | block => rfl
end

/-- C134: `DumpPath` closes every file it opens, for every tree, filter and writer and also if it fails; and it never needs more than one
open file at a time: with a single free file handle it does exactly what it does without any limit, whatever the size and the depth of the tree. -/
theorem C134_dump (filter : Option Filter) (path : Bytes) (root : FNode) (s : Sink) (h : Handles) :
    (Handles.dumpPathFilter filter path root s h).2.2 = h ∧
    (h.opened < h.limit → (Handles.dumpPathFilter filter path root s h).1 = (dumpPathFilter filter path root s).1 ∧
      (Handles.dumpPathFilter filter path root s h).2.1 = (dumpPathFilter filter path root s).2) := by
  unfold Handles.dumpPathFilter dumpPathFilter
  cases hn : newWriter s with
  | mk r s' =>
    cases r with
    | err e => exact ⟨rfl, fun _ => ⟨rfl, rfl⟩⟩
    | panic => exact ⟨rfl, fun _ => ⟨rfl, rfl⟩⟩
    | ok nw =>
      refine ⟨dumpNode_handles filter path root b!"/" nw h, fun hf => ?_⟩
      simp only [dumpNode_free filter path root b!"/" nw h hf]
      exact ⟨by trivial, by trivial⟩

/-- C134: `HTTPStore.Get` and `Has` close the body of the response, whatever it is; with one free handle they do what they do without a limit. -/
theorem C134_http (jsonName : Bytes → Res (Option Bytes)) (request : Bytes → GoUrl.URL → Res Response) (hs : HTTPStore) (p : Bytes) (h : Handles) :
    (httpGet jsonName request hs p h).2 = h ∧ (httpHas request hs p h).2 = h ∧
    (h.opened < h.limit → (httpGet jsonName request hs p h).1 = hs.get jsonName request p ∧ (httpHas request hs p h).1 = hs.has request p) := by
  unfold httpGet httpHas HTTPStore.get HTTPStore.has
  cases hc : hs.constructRequest p with
  | err e => exact ⟨rfl, rfl, fun _ => ⟨rfl, rfl⟩⟩
  | panic => exact ⟨rfl, rfl, fun _ => ⟨rfl, rfl⟩⟩
  | ok u =>
    cases ha : h.acquire with
    | none => exact ⟨rfl, rfl, fun hf => by obtain ⟨h1, e⟩ := acquire_free hf; rw [ha] at e; cases e⟩
    | some h1 =>
      simp only [acquire_some ha, Res.bind_ok]
      refine ⟨?_, ?_, fun _ => ⟨?_, ?_⟩⟩
      · cases request b!"GET" u with
        | err e => rfl
        | panic => rfl
        | ok resp =>
          simp only
          split
          · rfl
          · split
            · rfl
            · cases readDerivation jsonName ⟨resp.body.data, .eof⟩ <;> rfl
      · cases request b!"HEAD" u with
        | err e => rfl
        | panic => rfl
        | ok resp =>
          simp only
          split
          · rfl
          · split <;> rfl
      · cases request b!"GET" u with
        | err e => rfl
        | panic => rfl
        | ok resp =>
          simp only [Res.bind_ok]
          split
          · rfl
          · split
            · rfl
            · cases readDerivation jsonName ⟨resp.body.data, .eof⟩ <;> rfl
      · cases request b!"HEAD" u with
        | err e => rfl
        | panic => rfl
        | ok resp =>
          simp only [Res.bind_ok]
          split
          · rfl
          · split <;> rfl

/-- C134, `FSStore.Get`, one call: it fails if there is no free handle; otherwise the result is the one without a limit, and there is one more open file
if the file could be opened, also if the derivation could be read. -/
theorem fsGet_exact (jsonName : Bytes → Res (Option Bytes)) (os : Fs) (fs : FSStore) (p : Bytes) (h : Handles) :
    (h.opened < h.limit → (fsGet jsonName os fs p h).1 = fs.get jsonName os p ∧
      (fsGet jsonName os fs p h).2.limit = h.limit ∧
      (fsGet jsonName os fs p h).2.opened = h.opened + (match os.openFile (fs.getFilepath p) with | .ok _ => 1 | _ => 0)) ∧
    (¬ h.opened < h.limit → fsGet jsonName os fs p h = (.err tooMany, h)) := by
  unfold fsGet FSStore.get Handles.acquire
  constructor
  · intro hf
    rw [if_pos hf]
    cases os.openFile (fs.getFilepath p) with
    | err e => exact ⟨rfl, rfl, rfl⟩
    | panic => exact ⟨rfl, rfl, rfl⟩
    | ok s =>
      simp only [Res.bind_ok]
      cases readDerivation jsonName s <;> exact ⟨rfl, rfl, rfl⟩
  · intro hf
    rw [if_neg hf]

/-- C134, `FSStore.Get`, exactly: of `n` calls for a file that can be opened, only as many succeed as there are free handles; every one leaves a file
open (until the garbage collector finds it), and after that all of them fail. -/
theorem C134_fs_exact (jsonName : Bytes → Res (Option Bytes)) (os : Fs) (fs : FSStore) (p : Bytes) (s : Stream)
    (hs : os.openFile (fs.getFilepath p) = .ok s) (n : Nat) (h : Handles) :
    times (fsGet jsonName os fs p) n h =
      (List.replicate (min n (h.limit - h.opened)) (fs.get jsonName os p) ++ List.replicate (n - (h.limit - h.opened)) (.err tooMany),
        ⟨h.opened + min n (h.limit - h.opened), h.limit⟩) := by
  induction n generalizing h with
  | zero => simp [times]
  | succ n ih =>
    obtain ⟨h1, h2⟩ := fsGet_exact jsonName os fs p h
    simp only [times]
    by_cases hf : h.opened < h.limit
    · obtain ⟨e1, e2, e3⟩ := h1 hf
      rw [hs] at e3
      rw [ih, e1, e2, e3]
      have m1 : min (n + 1) (h.limit - h.opened) = min n (h.limit - (h.opened + 1)) + 1 := by omega
      have m2 : n + 1 - (h.limit - h.opened) = n - (h.limit - (h.opened + 1)) := by omega
      rw [m1, m2, List.replicate_succ, List.cons_append, Prod.mk.injEq, Handles.mk.injEq]
      exact ⟨rfl, Nat.add_right_comm .., rfl⟩
    · rw [h2 hf, ih]
      have m : h.limit - h.opened = 0 := by omega
      simp [m, List.replicate_succ]

/-- C134 is false as stated for `FSStore`: the derivation is there, the first 1000 calls of `Get` deliver it, and the next one fails, because
the calls leave their files open. -/
theorem C134_refuted : ∃ (os : Fs) (fs : FSStore) (p : Bytes) (d : Derivation) (h : Handles),
    fs.get (fun _ => .panic) os p = .ok d ∧ h = ⟨24, 1024⟩ ∧
    times (fsGet (fun _ => .panic) os fs p) 1001 h = (List.replicate 1000 (.ok d) ++ [.err tooMany], ⟨1024, 1024⟩) := by
  obtain ⟨d, hd⟩ : ∃ d, FSStore.get (fun _ => .panic) linkedFs ⟨b!"/drvs"⟩ b!"/nix/store/x.drv" = .ok d := by
    have : (match FSStore.get (fun _ => .panic) linkedFs ⟨b!"/drvs"⟩ b!"/nix/store/x.drv" with | .ok _ => true | _ => false) = true := by
      decide +kernel
    cases hr : FSStore.get (fun _ => .panic) linkedFs ⟨b!"/drvs"⟩ b!"/nix/store/x.drv" with
    | ok d => exact ⟨d, rfl⟩
    | err e => rw [hr] at this; cases this
    | panic => rw [hr] at this; cases this
  refine ⟨linkedFs, ⟨b!"/drvs"⟩, b!"/nix/store/x.drv", d, _, hd, rfl, ?_⟩
  obtain ⟨s, hs⟩ : ∃ s, linkedFs.openFile (FSStore.getFilepath ⟨b!"/drvs"⟩ b!"/nix/store/x.drv") = .ok s := ⟨_, rfl⟩
  rw [C134_fs_exact _ _ _ _ s hs, hd]
  rfl


/-- One free handle is enough for the tree of C35 (`sampleDisk`); without one it cannot be dumped. -/
example : (Handles.dumpPathFilter (some fun p _ => p != b!"/d/b" && p != b!"/d/e") b!"/d" sampleDisk ⟨[], none⟩ ⟨0, 1⟩).1 = .ok () ∧
    (Handles.dumpPathFilter (some fun p _ => p != b!"/d/b" && p != b!"/d/e") b!"/d" sampleDisk ⟨[], none⟩ ⟨0, 1⟩).2.2 = ⟨0, 1⟩ ∧
    (Handles.dumpPathFilter (some fun p _ => p != b!"/d/b" && p != b!"/d/e") b!"/d" sampleDisk ⟨[], none⟩ ⟨1, 1⟩).1 = .err tooMany := by
  decide +kernel

end Verif.Props
