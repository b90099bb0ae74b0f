import Verif.Spec.NarHeader
import Verif.Lemmas.NarUtil

/-!
# NAR headers and path utilities: C33, C34, C38, C75
-/

namespace Verif.Props
open Verif.Nar Verif.GoLib Verif.Spec

/-! ## C75 -/

/-- C75: a node name is valid exactly when it contains neither a slash nor a NUL byte. -/
theorem C75_valid_name_iff (n : Bytes) :
    isValidNodeName n = true ↔ (∀ c ∈ n, c ≠ 47) ∧ (∀ c ∈ n, c ≠ 0) := by
  rw [isValidNodeName_iff]
  constructor
  · rintro ⟨h1, h2⟩
    exact ⟨fun c hc e => h1 (e ▸ hc), fun c hc e => h2 (e ▸ hc)⟩
  · rintro ⟨h1, h2⟩
    exact ⟨fun h => h1 _ h rfl, fun h => h2 _ h rfl⟩

example : isValidNodeName b!"foo-1.0" = true ∧ isValidNodeName b!"a/b" = false ∧
    isValidNodeName [97, 0] = false ∧ isValidNodeName b!".." = true := by decide

/-! ## C33

Component-wise order is `≤` on lists of components (`List` of `List UInt8`, both lexicographic). -/

/-- C33 as stated is false: the pair is reported as ordered although its components are not. -/
theorem C33_refuted :
    pathIsLexicographicallyOrdered b!"/a-b" b!"/a/b" = true ∧
    ¬ splitByte b!"/a-b" 47 ≤ splitByte b!"/a/b" 47 := by decide

/-- C33, what holds: paths are reported as ordered exactly when they are ordered bytewise or
component by component. Missing for the full statement: the first disjunct, see `C33_refuted`. -/
theorem C33_order_partial (a b : Bytes) :
    pathIsLexicographicallyOrdered a b = true ↔ a ≤ b ∨ splitByte a 47 ≤ splitByte b 47 :=
  ordered_iff a b

theorem slashLe_of_strLe {a b : Bytes} (ha : ∀ c ∈ a, 47 ≤ c) (h : strLe a b = true) :
    slashLe a b = true := by
  induction a generalizing b with
  | nil => rfl
  | cons c a ih =>
    cases b with
    | nil => simp [strLe] at h
    | cons d b =>
      unfold slashLe
      unfold strLe at h
      split
      · rename_i e
        rw [if_pos e] at h
        exact ih (fun c hc => ha c (List.mem_cons_of_mem _ hc)) h
      · rename_i e
        rw [if_neg e] at h
        split
        · rfl
        · split
          · rename_i hd; subst hd
            have := ha c (by simp)
            simp only [decide_eq_true_eq] at h
            rw [UInt8.lt_iff_toNat_lt] at h
            rw [UInt8.le_iff_toNat_le] at this
            omega
          · exact h

/-- C33 holds as stated when the first path has no byte below '/' (that is: none of
`!"#$%&'()*+,-.`, space or control characters). -/
theorem C33_exact_above_slash (a b : Bytes) (ha : ∀ c ∈ a, 47 ≤ c) :
    pathIsLexicographicallyOrdered a b = true ↔ splitByte a 47 ≤ splitByte b 47 := by
  rw [ordered_eq, ← slashLe_iff, Bool.or_eq_true]
  exact ⟨fun h => h.elim (slashLe_of_strLe ha) id, .inr⟩

example : (∀ c ∈ b!"/bin/Zoo", 47 ≤ c) ∧
    pathIsLexicographicallyOrdered b!"/bin/Zoo" b!"/bin/arch" = true ∧
    pathIsLexicographicallyOrdered b!"/bin/arch" b!"/bin/Zoo" = false := by decide

/-- Paths in component-wise order are never rejected, and two paths are comparable in at least one
direction. -/
theorem C33_complete_total (a b : Bytes) :
    (splitByte a 47 ≤ splitByte b 47 → pathIsLexicographicallyOrdered a b = true) ∧
    (pathIsLexicographicallyOrdered a b = true ∨ pathIsLexicographicallyOrdered b a = true) := by
  rw [ordered_iff, ordered_iff]
  refine ⟨.inr, ?_⟩
  rcases List.le_total a b with h | h
  · exact .inl (.inl h)
  · exact .inr (.inl h)

/-! ## C34 -/

theorem rooted_iff (p : Bytes) : (∃ r, p = 47 :: r) ↔ ¬ (p.length < 1 ∨ p.take 1 ≠ b!"/") := by
  cases p with
  | nil => simp
  | cons a p => simp

/-- C34: `Validate` accepts exactly the headers satisfying the rule (and never panics). -/
theorem C34_validate_iff (h : Header) :
    (h.validate = .ok () ↔ HeaderOk h) ∧ h.validate ≠ .panic := by
  have nul : (∀ c ∈ h.path, c ≠ 0) ↔ ¬ h.path.contains 0 = true := by
    simp only [List.contains_iff_mem]
    exact ⟨fun h1 h2 => h1 _ h2 rfl, fun h1 c hc e => h1 (e ▸ hc)⟩
  unfold Header.validate typeRegular typeDirectory typeSymlink
  split
  · rename_i h1
    simp only [reduceCtorEq, false_iff, ne_eq, not_false_eq_true, and_true]
    intro hk; exact (rooted_iff _).1 hk.rooted h1
  · rename_i h1
    split
    · rename_i h2
      simp only [reduceCtorEq, false_iff, ne_eq, not_false_eq_true, and_true]
      intro hk; exact nul.1 hk.noNul h2
    · rename_i h2
      split
      · rename_i h3
        simp only [reduceCtorEq, false_iff, ne_eq, not_false_eq_true, and_true]
        intro hk; exact h3.2 (hk.noTarget h3.1)
      · rename_i h3
        split
        · rename_i h4
          simp only [reduceCtorEq, false_iff, ne_eq, not_false_eq_true, and_true]
          intro hk; exact h4.2 (hk.noSize h4.1)
        · rename_i h4
          split
          · rename_i h5
            simp only [reduceCtorEq, false_iff, ne_eq, not_false_eq_true, and_true]
            intro hk; have := hk.noExec h5.1; simp [this] at h5
          · rename_i h5
            split
            · rename_i h6
              simp only [reduceCtorEq, false_iff, ne_eq, not_false_eq_true, and_true]
              intro hk; exact hk.target h6.1 h6.2
            · rename_i h6
              simp only [true_iff, ne_eq, reduceCtorEq, not_false_eq_true, and_true]
              refine ⟨(rooted_iff _).2 h1, nul.2 h2, ?_, ?_, ?_, ?_⟩
              · intro ht; exact Decidable.byContradiction fun e => h3 ⟨ht, e⟩
              · intro ht; exact Decidable.byContradiction fun e => h4 ⟨ht, e⟩
              · intro ht
                cases he : h.executable with
                | false => rfl
                | true => exact absurd ⟨ht, he⟩ h5
              · intro ht e; exact h6 ⟨ht, e⟩

example : HeaderOk ⟨b!"/bin/sh", b!"symlink", b!"bash", 0, false⟩ ∧
    ¬ HeaderOk ⟨b!"/bin/sh", b!"symlink", [], 0, false⟩ ∧
    ¬ HeaderOk ⟨b!"/bin/sh", b!"directory", [], 3, false⟩ := by
  simp only [← (C34_validate_iff _).1]
  decide

/-! ## C38 -/

/-- C38 is false: a directory's `FileInfo` says `IsDir()` but `Mode().IsDir()` (bit `ModeDir`) is
unset, and a symlink's mode has write permission bits. -/
theorem C38_refuted :
    (∃ h : Header, h.validate = .ok () ∧ h.isDir = true ∧ h.mode.testBit 31 = false) ∧
    (∃ h : Header, h.validate = .ok () ∧ h.mode &&& 0o222 ≠ 0) :=
  ⟨⟨⟨b!"/", b!"directory", [], 0, false⟩, by decide⟩,
    ⟨⟨b!"/", b!"symlink", b!"x", 0, false⟩, by decide⟩⟩

/-- C38: `ModTime` is the epoch for all headers, so nothing about when a file was dumped or unpacked is invented; `Sys` is the header, from which
everything else follows: two headers with the same `Sys` have the same `FileInfo`. -/
theorem C38_info (h h' : Header) : h.fiModTime = 0 ∧ h.fiModTime = h'.fiModTime ∧
    (h.fiSys = h'.fiSys ↔ h.path = h'.path ∧ h.typ = h'.typ ∧ h.linkTarget = h'.linkTarget ∧ h.size = h'.size ∧ h.executable = h'.executable) ∧
    (h.fiSys = h'.fiSys → h.fiName = h'.fiName ∧ h.fiSize = h'.fiSize ∧ h.mode = h'.mode ∧ h.isDir = h'.isDir) := by
  refine ⟨rfl, rfl, ?_, fun e => ?_⟩
  · unfold Header.fiSys
    rcases h with ⟨_, _, _, _, _⟩
    rcases h' with ⟨_, _, _, _, _⟩
    simp
  · unfold Header.fiSys at e
    subst e
    exact ⟨rfl, rfl, rfl, rfl⟩

/-- C38, the part that holds: permission bits. Files and directories are readable and not writable
by everybody, and executable exactly for directories and executable files; exactly symlinks have
the symlink bit; no header has `ModeDir`. -/
theorem C38_permissions_partial (h : Header)
    (ht : h.typ = b!"regular" ∨ h.typ = b!"directory" ∨ h.typ = b!"symlink") :
    (h.typ ≠ b!"symlink" → h.mode &&& 0o444 = 0o444 ∧ h.mode &&& 0o222 = 0 ∧
      h.mode &&& 0o111 =
        (if h.typ = b!"directory" ∨ h.executable = true then 0o111 else 0)) ∧
    (h.mode.testBit 27 = true ↔ h.typ = b!"symlink") ∧ h.mode.testBit 31 = false ∧
    (h.isDir = true ↔ h.typ = b!"directory") ∧ h.fiSize = h.size ∧ h.fiName = h.path := by
  rcases h with ⟨p, t, l, s, e⟩
  simp only at ht
  rcases ht with rfl | rfl | rfl <;> cases e <;>
    simp [Header.mode, Header.isDir, Header.fiSize, Header.fiName, typeRegular, typeDirectory,
      typeSymlink, modePerm, modeSymlink, Nat.testBit]

example : (⟨b!"/bin/sh", b!"regular", [], 7, true⟩ : Header).mode = 0o555 := by decide

/-- C38 on Windows: exactly directories have `ModeDir` and exactly symlinks the symlink bit (so `Mode().IsDir()` and `IsDir()`
agree, as they do not elsewhere); the owner can never write; all other permission bits of regular files are set, whatever
`Executable` says, and none of directories and symlinks. -/
theorem C38_windows (h : Header) :
    (h.modeWindows.testBit 31 = h.isDir) ∧ (h.modeWindows.testBit 27 = true ↔ h.typ = b!"symlink") ∧
    h.modeWindows &&& 0o200 = 0 ∧ h.modeWindows &&& 0o777 = (if h.typ = b!"regular" then 0o577 else 0) := by
  rcases h with ⟨p, t, l, s, e⟩
  unfold Header.modeWindows Header.isDir
  simp only []
  by_cases h1 : t = b!"regular"
  · subst h1; simp [typeRegular, typeDirectory, typeSymlink, modePerm, modeDir, modeSymlink, Nat.testBit]
  by_cases h2 : t = b!"directory"
  · subst h2; simp [typeRegular, typeDirectory, typeSymlink, modePerm, modeDir, modeSymlink, Nat.testBit]
  by_cases h3 : t = b!"symlink"
  · subst h3; simp [typeRegular, typeDirectory, typeSymlink, modePerm, modeDir, modeSymlink, Nat.testBit]
  · simp [h1, h2, h3, typeRegular, typeDirectory, typeSymlink, Nat.testBit]

example : (⟨b!"/bin", b!"directory", [], 0, false⟩ : Header).modeWindows = 2 ^ 31 := by decide

end Verif.Props
