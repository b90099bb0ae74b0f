import Verif.Model.NarDumpFs
import Verif.Spec.NarDump

/-!
# Specification: what is seen of a file system that changes
-/

namespace Verif.Nar
open Verif.Spec Verif.GoLib

mutual
/-- `Seen fs keep path s sub o s'`: looking at the node `sub` below `path`, beginning in the state `s` of the file
system and ending in the state `s'`, shows the tree `o` (`none`: the filter rejects it). Every node is looked at
once, a directory before its entries, these in the order in which they were listed. -/
inductive Seen {S : Type} (fs : FileSys S) (keep : Bytes → Bytes → Bool) (path : Bytes) : S → Bytes → Option Tree → S → Prop
  | rejectedFile {s s1 : S} {sub : Bytes} {x : Bool} {size : Int} (h : fs.lstat (pathJoin path sub) s = (.ok (.regular x size), s1))
      (hk : keep (pathJoin path sub) b!"regular" = false) : Seen fs keep path s sub none s1
  | rejectedLink {s s1 : S} {sub : Bytes} (h : fs.lstat (pathJoin path sub) s = (.ok .symlink, s1))
      (hk : keep (pathJoin path sub) b!"symlink" = false) : Seen fs keep path s sub none s1
  | rejectedDirectory {s s1 : S} {sub : Bytes} (h : fs.lstat (pathJoin path sub) s = (.ok .directory, s1))
      (hk : keep (pathJoin path sub) b!"directory" = false) : Seen fs keep path s sub none s1
  /-- the file is read to its end, and has the size it had when it was looked at -/
  | file {s s1 s2 : S} {sub : Bytes} {x : Bool} {pieces : List Bytes}
      (h : fs.lstat (pathJoin path sub) s = (.ok (.regular x pieces.flatten.length), s1))
      (hk : keep (pathJoin path sub) b!"regular" = true)
      (hr : fs.read (pathJoin path sub) s1 = ((pieces, none), s2)) :
      Seen fs keep path s sub (some (.regular x pieces.flatten)) s2
  | link {s s1 s2 : S} {sub : Bytes} {t : Bytes} (h : fs.lstat (pathJoin path sub) s = (.ok .symlink, s1))
      (hk : keep (pathJoin path sub) b!"symlink" = true)
      (hr : fs.readlink (pathJoin path sub) s1 = (.ok t, s2)) : Seen fs keep path s sub (some (.symlink t)) s2
  | directory {s s1 s2 s3 : S} {sub : Bytes} {names : List Bytes} {es : Entries}
      (h : fs.lstat (pathJoin path sub) s = (.ok .directory, s1))
      (hk : keep (pathJoin path sub) b!"directory" = true)
      (hr : fs.readDir (pathJoin path sub) s1 = (.ok names, s2))
      (he : SeenEntries fs keep path s2 sub names es s3) : Seen fs keep path s sub (some (.directory es)) s3
/-- The entries with these names of the directory `sub`, one after another. -/
inductive SeenEntries {S : Type} (fs : FileSys S) (keep : Bytes → Bytes → Bool) (path : Bytes) :
    S → Bytes → List Bytes → Entries → S → Prop
  | nil {s : S} {sub : Bytes} : SeenEntries fs keep path s sub [] .nil s
  | kept {s s1 s2 : S} {sub n : Bytes} {ns : List Bytes} {t : Tree} {es : Entries}
      (h : Seen fs keep path s (childPath sub n) (some t) s1) (hs : SeenEntries fs keep path s1 sub ns es s2) :
      SeenEntries fs keep path s sub (n :: ns) (.cons n t es) s2
  | left {s s1 s2 : S} {sub n : Bytes} {ns : List Bytes} {es : Entries}
      (h : Seen fs keep path s (childPath sub n) none s1) (hs : SeenEntries fs keep path s1 sub ns es s2) :
      SeenEntries fs keep path s sub (n :: ns) es s2
end

/-- What every operating system guarantees: directories are listed sorted by name (by `os.ReadDir`) with names of files,
links have a target, files have less than 2^63 bytes. -/
structure FileSys.Sane {S : Type} (fs : FileSys S) : Prop where
  names : ∀ p s ns s', fs.readDir p s = (.ok ns, s') → ns.Pairwise (· < ·) ∧ ∀ n ∈ ns, NameOk n
  target : ∀ p s t s', fs.readlink p s = (.ok t, s') → t ≠ []
  size : ∀ p s, (fs.read p s).1.1.flatten.length < 2 ^ 63

/-- The operating system's path of the entry `name` of the directory `dir`. -/
def osChild (dir name : Bytes) : Bytes :=
  if dir = b!"/" then b!"/" ++ name else if dir = b!"." then name else dir ++ b!"/" ++ name

mutual
/-- In the state `s`, which looking does not change, the file system has this tree at `p`. -/
def Tree.HeldAt {S : Type} (fs : FileSys S) (s : S) : Tree → Bytes → Prop
  | .regular x c, p => fs.lstat p s = (.ok (.regular x c.length), s) ∧
      ∃ pieces, fs.read p s = ((pieces, none), s) ∧ pieces.flatten = c
  | .symlink t, p => fs.lstat p s = (.ok .symlink, s) ∧ fs.readlink p s = (.ok t, s)
  | .directory es, p => fs.lstat p s = (.ok .directory, s) ∧ fs.readDir p s = (.ok es.names, s) ∧ Entries.HeldAt fs s es p
/-- see `Tree.HeldAt` -/
def Entries.HeldAt {S : Type} (fs : FileSys S) (s : S) : Entries → Bytes → Prop
  | .nil, _ => True
  | .cons n t es, p => Tree.HeldAt fs s t (osChild p n) ∧ Entries.HeldAt fs s es p
end

mutual
/-- What is left of a tree at `p` without what the filter rejects. -/
def filtered (keep : Bytes → Bytes → Bool) : Tree → Bytes → Option Tree
  | .regular x c, p => if keep p b!"regular" then some (.regular x c) else none
  | .symlink t, p => if keep p b!"symlink" then some (.symlink t) else none
  | .directory es, p => if keep p b!"directory" then some (.directory (filteredEntries keep es p)) else none
/-- see `filtered` -/
def filteredEntries (keep : Bytes → Bytes → Bool) : Entries → Bytes → Entries
  | .nil, _ => .nil
  | .cons n t es, p =>
    match filtered keep t (osChild p n) with
    | some t' => .cons n t' (filteredEntries keep es p)
    | none => filteredEntries keep es p
end

end Verif.Nar
