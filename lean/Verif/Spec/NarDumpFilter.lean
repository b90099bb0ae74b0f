import Verif.Model.NarDumpFilter
import Verif.Spec.NarDumpFs

/-!
# Specification: dumping with a filter that has a state
-/

namespace Verif.Nar
open Verif.Spec Verif.GoLib

/-- The name of the type that the filter is given. -/
def Kind.typeName : Kind → Option Bytes
  | .regular _ _ => some b!"regular"
  | .symlink => some b!"symlink"
  | .directory => some b!"directory"
  | .other => none

mutual
/-- `SeenAsked fs f path s sub o s'`: like `Seen`, with the filter `f` asked once for every node that is looked at, after `lstat` and before anything else is
done with the node; below a rejected directory nothing is looked at. -/
inductive SeenAsked {S : Type} (fs : FileSys S) (f : Asker S) (path : Bytes) : S → Bytes → Option Tree → S → Prop
  | rejected {s s1 s2 : S} {sub ty : Bytes} {k : Kind} (h : fs.lstat (pathJoin path sub) s = (.ok k, s1)) (ht : k.typeName = some ty)
      (hk : f (pathJoin path sub) ty s1 = (false, s2)) : SeenAsked fs f path s sub none s2
  | file {s s1 s2 s3 : S} {sub : Bytes} {x : Bool} {pieces : List Bytes}
      (h : fs.lstat (pathJoin path sub) s = (.ok (.regular x pieces.flatten.length), s1))
      (hk : f (pathJoin path sub) b!"regular" s1 = (true, s2))
      (hr : fs.read (pathJoin path sub) s2 = ((pieces, none), s3)) :
      SeenAsked fs f path s sub (some (.regular x pieces.flatten)) s3
  | link {s s1 s2 s3 : S} {sub : Bytes} {t : Bytes} (h : fs.lstat (pathJoin path sub) s = (.ok .symlink, s1))
      (hk : f (pathJoin path sub) b!"symlink" s1 = (true, s2))
      (hr : fs.readlink (pathJoin path sub) s2 = (.ok t, s3)) : SeenAsked fs f path s sub (some (.symlink t)) s3
  | directory {s s1 s2 s3 s4 : S} {sub : Bytes} {names : List Bytes} {es : Entries}
      (h : fs.lstat (pathJoin path sub) s = (.ok .directory, s1))
      (hk : f (pathJoin path sub) b!"directory" s1 = (true, s2))
      (hr : fs.readDir (pathJoin path sub) s2 = (.ok names, s3))
      (he : EntriesAsked fs f path s3 sub names es s4) : SeenAsked fs f path s sub (some (.directory es)) s4
/-- The entries with these names of the directory `sub`, one after another. -/
inductive EntriesAsked {S : Type} (fs : FileSys S) (f : Asker S) (path : Bytes) : S → Bytes → List Bytes → Entries → S → Prop
  | nil {s : S} {sub : Bytes} : EntriesAsked fs f path s sub [] .nil s
  | kept {s s1 s2 : S} {sub n : Bytes} {ns : List Bytes} {t : Tree} {es : Entries}
      (h : SeenAsked fs f path s (childPath sub n) (some t) s1) (hs : EntriesAsked fs f path s1 sub ns es s2) :
      EntriesAsked fs f path s sub (n :: ns) (.cons n t es) s2
  | left {s s1 s2 : S} {sub n : Bytes} {ns : List Bytes} {es : Entries}
      (h : SeenAsked fs f path s (childPath sub n) none s1) (hs : EntriesAsked fs f path s1 sub ns es s2) :
      EntriesAsked fs f path s sub (n :: ns) es s2
end

mutual
/-- A filter with states `F` visits the tree at `p`: it is asked about a node, and then, if it is a directory that it takes, about its entries in order.
What is left of the tree, and the state of the filter afterwards. -/
def visit {F : Type} (f : Bytes → Bytes → F → Bool × F) : Tree → Bytes → F → Option Tree × F
  | .regular x c, p, st =>
    match f p b!"regular" st with
    | (true, st) => (some (.regular x c), st)
    | (false, st) => (none, st)
  | .symlink t, p, st =>
    match f p b!"symlink" st with
    | (true, st) => (some (.symlink t), st)
    | (false, st) => (none, st)
  | .directory es, p, st =>
    match f p b!"directory" st with
    | (true, st) => (some (.directory (visitEntries f es p st).1), (visitEntries f es p st).2)
    | (false, st) => (none, st)
/-- see `visit` -/
def visitEntries {F : Type} (f : Bytes → Bytes → F → Bool × F) : Entries → Bytes → F → Entries × F
  | .nil, _, st => (.nil, st)
  | .cons n t es, p, st =>
    match visit f t (osChild p n) st with
    | (some t', st) => (.cons n t' (visitEntries f es p st).1, (visitEntries f es p st).2)
    | (none, st) => visitEntries f es p st
end

/-- A file system whose states have nothing to do with those of the filter. -/
def FileSys.beside {S : Type} (fs : FileSys S) (F : Type) : FileSys (S × F) where
  lstat p s := ((fs.lstat p s.1).1, (fs.lstat p s.1).2, s.2)
  readlink p s := ((fs.readlink p s.1).1, (fs.readlink p s.1).2, s.2)
  readDir p s := ((fs.readDir p s.1).1, (fs.readDir p s.1).2, s.2)
  read p s := ((fs.read p s.1).1, (fs.read p s.1).2, s.2)

/-- A filter that has nothing to do with the states of the file system. -/
def Asker.beside {F : Type} (S : Type) (f : Bytes → Bytes → F → Bool × F) : Asker (S × F) :=
  fun p ty s => ((f p ty s.2).1, s.1, (f p ty s.2).2)

/-- The filter `keep`, writing down what it is asked. -/
def recorder (keep : Bytes → Bytes → Bool) : Bytes → Bytes → List (Bytes × Bytes) → Bool × List (Bytes × Bytes) :=
  fun p ty l => (keep p ty, l ++ [(p, ty)])

/-- The type of a node. -/
def _root_.Verif.Spec.Tree.typeName : Tree → Bytes
  | .regular _ _ => b!"regular"
  | .symlink _ => b!"symlink"
  | .directory _ => b!"directory"

mutual
/-- The nodes of the tree at `p` that are not below a rejected directory, with their types, in order. -/
def asked (keep : Bytes → Bytes → Bool) : Tree → Bytes → List (Bytes × Bytes)
  | .regular _ _, p => [(p, b!"regular")]
  | .symlink _, p => [(p, b!"symlink")]
  | .directory es, p => (p, b!"directory") :: if keep p b!"directory" then askedEntries keep es p else []
/-- see `asked` -/
def askedEntries (keep : Bytes → Bytes → Bool) : Entries → Bytes → List (Bytes × Bytes)
  | .nil, _ => []
  | .cons n t es, p => asked keep t (osChild p n) ++ askedEntries keep es p
end

end Verif.Nar
