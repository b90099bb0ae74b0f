import Verif.GoLib

/-!
# Specification: the NAR format

File trees, their NAR serialisation (Dolstra's thesis, fig. 5.2: strings are length-prefixed and
zero-padded to eight bytes) and their list of entries in canonical order.
-/

namespace Verif.Spec

/-- The wire form of a string: eight bytes of length, least significant first, the bytes, and
zeros up to a multiple of eight. -/
def str (b : Bytes) : Bytes :=
  (List.range 8).map (fun i => UInt8.ofNat (b.length / 256 ^ i)) ++ b ++
    List.replicate ((8 - b.length % 8) % 8) 0

mutual
/-- A file system object. -/
inductive Tree where
  | regular (executable : Bool) (contents : Bytes)
  | symlink (target : Bytes)
  | directory (entries : Entries)
/-- The entries of a directory: names and objects. -/
inductive Entries where
  | nil
  | cons (name : Bytes) (node : Tree) (rest : Entries)
end

mutual
/-- Serialisation of a node. -/
def Tree.node : Tree → Bytes
  | .regular exec c =>
    str b!"(" ++ str b!"type" ++ str b!"regular" ++
      (if exec then str b!"executable" ++ str b!"" else []) ++ str b!"contents" ++ str c ++ str b!")"
  | .symlink t =>
    str b!"(" ++ str b!"type" ++ str b!"symlink" ++ str b!"target" ++ str t ++ str b!")"
  | .directory es => str b!"(" ++ str b!"type" ++ str b!"directory" ++ es.nodes ++ str b!")"
/-- Serialisation of the entries of a directory. -/
def Entries.nodes : Entries → Bytes
  | .nil => []
  | .cons n t es =>
    str b!"entry" ++ str b!"(" ++ str b!"name" ++ str n ++ str b!"node" ++ t.node ++ str b!")" ++
      es.nodes
end

/-- The NAR serialisation of a tree. -/
def Tree.nar (t : Tree) : Bytes := str b!"nix-archive-1" ++ t.node

/-- What an archive tells about one entry. -/
structure Entry where
  path : Bytes
  kind : Bytes
  executable : Bool
  target : Bytes
  contents : Bytes
  deriving DecidableEq, Repr

/-- The path of the entry `name` of the directory `dir`; `/` is the root. -/
def childPath (dir name : Bytes) : Bytes :=
  if dir = b!"/" then b!"/" ++ name else dir ++ b!"/" ++ name

mutual
/-- All entries of a tree placed at `path`: directories before their contents, in order. -/
def Tree.entriesAt (path : Bytes) : Tree → List Entry
  | .regular exec c => [⟨path, b!"regular", exec, [], c⟩]
  | .symlink t => [⟨path, b!"symlink", false, t, []⟩]
  | .directory es => ⟨path, b!"directory", false, [], []⟩ :: es.entriesAt path
/-- All entries below a directory. -/
def Entries.entriesAt (path : Bytes) : Entries → List Entry
  | .nil => []
  | .cons n t es => t.entriesAt (childPath path n) ++ es.entriesAt path
end

/-- A name a file can have: not empty, not `.` or `..`, without slash and NUL. -/
def NameOk (n : Bytes) : Prop :=
  n ≠ [] ∧ n ≠ b!"." ∧ n ≠ b!".." ∧ (47 : UInt8) ∉ n ∧ (0 : UInt8) ∉ n

instance (n : Bytes) : Decidable (NameOk n) := by unfold NameOk; infer_instance

/-- The names of the entries. -/
def Entries.names : Entries → List Bytes
  | .nil => []
  | .cons n _ es => n :: es.names

mutual
/-- `Tree.All P Q t`: every entry name at any depth satisfies `P`, every node `Q`, and the entries
of every directory are in strictly increasing byte order. -/
def Tree.All (P : Bytes → Prop) (Q : Tree → Prop) : Tree → Prop
  | .regular e c => Q (.regular e c)
  | .symlink t => Q (.symlink t)
  | .directory es => Q (.directory es) ∧ es.names.Pairwise (· < ·) ∧ es.All P Q
/-- see `Tree.All` -/
def Entries.All (P : Bytes → Prop) (Q : Tree → Prop) : Entries → Prop
  | .nil => True
  | .cons n t es => P n ∧ t.All P Q ∧ es.All P Q
end

end Verif.Spec
