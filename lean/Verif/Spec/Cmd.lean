import Verif.Spec.Nar

/-! # Specification: the lines of `gonix nar ls` -/

namespace Verif.Spec

/-- `n` in decimal. -/
def decimal (n : Nat) : Bytes := (Nat.toDigits 10 n).map fun c => UInt8.ofNat c.toNat

/-- The line for one entry: permissions, path, the size of a file that is not empty, the target of a symlink
(unless it is empty). -/
def Entry.line (e : Entry) : Bytes :=
  (if e.kind = b!"symlink" then b!"Lrwxrwxrwx"
   else if e.kind = b!"directory" ∨ e.executable then b!"-r-xr-xr-x" else b!"-r--r--r--") ++
  b!" " ++ e.path ++
  (if e.contents = [] then [] else b!" (" ++ decimal e.contents.length ++ b!" bytes)") ++
  (if e.target = [] then [] else b!" -> " ++ e.target) ++ b!"\n"

/-- What `ls` is to show for `path`: the entries whose path starts with it; without `-R`, only those with no further
slash after it. -/
def Entry.shown (path : Bytes) (recursive : Bool) (e : Entry) : Bool :=
  path.isPrefixOf e.path && (recursive || !(e.path.drop path.length).contains 47)

end Verif.Spec
