import Verif.GoLib

/-!
# Models of Go's `path` and `path/filepath` (Unix) and of string comparison (trusted)
-/

namespace Verif.GoLib

/-- Go `a <= b` on strings: bytewise lexicographic. -/
def strLe : Bytes → Bytes → Bool
  | [], _ => true
  | _ :: _, [] => false
  | a :: s, b :: t => if a = b then strLe s t else decide (a < b)

/-- Go `a < b` on strings. -/
def strLt (a b : Bytes) : Bool := !strLe b a

/-- One component of `path.Clean`, on the reversed list of the components kept so far. -/
def cleanStep (rooted : Bool) (stack : List Bytes) (c : Bytes) : List Bytes :=
  if c = [] ∨ c = b!"." then stack
  else if c = b!".." then
    match stack with
    | [] => if rooted then [] else [b!".."]
    | top :: rest => if top = b!".." then b!".." :: top :: rest else rest
  else c :: stack

/-- The components of `path.Clean(p)`. -/
def cleanComps (p : Bytes) : List Bytes :=
  ((splitByte p 47).foldl (cleanStep (p.head? == some 47)) []).reverse

/-- `path.Clean` (= `filepath.Clean` on Unix). -/
def clean (p : Bytes) : Bytes :=
  if p.head? = some 47 then 47 :: join (cleanComps p) b!"/"
  else if cleanComps p = [] then b!"."
  else join (cleanComps p) b!"/"

/-- `path.Join(a, b)` (= `filepath.Join` on Unix): empty elements are ignored. -/
def pathJoin (a b : Bytes) : Bytes :=
  if a = [] ∧ b = [] then []
  else if a = [] then clean b
  else if b = [] then clean a
  else clean (a ++ b!"/" ++ b)

/-- Remove the longest common prefix of two lists. -/
def stripCommon : List Bytes → List Bytes → List Bytes × List Bytes
  | a :: as, b :: bs => if a = b then stripCommon as bs else (a :: as, b :: bs)
  | as, bs => (as, bs)

/-- The result of `filepath.Rel` from the differing components. -/
def relResult (bs ts : List Bytes) : Bytes :=
  if bs = [] ∧ ts = [] then b!"."
  else join (bs.map (fun _ => b!"..") ++ ts) b!"/"

/-- `filepath.Rel(base, targ)` for paths starting with a slash; other arguments do not occur in
`/repo` (they give an error here). -/
def rel (base targ : Bytes) : Res Bytes :=
  if base.head? = some 47 ∧ targ.head? = some 47 then
    let d := stripCommon (cleanComps base) (cleanComps targ)
    .ok (relResult d.1 d.2)
  else .err (.msg "Rel: can't make relative")

/-- `path.Base`: trailing slashes are removed, then everything up to the last slash. -/
def pathBase (p : Bytes) : Bytes :=
  if p = [] then b!"."
  else
    let q := (p.reverse.dropWhile (· == 47)).reverse
    if q = [] then b!"/"
    else (q.reverse.takeWhile (· != 47)).reverse

end Verif.GoLib
