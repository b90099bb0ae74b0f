import Verif.Model.Gonix
import Verif.Spec.Show
import Verif.Spec.Nar
import Verif.Spec.StoreUri
import Verif.Spec.Storepath

/-!
# Specification: what `gonix drv show` prints
-/

namespace Verif.Props
open Verif.GoLib Verif.GoJson Verif.Derivation Verif.Store Verif.Spec Verif.Cmd

/-- The store that the URL names has the derivation `d` under the path `p`. -/
def StoreHas (w : World) (u : GoUrl.URL) (p : Bytes) (d : Derivation) : Prop :=
  ((u.scheme = [] ∨ u.scheme = b!"file") ∧
    ∃ s, w.os.openFile (pathJoin (if u.path = [] then b!"/nix/store" else u.path) (pathBase p)) = .ok s ∧
      readDerivation w.jsonName s = .ok d) ∨
  ((u.scheme = b!"http" ∨ u.scheme = b!"https") ∧
    ∃ r resp, HTTPStore.constructRequest ⟨u⟩ p = .ok r ∧ w.request b!"GET" r = .ok resp ∧ 200 ≤ resp.status ∧ resp.status ≤ 299 ∧
      resp.body.term = .eof ∧ readDerivation w.jsonName resp.body = .ok d) ∨
  (u.scheme = b!"badger" ∧ ∃ db t, w.openBadger [] = .ok db ∧ db.get? (b!"drv:" ++ p) = some t ∧ readDerivation w.jsonName ⟨t, .eof⟩ = .ok d)

/-- `out` is what the format says about the derivation: its ATerm text, or a JSON text of its object. -/
def Printed (format : Bytes) (d : Derivation) (out : Bytes) : Prop :=
  (format = b!"aterm" ∧ d.write ⟨[], none⟩ = (.ok (), ⟨out, none⟩)) ∨
  ((format = b!"json" ∨ format = b!"json-pretty") ∧ ∃ v, DrvObject d v ∧ unmarshal out = some v)

end Verif.Props
