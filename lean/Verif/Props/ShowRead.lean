import Verif.Props.Show
import Verif.Props.Attrs

/-!
# C85, C108, C109, C112: derivations that were read

With `jsonName` (Model/Attrs.lean) in place of the parameter of `readDerivation`.
-/

namespace Verif.Props
open Verif.GoLib Verif.GoJson Verif.Derivation Verif.Spec Verif.Cmd Verif.Wire

/-- `ReadDerivation` panics exactly on the texts that parse, but for the name, and have an environment variable
`__json` whose value is the JSON text `null`. -/
theorem C85_exact (s : Stream) : readDerivation jsonName s = .panic ↔
    s.term = .eof ∧ ∃ d j, parseDerivation (fun _ => .ok (some [])) s.data = .ok d ∧ d.env.get? b!"__json" = some j ∧ JDoc j .null := by
  have np : ∀ j, jsonName j ≠ .panic := by
    intro j
    unfold jsonName
    split
    · simp
    · simp
    · split
      · simp
      · simp
      · rename_i h; exact absurd h (nameMembers_ne_panic _ _)
    · simp
  have nn : ∀ j, jsonName j = .ok none ↔ JDoc j .null := by
    intro j
    rw [← (C110_name j).2]
    have := np j
    cases h : jsonName j with
    | panic => exact absurd h this
    | err e => simp [attrsName]
    | ok x => cases x <;> simp [attrsName]
  rw [C85_read_no_panic_partial jsonName np s]
  simp only [nn]

theorem increasing_nodup {l : List Bytes} (h : Increasing l) : l.Nodup :=
  (List.pairwise_cons.1 h).2.imp fun hab e => by
    rw [e] at hab
    exact List.lt_irrefl _ hab

/-- The maps of a derivation that was read have no key twice. -/
theorem read_maps {jn : Bytes → Res (Option Bytes)} {s : Stream} {d : Derivation} (h : readDerivation jn s = .ok d) : Maps d := by
  obtain ⟨h1, h2, h3⟩ := C60_any_input jn s d h
  exact ⟨increasing_nodup h1, increasing_nodup h2, increasing_nodup h3⟩

theorem perm_increasing {α : Type} {m m' : GoMap α} (h : m.Perm m') (hi : Increasing m.keys) (hi' : Increasing m'.keys) : m = m' := by
  have lt : ∀ {m : GoMap α}, Increasing m.keys → List.Pairwise (fun a b : Bytes × α => a.1 < b.1) m := by
    intro m h
    have := (List.pairwise_cons.1 h).2
    exact List.pairwise_map.1 this
  refine List.Perm.eq_of_pairwise (le := fun a b => a.1 < b.1) ?_ (lt hi) (lt hi') h
  intro a b _ _ h1 h2
  exact absurd (List.lt_trans h1 h2) (List.lt_irrefl _)

/-- Two texts of derivations of UTF-8 strings that are shown alike were read as the same derivation, its name included. -/
theorem C109_read_partial (short : Bool) (format : Bytes) (s s' : Stream) (d d' : Derivation) (hr : readDerivation jsonName s = .ok d)
    (hr' : readDerivation jsonName s' = .ok d') (hu : DrvUtf8 d) (hu' : DrvUtf8 d') (hf : format = b!"json" ∨ format = b!"json-pretty")
    (h : showDrv short format (.ok d) = showDrv short format (.ok d')) : d = d' := by
  have hs := C109_injective_partial short format d d' (read_maps hr) (read_maps hr') hu hu' hf h
  obtain ⟨i1, i2, i3⟩ := C60_any_input jsonName s d hr
  obtain ⟨j1, j2, j3⟩ := C60_any_input jsonName s' d' hr'
  have e1 := perm_increasing hs.outputs i1 j1
  have e2 := perm_increasing hs.inputDerivations i2 j2
  have e3 := perm_increasing hs.env i3 j3
  have e4 := hs.inputSources
  have e5 := hs.platform
  have e6 := hs.builder
  have e7 := hs.arguments
  simp only at e1 e2 e3 e4 e5 e6 e7
  have e8 : d.name = d'.name := by
    obtain ⟨a1, a2⟩ := C110_read s d hr
    obtain ⟨b1, b2⟩ := C110_read s' d' hr'
    cases hj : d.env.get? b!"__json" with
    | none =>
      rw [a2 hj, b2 (e3 ▸ hj)]
    | some j =>
      have x := ((C110_name j).1 d.name).2 (a1 j hj)
      have y := ((C110_name j).1 d'.name).2 (b1 j (e3 ▸ hj))
      rw [x] at y
      exact Res.ok.inj y
  cases d
  cases d'
  simp only at e1 e2 e3 e4 e5 e6 e7 e8
  rw [e1, e2, e3, e4, e5, e6, e7, e8]

/-- What `gonix drv show` prints for a text that was read, in both JSON formats: the object of the derivation, with
U+FFFD for bytes that are no UTF-8; a decoder gets it back. -/
theorem C108_read (short : Bool) (s : Stream) (d : Derivation) (h : readDerivation jsonName s = .ok d) :
    ∃ t t' v g, showDrv short b!"json" (readDerivation jsonName s) = .ok (t ++ b!"\n") ∧
      showDrv short b!"json-pretty" (readDerivation jsonName s) = .ok (t' ++ b!"\n") ∧
      DrvObject d v ∧ (∀ s, Repaired s (g s)) ∧ JText true t (mapStr g v) ∧ JText true t' (mapStr g v) := by
  rw [h]
  exact C108_json short d (read_maps h)

/-- a text that is read and shown -/
example : readDerivation jsonName ⟨b!"Derive([(\"out\",\"/nix/store/" ++ dHash ++
      b!"-x\",\"\",\"\")],[],[],\"s\",\"b\",[],[(\"name\",\"x\")])", .eof⟩ =
    .ok ⟨[], [(b!"out", ⟨b!"/nix/store/" ++ dHash ++ b!"-x", [], []⟩)], [], [], b!"s", b!"b", [], [(b!"name", b!"x")]⟩ := by
  decide +kernel

end Verif.Props
