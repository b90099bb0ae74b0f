import Verif.Props.DrvJson

/-!
# C155: derivations as JSON that were cut short
-/

namespace Verif.Props
open Verif.GoLib Verif.GoJson Verif.Derivation Verif.Spec Verif.Cmd

/-- a text that is accepted, and more behind it -/
theorem unmarshal_more {b r : Bytes} {v v' : Json} (hv : ∀ l, v ≠ .num l) (h : unmarshal b = some v)
    (h' : unmarshal (b ++ r) = some v') : v' = v ∧ Ws r := by
  obtain ⟨w, t, u, rfl, hw, ht, hu, hd⟩ := unmarshal_iff.1 h
  have hp : parseJson (w ++ t ++ u ++ r) = some (v, u ++ r) :=
    (parseJson_iff hv).2 ⟨w, t, by simp only [List.append_assoc], hw, ht, hd⟩
  unfold unmarshal at h'
  rw [hp] at h'
  simp only [] at h'
  split at h'
  · rename_i hs
    cases h'
    have := skipSpace_nil hs
    exact ⟨rfl, fun c hc => this c (List.mem_append_right _ hc)⟩
  · cases h'

/-- The beginning of a text from which a derivation was read is refused, unless only white space was cut off. -/
theorem C155_beginning (b r : Bytes) (x y : RawDrv) (h : unmarshalDrv (b ++ r) = .ok x) (hb : unmarshalDrv b = .ok y) :
    y = x ∧ ∀ c ∈ r, c ∈ b!" \t\n\r" := by
  unfold unmarshalDrv at h hb
  cases hu : unmarshal b with
  | none => rw [hu] at hb; cases hb
  | some v =>
    cases hs : unmarshal (b ++ r) with
    | none => rw [hs] at h; cases h
    | some v' =>
      have hv : ∀ l, v ≠ .num l := by
        rintro l rfl
        rw [hu] at hb
        cases hb
      obtain ⟨rfl, hw⟩ := unmarshal_more hv hu hs
      rw [hu] at hb
      rw [hs] at h
      exact ⟨Res.ok.inj (hb.symm.trans h), hw⟩

/-- Every proper beginning of what `gonix drv show` prints as JSON (other than all of it but the newline at its end) is no
JSON text: every reader of JSON refuses it, also the one for derivations. -/
theorem C155_show (short : Bool) (format : Bytes) (d : Derivation) (hf : format = b!"json" ∨ format = b!"json-pretty")
    (b r : Bytes) (h : showDrv short format (.ok d) = .ok (b ++ r)) (hr : r ≠ []) (hn : r ≠ b!"\n") :
    unmarshal b = none ∧ ∃ e, unmarshalDrv b = .err e := by
  have key : unmarshal b = none := by
    cases hu : unmarshal b with
    | none => rfl
    | some v =>
      exfalso
      have hs := unmarshal_show short format d hf _ h
      have hshape : ∃ t, b ++ r = b!"{" ++ t ++ b!"}" ++ b!"\n" := by
        rcases hf with rfl | rfl
        · have e : b ++ r = (jsonDrv d).text short ++ b!"\n" := (Res.ok.inj h).symm
          rw [e]
          unfold jsonDrv
          rw [Json.text]
          exact ⟨_, rfl⟩
        · have e : b ++ r = (jsonDrv d).pretty short 0 ++ b!"\n" := (Res.ok.inj h).symm
          rw [e]
          unfold jsonDrv
          rw [Json.pretty]
          · rw [List.append_assoc b!"{"]
            exact ⟨_, rfl⟩
          · intro hh; cases hh
      obtain ⟨t, ht⟩ := hshape
      have hv : ∀ l, v ≠ .num l := by
        rintro l rfl
        obtain ⟨w, u, w', rfl, hw, hu', -, -⟩ := unmarshal_iff.1 hu
        cases hu' with
        | num hl =>
          obtain ⟨c, l', rfl, hc⟩ := jnum_head hl
          cases w with
          | nil =>
            have e := (List.cons.inj ht).1
            subst e
            exact absurd hc (by decide)
          | cons a w =>
            have e := (List.cons.inj ht).1
            subst e
            exact absurd (hw _ List.mem_cons_self) (by decide)
      obtain ⟨-, hw⟩ := unmarshal_more hv hu hs
      rcases List.eq_nil_or_concat r with rfl | ⟨r', c, rfl⟩
      · exact hr rfl
      rw [List.concat_eq_append] at ht hw hn
      rw [← List.append_assoc] at ht
      obtain ⟨e1, e2⟩ := List.append_inj' ht rfl
      rcases List.eq_nil_or_concat r' with rfl | ⟨r'', c', rfl⟩
      · exact hn e2
      rw [List.concat_eq_append] at e1 hw
      rw [← List.append_assoc] at e1
      have e3 := (List.append_inj' e1 rfl).2
      have : c' = 125 := (List.cons.inj e3).1
      subst this
      exact absurd (hw 125 (by simp)) (by decide)
  refine ⟨key, ?_⟩
  unfold unmarshalDrv
  rw [key]
  exact ⟨_, rfl⟩

/-- the last newline is not needed -/
theorem C155_newline (short : Bool) (format : Bytes) (d : Derivation) (hf : format = b!"json" ∨ format = b!"json-pretty")
    (b : Bytes) (h : showDrv short format (.ok d) = .ok (b ++ b!"\n")) : unmarshalDrv b = unmarshalDrv (b ++ b!"\n") := by
  have hs := unmarshal_show short format d hf _ h
  obtain ⟨w, t, u, e, hw, ht, hu, hd⟩ := unmarshal_iff.1 hs
  have hb : unmarshal b = some (mapStr repair (jsonDrv d)) := by
    rcases List.eq_nil_or_concat u with rfl | ⟨u', c, rfl⟩
    · exfalso
      obtain ⟨l, hl⟩ : ∃ l, mapStr repair (jsonDrv d) = .obj l := ⟨_, by unfold jsonDrv; rw [mapStr]⟩
      rw [hl] at ht
      rw [List.append_nil] at e
      have last : ∀ t : Bytes, JText false t (.obj l) → ∃ t', t = t' ++ b!"}" := by
        intro t ht
        cases ht with
        | emptyObj _ => exact ⟨_, rfl⟩
        | obj _ => exact ⟨_, rfl⟩
      obtain ⟨t', rfl⟩ := last t ht
      rw [← List.append_assoc] at e
      exact absurd (List.append_inj' e rfl).2 (by decide)
    · rw [List.concat_eq_append] at e hu
      rw [← List.append_assoc] at e
      exact unmarshal_iff.2 ⟨w, t, u', (List.append_inj' e rfl).1, hw, ht, fun c hc => hu c (List.mem_append_left _ hc), hd⟩
  unfold unmarshalDrv
  rw [hb, hs]

/-- The JSON of a derivation that was cut behind its first half is refused, and all of it is not. -/
example : ∃ b r, showDrv true b!"json" (.ok sampleDrv) = .ok (b ++ r) ∧ b ≠ [] ∧ r ≠ [] ∧ r ≠ b!"\n" ∧
    (∃ x, unmarshalDrv (b ++ r) = .ok x) := by
  obtain ⟨out, ho⟩ : ∃ out, showDrv true b!"json" (.ok sampleDrv) = .ok out := ⟨_, rfl⟩
  have hl : 100 < out.length := by
    have := Res.ok.inj ho
    subst this
    decide +kernel
  obtain ⟨x, -, hx, -⟩ := C140_read true b!"json" sampleDrv (by constructor <;> decide +kernel) (.inl rfl) out ho
  refine ⟨out.take 50, out.drop 50, by rw [List.take_append_drop]; exact ho, ?_, ?_, ?_, x.raw, by rw [List.take_append_drop]; exact hx⟩
  · intro h
    have := congrArg List.length h
    rw [List.length_take, List.length_nil] at this
    omega
  · intro h
    have := congrArg List.length h
    simp at this
    omega
  · intro h
    have := congrArg List.length h
    rw [List.length_drop] at this
    simp at this
    omega

end Verif.Props
