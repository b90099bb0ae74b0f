import Verif.Lemmas.DrvText
import Verif.Props.DrvJson

/-!
# C149: which JSON texts are derivations, and which ones
-/

namespace Verif.Props
open Verif.GoLib Verif.GoJson Verif.Derivation Verif.Spec Verif.NarLs

theorem drvMembers_ok (l : Members) : (∃ r, drvMembers zeroDrv [] [] l = .ok r ∧ (∀ x ∈ memberList l, KindOk x.1 x.2) ∧
      DrvFields (memberList l) r) ∨
    ((∃ e, drvMembers zeroDrv [] [] l = .err e) ∧ ¬ ∀ x ∈ memberList l, KindOk x.1 x.2) := by
  rcases drvMembers_cases l zeroDrv [] [] with ⟨h1, r, h2, h3⟩ | ⟨h1, h2⟩
  · obtain ⟨s, a, p⟩ := h3 [] sofar_zero
    rw [List.nil_append] at p
    exact .inl ⟨r, h2, h1, p.name, p.outputs, ⟨s, p.inputSources⟩, p.inputDerivations, p.platform, p.builder, ⟨a, p.arguments⟩, p.env⟩
  · exact .inr ⟨h2, h1⟩

/-- What a text says determines the derivation, but for the order of its maps. -/
theorem C149_unique (s : Bytes) (r r' : RawDrv) (h : DrvSays s r) (h' : DrvSays s r') : RawSame r r' := by
  obtain ⟨w, t, u, v, e1, e2, e3, e4, e5, hv⟩ := h
  obtain ⟨w', t', u', v', f1, f2, f3, f4, f5, hv'⟩ := h'
  have h1 := unmarshal_iff.2 ⟨w, t, u, e1, e2, e4, e3, e5⟩
  have h2 := unmarshal_iff.2 ⟨w', t', u', f1, f2, f4, f3, f5⟩
  rw [h1] at h2
  cases h2
  rcases hv with ⟨rfl, rfl⟩ | ⟨l, rfl, hk, hf⟩ <;> rcases hv' with ⟨e, rfl⟩ | ⟨l', e, hk', hf'⟩
  · exact ⟨rfl, .refl _, rfl, .refl _, rfl, rfl, rfl, .refl _⟩
  · cases e
  · cases e
  · cases e
    exact drvFields_same hf hf'

/-- Exactly the texts that say that there is a derivation are read, and as this derivation (but for the order of its maps). -/
theorem C149_exact (s : Bytes) (r : RawDrv) : (∃ r', unmarshalDrv s = .ok r' ∧ RawSame r' r) ↔ DrvSays s r := by
  have hz : RawSame zeroDrv ⟨[], [], [], [], [], [], [], []⟩ := ⟨rfl, .refl _, rfl, .refl _, rfl, rfl, rfl, .refl _⟩
  constructor
  · rintro ⟨r', h, hs⟩
    unfold unmarshalDrv at h
    split at h
    · cases h
    · rename_i hu
      cases h
      obtain ⟨w, t, w', e1, e2, e3, e4, e5⟩ := unmarshal_iff.1 hu
      refine ⟨w, t, w', _, e1, e2, e4, e3, e5, .inl ⟨rfl, ?_⟩⟩
      obtain ⟨n, o, sr, i, p, b, a, e⟩ := r
      obtain ⟨h1, h2, h3, h4, h5, h6, h7, h8⟩ := hs
      simp only [zeroDrv] at h1 h2 h3 h4 h5 h6 h7 h8
      rw [← h1, ← h3, ← h5, ← h6, ← h7, List.nil_perm.1 h2, List.nil_perm.1 h4, List.nil_perm.1 h8]
    · rename_i l hu
      obtain ⟨w, t, w', e1, e2, e3, e4, e5⟩ := unmarshal_iff.1 hu
      rcases drvMembers_ok l with ⟨r1, g1, g2, g3⟩ | ⟨⟨e, g1⟩, _⟩
      · rw [g1] at h
        cases h
        exact ⟨w, t, w', _, e1, e2, e4, e3, e5, .inr ⟨l, rfl, g2, drvFields_of_same g3 hs⟩⟩
      · rw [g1] at h; cases h
    · cases h
  · rintro ⟨w, t, w', v, e1, e2, e3, e4, e5, hv⟩
    have hu := unmarshal_iff.2 ⟨w, t, w', e1, e2, e4, e3, e5⟩
    unfold unmarshalDrv
    rw [hu]
    rcases hv with ⟨rfl, rfl⟩ | ⟨l, rfl, hk, hf⟩
    · exact ⟨zeroDrv, rfl, hz⟩
    · rcases drvMembers_ok l with ⟨r1, g1, g2, g3⟩ | ⟨_, g1⟩
      · exact ⟨r1, g1, drvFields_same g3 hf⟩
      · exact absurd hk g1

/-- Every other text is refused with an error. -/
theorem C149_refused (s : Bytes) : (∃ e, unmarshalDrv s = .err e) ↔ ¬ ∃ r, DrvSays s r := by
  have hp : unmarshalDrv s ≠ .panic := by
    unfold unmarshalDrv
    split
    · simp
    · simp
    · rename_i l _
      rcases drvMembers_ok l with ⟨r1, g1, _⟩ | ⟨⟨e, g1⟩, _⟩ <;> rw [g1] <;> simp
    · simp
  constructor
  · rintro ⟨e, h⟩ ⟨r, hr⟩
    obtain ⟨r', h', _⟩ := (C149_exact s r).2 hr
    rw [h] at h'
    cases h'
  · intro h
    cases hu : unmarshalDrv s with
    | err e => exact ⟨e, rfl⟩
    | panic => exact absurd hu hp
    | ok r => exact absurd ⟨r, (C149_exact s r).1 ⟨r, hu, rfl, .refl _, rfl, .refl _, rfl, rfl, rfl, .refl _⟩⟩ h

/-! ### Concrete texts -/

/-- keys in another case, given twice and unknown, null in an array -/
def oddText : Bytes :=
  b!" {\"OUTPUTS\":{\"out\":{\"path\":\"/p\",\"Hash\":\"h\",\"x\":1}},\"args\":[\"a\",\"b\"],\"outputs\":{\"dev\":null},\"more\":[0],\"args\":[null,\"c\",null],\"env\":{\"a\":\"1\",\"a\":null},\"builder\":\"b\",\"builder\":null}\n"

/-- what it says -/
def oddDrv : RawDrv :=
  ⟨[], [(b!"out", some ⟨b!"/p", [], b!"h"⟩), (b!"dev", none)], [], [], [], b!"b", [b!"a", b!"c", []], [(b!"a", [])]⟩

example : unmarshalDrv oddText = .ok oddDrv := by decide +kernel
example : DrvSays oddText oddDrv :=
  (C149_exact oddText oddDrv).1 ⟨oddDrv, by decide +kernel, rfl, .refl _, rfl, .refl _, rfl, rfl, rfl, .refl _⟩
/-- an array that became shorter and longer again still has the old strings -/
example : unmarshalDrv b!"{\"args\":[\"a\",\"b\"],\"args\":[\"c\"],\"args\":[null,null]}" =
    .ok { zeroDrv with arguments := [b!"c", b!"b"] } := by decide +kernel
example : unmarshalDrv b!"{\"args\":[\"a\",\"b\"],\"args\":[],\"args\":[null,null]}" =
    .ok { zeroDrv with arguments := [[], []] } := by decide +kernel
example : ¬ ∃ r, DrvSays b!"{\"env\":{\"a\":1}}" r := (C149_refused _).1 ⟨_, rfl⟩
example : ¬ ∃ r, DrvSays b!"{} {}" r := (C149_refused _).1 ⟨_, rfl⟩

end Verif.Props
