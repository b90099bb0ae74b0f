import Verif.Props.LsText

/-!
# C156: listings that were cut short, or have something behind them
-/

namespace Verif.Props
open Verif.GoLib Verif.GoJson Verif.NarLs Verif.Spec Verif.Nar

/-- more data behind a value that is no number -/
theorem parseJson_more {s r : Bytes} {v : Json} (hv : ∀ l, v ≠ .num l) (h : parseJson s = some (v, r)) (q : Bytes) :
    parseJson (s ++ q) = some (v, r ++ q) := by
  obtain ⟨w, t, rfl, hw, ht, hd⟩ := (parseJson_iff hv).1 h
  exact (parseJson_iff hv).2 ⟨w, t, by simp only [List.append_assoc], hw, ht, hd⟩

/-- What is behind a listing that was read does not change what is read. -/
theorem C156_more (visit : Node → Node) (data q : Bytes) (x : Int × Node) (h : parseLSText visit data = .ok x) :
    parseLSText visit (data ++ q) = .ok x := by
  have key : ∀ y, decodeLS data = .ok y → decodeLS (data ++ q) = .ok y := by
    intro y hy
    unfold decodeLS at hy ⊢
    cases hp : parseJson data with
    | none => rw [hp] at hy; cases hy
    | some p =>
      obtain ⟨v, r⟩ := p
      rw [hp] at hy
      have hv : ∀ l, v ≠ .num l := by
        rintro l rfl
        cases hy
      rw [parseJson_more hv hp q]
      cases v <;> first | exact hy | exact absurd hy (by simp)
  unfold parseLSText at h ⊢
  rw [Res.bind_eq_ok] at h
  obtain ⟨y, h1, h2⟩ := h
  rw [key y h1, Res.bind_ok]
  exact h2

/-- A JSON object, with white space before it, that was cut off anywhere before its end is refused. -/
theorem C156_cut (visit : Node → Node) (w t b r : Bytes) (l : Members) (hw : Ws w) (ht : JText false t (.obj l))
    (hd : jdepth (.obj l) ≤ 10000) (e : w ++ t = b ++ r) (hr : r ≠ []) : ∃ er, parseLSText visit b = .err er := by
  have hall : parseJson (b ++ r) = some (.obj l, []) := by
    rw [← e]
    exact (parseJson_iff (by simp)).2 ⟨w, t, by rw [List.append_nil], hw, ht, hd⟩
  have key : ∃ er, decodeLS b = .err er := by
    unfold decodeLS
    cases hp : parseJson b with
    | none => exact ⟨_, rfl⟩
    | some p =>
      obtain ⟨v, q⟩ := p
      by_cases hv : ∀ l, v ≠ .num l
      · rw [parseJson_more hv hp r] at hall
        have := congrArg Prod.snd (Option.some.inj hall)
        exact absurd (List.append_eq_nil_iff.1 this).2 hr
      · cases v with
        | num n => exact ⟨_, rfl⟩
        | _ => exact absurd (by simp) hv
  obtain ⟨er, he⟩ := key
  unfold parseLSText
  rw [he]
  exact ⟨er, rfl⟩

/-- So of a listing that is read, every beginning is read as the same listing, or is refused. -/
theorem C156_beginning (visit : Node → Node) (hvisit : Visits visit) (b r : Bytes) (x : Int × Node)
    (h : parseLSText visit (b ++ r) = .ok x) : parseLSText visit b = .ok x ∨ ∃ er, parseLSText visit b = .err er := by
  obtain ⟨n, root⟩ := x
  obtain ⟨⟨w, t, rest, l, ms, h1, h2, h3, h4, -⟩, -⟩ := (C111_exact visit hvisit _ n root).1 h
  rcases List.append_eq_append_iff.1 h1 with ⟨q, e1, e2⟩ | ⟨q, e1, e2⟩
  · rcases List.eq_nil_or_concat q with rfl | ⟨q', c, rfl⟩
    · left
      rw [List.append_nil] at e1
      have hp : ∀ z, parseJson (w ++ t ++ z) = some (.obj l, z) := fun z => (parseJson_iff (by simp)).2 ⟨w, t, rfl, h2, h3, h4⟩
      have d1 : decodeLS b = decodeLS (b ++ r) := by
        unfold decodeLS
        have := hp []
        rw [List.append_nil] at this
        rw [← e1, this, hp r]
      unfold parseLSText at h ⊢
      rw [d1]
      exact h
    · right
      exact C156_cut visit w t b _ l h2 h3 h4 e1 (by simp)
  · left
    have hp : ∀ z, parseJson (w ++ t ++ z) = some (.obj l, z) := fun z => (parseJson_iff (by simp)).2 ⟨w, t, rfl, h2, h3, h4⟩
    have d1 : decodeLS b = decodeLS (b ++ r) := by
      unfold decodeLS
      rw [e1, hp q, List.append_assoc, hp (q ++ r)]
    unfold parseLSText at h ⊢
    rw [d1]
    exact h

/-- A listing: its last brace cut off, and something behind it. -/
example : (∃ er, parseLSText id b!"{\"version\":1,\"root\":{\"type\":\"directory\"}" = .err er) ∧
    parseLSText id b!"{\"version\":1,\"root\":{\"type\":\"directory\"}}" = .ok (1, .mk b!"directory" .nil 0 [] false 0) ∧
    parseLSText id b!"{\"version\":1,\"root\":{\"type\":\"directory\"}}[" = .ok (1, .mk b!"directory" .nil 0 [] false 0) :=
  ⟨⟨_, rfl⟩, by decide +kernel, by decide +kernel⟩

/-- The hypotheses of `C156_cut`. -/
example : JText false b!"{}" (.obj .nil) ∧ Ws [] ∧ jdepth (.obj .nil) ≤ 10000 :=
  ⟨.emptyObj (w := []) (by intro c hc; cases hc), (by intro c hc; cases hc), by decide⟩

end Verif.Props
