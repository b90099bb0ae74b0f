import Verif.Spec.SqliteHash
import Verif.Props.SqliteNix
import Verif.Spec.Storepath

/-!
# C129: QueryPathFromHashPart
-/

namespace Verif.Props
open Verif.Sqlite Verif.Sqlite.Nix

theorem le_append (a b : Bytes) : a ≤ a ++ b := by
  induction a with
  | nil => exact List.nil_le b
  | cons c a ih => exact List.cons_le_cons_iff.2 (.inr ⟨rfl, ih⟩)

/-- Between a text and a continuation of it there are only continuations. -/
theorem between_prefix : ∀ (a b p : Bytes), a ≤ p → p ≤ a ++ b → a <+: p
  | [], _, p, _, _ => List.nil_prefix
  | c :: a, b, [], h, _ => absurd h (by simp)
  | c :: a, b, d :: p, h, h2 => by
    rw [List.cons_append] at h2
    rcases List.cons_le_cons_iff.1 h with h | ⟨rfl, h'⟩
    · rcases List.cons_le_cons_iff.1 h2 with h2 | ⟨rfl, _⟩
      · exact absurd (UInt8.lt_trans h h2) (UInt8.lt_irrefl _)
      · exact absurd h (UInt8.lt_irrefl _)
    · rcases List.cons_le_cons_iff.1 h2 with h2 | ⟨_, h2⟩
      · exact absurd h2 (UInt8.lt_irrefl _)
      · exact List.cons_prefix_cons.2 ⟨rfl, between_prefix a b p h' h2⟩

theorem valid_iff {db : DB} {p : Bytes} : queryPathInfo db p ≠ none ↔ ∃ r ∈ db.paths, r.path = p := by
  rw [ne_eq, info_none]
  constructor
  · intro h
    exact Classical.byContradiction fun hn => h fun r hr he => hn ⟨r, hr, he⟩
  · rintro ⟨r, hr, he⟩ h
    exact h r hr he

/-- Without rows, no valid path begins like that, and a path that is returned is valid and not smaller; this holds in whatever
order SQLite looks at the rows. -/
theorem C129_any_order (ops : List Op) (fk : Bool) (arg : Bytes) (result : Option Bytes)
    (h : QueryPathFromHashPart (run fk Nix.empty ops) arg result) :
    (result = none → ∀ q, arg <+: q → queryPathInfo (run fk Nix.empty ops) q = none) ∧
    (∀ p, result = some p → queryPathInfo (run fk Nix.empty ops) p ≠ none ∧ arg ≤ p) := by
  constructor
  · rintro rfl q ⟨x, rfl⟩
    refine Classical.byContradiction fun hn => ?_
    obtain ⟨r, hr, he⟩ := valid_iff.1 hn
    exact h r hr (he ▸ le_append arg x)
  · rintro p rfl
    obtain ⟨r, hr, he, hle⟩ := h
    exact ⟨valid_iff.2 ⟨r, hr, he⟩, hle⟩

/-- In index order: a valid path that begins with the argument is returned exactly if there is one; and then, if the argument is
a hash part of the store and the valid paths are store paths, what is returned is a store path with this hash part. -/
theorem C129_index_order (ops : List Op) (fk : Bool) (arg : Bytes) (result : Option Bytes)
    (h : QueryPathFromHashPart (run fk Nix.empty ops) arg result) (ho : IndexOrder (run fk Nix.empty ops) arg result) :
    ((∃ p, result = some p ∧ arg <+: p) ↔ ∃ q, queryPathInfo (run fk Nix.empty ops) q ≠ none ∧ arg <+: q) ∧
    ∀ hash, Storepath.HashPart hash → arg = b!"/nix/store/" ++ hash →
      (∀ q, queryPathInfo (run fk Nix.empty ops) q ≠ none → Storepath.IsStorePath q) →
      ((∃ q n, queryPathInfo (run fk Nix.empty ops) q ≠ none ∧ q = b!"/nix/store/" ++ hash ++ b!"-" ++ n) ↔
        ∃ p n, result = some p ∧ p = b!"/nix/store/" ++ hash ++ b!"-" ++ n) := by
  have hmain : (∃ p, result = some p ∧ arg <+: p) ↔ ∃ q, queryPathInfo (run fk Nix.empty ops) q ≠ none ∧ arg <+: q := by
    constructor
    · rintro ⟨p, rfl, hp⟩
      exact ⟨p, ((C129_any_order ops fk arg _ h).2 p rfl).1, hp⟩
    · rintro ⟨q, hq, x, rfl⟩
      cases result with
      | none => exact absurd ((C129_any_order ops fk arg _ h).1 rfl _ ⟨x, rfl⟩) hq
      | some p =>
        exact ⟨p, rfl, between_prefix arg x p ((C129_any_order ops fk arg _ h).2 p rfl).2 (ho p rfl _ hq (le_append arg x))⟩
  refine ⟨hmain, fun hash hh harg hsp => ?_⟩
  have hform : ∀ q, queryPathInfo (run fk Nix.empty ops) q ≠ none → arg <+: q →
      ∃ n, q = b!"/nix/store/" ++ hash ++ b!"-" ++ n := by
    rintro q hq ⟨x, hx⟩
    obtain ⟨g, n, he, hg, _⟩ := hsp q hq
    refine ⟨n, ?_⟩
    rw [harg, he, List.append_assoc, List.append_assoc, List.append_assoc] at hx
    have hx' := List.append_cancel_left hx
    have : g = hash := by
      have := congrArg (List.take 32) hx'
      rw [List.take_left' hh.1, List.take_left' hg.1] at this
      exact this.symm
    rw [he, this]
  constructor
  · rintro ⟨q, n, hq, he⟩
    obtain ⟨p, hp, hpre⟩ := hmain.2 ⟨q, hq, b!"-" ++ n, by rw [harg, he]; simp only [List.append_assoc]⟩
    obtain ⟨m, hm⟩ := hform p ((C129_any_order ops fk arg _ h).2 p hp).1 hpre
    exact ⟨p, m, hp, hm⟩
  · rintro ⟨p, n, hp, he⟩
    exact ⟨p, n, ((C129_any_order ops fk arg _ h).2 p hp).1, he⟩

/-- The text of the statement alone does not ensure it: with two valid paths another answer satisfies it, although a path with the
hash part is valid. -/
theorem C129_needs_order :
    ∃ (ops : List Op) (arg p q : Bytes), QueryPathFromHashPart (run true Nix.empty ops) arg (some p) ∧ ¬ arg <+: p ∧
      queryPathInfo (run true Nix.empty ops) q ≠ none ∧ arg <+: q :=
  ⟨[.register 0 (samplePath b!"/nix/store/b-x"), .register 0 (samplePath b!"/nix/store/a-y")], b!"/nix/store/a",
    b!"/nix/store/b-x", b!"/nix/store/a-y",
    ⟨_, List.mem_cons_self, rfl, by decide⟩, by decide, by decide, by decide⟩

example : let db := run true Nix.empty [.register 0 (samplePath b!"/nix/store/b-x"), .register 0 (samplePath b!"/nix/store/a-y")]
    QueryPathFromHashPart db b!"/nix/store/a" (some b!"/nix/store/a-y") ∧ IndexOrder db b!"/nix/store/a" (some b!"/nix/store/a-y") ∧
    QueryPathFromHashPart db b!"/nix/store/c" none := by
  refine ⟨⟨_, List.mem_cons_of_mem _ List.mem_cons_self, rfl, by decide⟩, ?_, ?_⟩
  rotate_left
  · show ∀ r ∈ (run true Nix.empty _).paths, _
    decide
  intro p hp q hq hle
  cases hp
  obtain ⟨r, hr, he⟩ := valid_iff.1 hq
  subst he
  have : ∀ r ∈ (run true Nix.empty [.register 0 (samplePath b!"/nix/store/b-x"), .register 0 (samplePath b!"/nix/store/a-y")]).paths,
      b!"/nix/store/a" ≤ r.path → b!"/nix/store/a-y" ≤ r.path := by decide
  exact this r hr hle

end Verif.Props
