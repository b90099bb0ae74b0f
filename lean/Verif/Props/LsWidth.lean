import Verif.Model.LsWidth
import Verif.Props.LsText

/-!
# `.ls` listings on machines with 32-bit `int` (C162)
-/

namespace Verif.Props
open Verif.GoLib Verif.GoJson Verif.Spec Verif.NarLs

theorem membersInd {P : Members → Prop} (nil : P .nil) (cons : ∀ k v l, P l → P (.cons k v l)) : ∀ l, P l
  | .nil => nil
  | .cons k v l => cons k v l (membersInd nil cons l)

/-- The integers in the members of an object that are taken for the version. -/
def versions : Members → List Int
  | .nil => []
  | .cons k (.num lit) l => (if sameField b!"version" k then (match parseInt64 lit with | .ok a => [a] | _ => []) else []) ++ versions l
  | .cons _ _ l => versions l

theorem versions_num (k lit : Bytes) (l : Members) : versions (.cons k (.num lit) l) =
    (if sameField b!"version" k then (match parseInt64 lit with | .ok a => [a] | _ => []) else []) ++ versions l := by rw [versions]

theorem intValue_num (old : Int) (lit : Bytes) : intValue old (.num lit) = parseInt64 lit := rfl

theorem intValueW_iff (w : Nat) (old a : Int) (k : Bytes) (hk : sameField b!"version" k = true) (v : Json) (l : Members) :
    (intValueW w old v = .ok a ∧ ∀ x ∈ versions l, -2 ^ (w - 1) ≤ x ∧ x < 2 ^ (w - 1)) ↔
    (intValue old v = .ok a ∧ ∀ x ∈ versions (.cons k v l), -2 ^ (w - 1) ≤ x ∧ x < 2 ^ (w - 1)) := by
  cases v with
  | num lit =>
    rw [versions_num, intValue_num]
    unfold intValueW
    rw [if_pos hk, Res.bind_eq_ok]
    constructor
    · rintro ⟨⟨n, h1, h2⟩, h3⟩
      split at h2
      · cases h2
      · rename_i hn
        cases h2
        refine ⟨h1, ?_⟩
        rw [h1]
        intro x hx
        rcases List.mem_append.1 hx with h | h
        · rw [List.mem_singleton.1 h]; omega
        · exact h3 x h
    · rintro ⟨h1, h2⟩
      rw [h1] at h2
      have := h2 a (by simp)
      exact ⟨⟨a, h1, by rw [if_neg (by omega)]⟩, fun x hx => h2 x (by simp [hx])⟩
  | null => rfl
  | bool b => simp [intValueW, intValue]
  | str b => simp [intValueW, intValue]
  | arr b => simp [intValueW, intValue]
  | obj b => simp [intValueW, intValue]

theorem versions_other {k : Bytes} (hk : sameField b!"version" k ≠ true) (v : Json) (l : Members) : versions (.cons k v l) = versions l := by
  cases v with
  | num lit => rw [versions_num, if_neg hk]; rfl
  | null => rw [versions]; intro _ h; cases h
  | bool b => rw [versions]; intro _ h; cases h
  | str b => rw [versions]; intro _ h; cases h
  | arr b => rw [versions]; intro _ h; cases h
  | obj b => rw [versions]; intro _ h; cases h

theorem decodeRootW_iff (w : Nat) (x : Int × Node) : ∀ (l : Members) (n : Int) (t : Node),
    decodeRootW w n t l = .ok x ↔ decodeRoot n t l = .ok x ∧ ∀ a ∈ versions l, -2 ^ (w - 1) ≤ a ∧ a < 2 ^ (w - 1) := by
  intro l
  induction l using membersInd with
  | nil => intro n t; simp [decodeRootW, decodeRoot, versions]
  | cons k v l ih =>
    intro n t
    unfold decodeRootW decodeRoot
    by_cases hk : sameField b!"version" k = true
    · rw [if_pos hk, if_pos hk, Res.bind_eq_ok, Res.bind_eq_ok]
      constructor
      · rintro ⟨a, h1, h2⟩
        obtain ⟨h3, h4⟩ := (ih _ _).1 h2
        obtain ⟨h5, h6⟩ := (intValueW_iff w n a k hk v l).1 ⟨h1, h4⟩
        exact ⟨⟨a, h5, h3⟩, h6⟩
      · rintro ⟨⟨a, h5, h3⟩, h6⟩
        obtain ⟨h1, h4⟩ := (intValueW_iff w n a k hk v l).2 ⟨h5, h6⟩
        exact ⟨a, h1, (ih _ _).2 ⟨h3, h4⟩⟩
    · rw [if_neg hk, if_neg hk, versions_other hk]
      by_cases hr : sameField b!"Root" k = true
      · rw [if_pos hr, if_pos hr, Res.bind_eq_ok, Res.bind_eq_ok]
        constructor
        · rintro ⟨a, h1, h2⟩
          obtain ⟨h3, h4⟩ := (ih _ _).1 h2
          exact ⟨⟨a, h1, h3⟩, h4⟩
        · rintro ⟨⟨a, h1, h3⟩, h4⟩
          exact ⟨a, h1, (ih _ _).2 ⟨h3, h4⟩⟩
      · rw [if_neg hr, if_neg hr]; simp

/-- C162, for an `int` of `w` bits and every text: what is read is what a machine with 64 bits reads, and it is read exactly if no
version in the text, also one that is overridden by a later one, overflows. -/
theorem C162_exact (w : Nat) (visit : Node → Node) (data : Bytes) (x : Int × Node) :
    parseLSTextW w visit data = .ok x ↔ parseLSText visit data = .ok x ∧
      ∀ l rest, parseJson data = some (.obj l, rest) → ∀ a ∈ versions l, -2 ^ (w - 1) ≤ a ∧ a < 2 ^ (w - 1) := by
  have key : ∀ y, decodeLSW w data = .ok y ↔ decodeLS data = .ok y ∧
      ∀ l rest, parseJson data = some (.obj l, rest) → ∀ a ∈ versions l, -2 ^ (w - 1) ≤ a ∧ a < 2 ^ (w - 1) := by
    intro y
    unfold decodeLSW decodeLS
    cases parseJson data with
    | none => simp
    | some p =>
      obtain ⟨v, r⟩ := p
      cases v with
      | obj l =>
        simp only
        rw [decodeRootW_iff]
        refine and_congr_right fun _ => ⟨fun h l' r' e => ?_, fun h => h l r rfl⟩
        cases e
        exact h
      | null => simp
      | bool b => simp
      | num b => simp
      | str b => simp
      | arr b => simp
  unfold parseLSTextW parseLSText
  rw [Res.bind_eq_ok, Res.bind_eq_ok]
  constructor
  · rintro ⟨y, h1, h2⟩
    obtain ⟨h3, h4⟩ := (key y).1 h1
    exact ⟨⟨y, h3, h2⟩, h4⟩
  · rintro ⟨⟨y, h3, h2⟩, h4⟩
    exact ⟨y, (key y).2 ⟨h3, h4⟩, h2⟩

theorem decodeRoot_version (n m : Int) (t u : Node) (l : Members) (h : decodeRoot n t l = .ok (m, u)) : versions l = [] ∧ m = n ∨ (versions l).getLast? = some m := by
  induction l using membersInd generalizing n t with
  | nil => unfold decodeRoot at h; cases h; exact .inl ⟨rfl, rfl⟩
  | cons k v l ih =>
    unfold decodeRoot at h
    by_cases hk : sameField b!"version" k = true
    · rw [if_pos hk, Res.bind_eq_ok] at h
      obtain ⟨a, h1, h2⟩ := h
      cases v with
      | num lit =>
        rw [intValue_num] at h1
        rw [versions_num, if_pos hk, h1]
        rcases ih _ _ h2 with ⟨e, rfl⟩ | e
        · right; rw [e]; rfl
        · right; rw [List.getLast?_append, e]; rfl
      | null => cases h1; exact ih _ _ h2
      | bool b => cases h1
      | str b => cases h1
      | arr b => cases h1
      | obj b => cases h1
    · rw [if_neg hk] at h
      rw [versions_other hk]
      by_cases hr : sameField b!"Root" k = true
      · rw [if_pos hr, Res.bind_eq_ok] at h
        obtain ⟨a, h1, h2⟩ := h
        exact ih _ _ h2
      · rw [if_neg hr] at h; cases h

/-- C162 for listings with at most one version, and so for all that Nix writes: they are read alike on all machines. -/
theorem C162_once (w : Nat) (hw : 2 ≤ w) (visit : Node → Node) (data : Bytes)
    (h1 : ∀ l rest, parseJson data = some (.obj l, rest) → (versions l).length ≤ 1) (x : Int × Node) :
    parseLSTextW w visit data = .ok x ↔ parseLSText visit data = .ok x := by
  rw [C162_exact]
  refine ⟨fun h => h.1, fun h => ⟨h, fun l rest hp a ha => ?_⟩⟩
  obtain ⟨m, u⟩ := x
  have hm : m = 1 ∧ decodeLS data = .ok (m, u) := by
    unfold parseLSText at h
    rw [Res.bind_eq_ok] at h
    obtain ⟨y, g1, g2⟩ := h
    rw [Res.bind_eq_ok] at g2
    obtain ⟨z, g3, g4⟩ := g2
    cases g4
    refine ⟨?_, g1⟩
    unfold parseLS at g3
    simp only [Res.bind_ok] at g3
    split at g3
    · cases g3
    · rename_i hne; simpa using hne
  obtain ⟨rfl, hd⟩ := hm
  unfold decodeLS at hd
  rw [hp] at hd
  have hlen := h1 l rest hp
  rcases decodeRoot_version _ _ _ _ _ hd with ⟨e, _⟩ | e
  · rw [e] at ha; simp at ha
  · cases hv : versions l with
    | nil => rw [hv] at ha; simp at ha
    | cons b vs =>
      rw [hv] at hlen ha e
      cases vs with
      | cons _ _ => simp at hlen
      | nil =>
        cases e
        rw [List.mem_singleton.1 ha]
        have h2 : 2 ^ 1 ≤ 2 ^ (w - 1) := Nat.pow_le_pow_right (by decide) (by omega)
        have hp : ((2 ^ (w - 1) : Nat) : Int) = 2 ^ (w - 1) := by simp
        have ho : Int.ofNat 1 = 1 := rfl
        rw [ho, ← hp]
        omega

/-- C162 is false: a listing may have two versions, of which the last one is used; the first one overflows where `int` has 32 bits. -/
theorem C162_refuted : (parseLSText id b!"{\"version\":4294967296,\"version\":1,\"root\":{\"type\":\"directory\"}}").isOk ∧
    ¬ (parseLSTextW 32 id b!"{\"version\":4294967296,\"version\":1,\"root\":{\"type\":\"directory\"}}").isOk := by
  decide +kernel

example := (C162_once 32 (by decide) id b!"{\"version\":1,\"root\":{\"type\":\"directory\"}}" (by
  intro l rest h
  have : parseJson b!"{\"version\":1,\"root\":{\"type\":\"directory\"}}" =
    some (.obj (.cons b!"version" (.num b!"1") (.cons b!"root" (.obj (.cons b!"type" (.str b!"directory") .nil)) .nil)), []) := by decide +kernel
  rw [this] at h
  cases h
  decide +kernel))
example : (parseLSTextW 32 id b!"{\"version\":1,\"root\":{\"type\":\"directory\"}}").isOk := by decide +kernel

end Verif.Props
