import Verif.Spec.RefPieces
import Verif.Props.NarinfoTrust

/-!
# Exactly which narinfos have the same fingerprint (C51)
-/

namespace Verif.Props
open Verif.Narinfo Verif.GoLib Verif.Nixhash Verif.Signature Verif.Spec

theorem sep_no_comma : (44 : UInt8) ∉ b!"/nix/store/" := by decide

/-- The first separator is found in one way only. -/
theorem sep_cut {p q s t : Bytes} (hp : ∀ a b, p ≠ a ++ b!",/nix/store/" ++ b)
    (hq : ∀ a b, q ≠ a ++ b!",/nix/store/" ++ b)
    (h : p ++ b!",/nix/store/" ++ s = q ++ b!",/nix/store/" ++ t) : p = q ∧ s = t := by
  have key : ∀ {p q s t : Bytes}, p.length < q.length → (∀ a b, q ≠ a ++ b!",/nix/store/" ++ b) →
      p ++ b!",/nix/store/" ++ s = q ++ b!",/nix/store/" ++ t → False := by
    intro p q s t hlt hq h
    rw [List.append_assoc, List.append_assoc] at h
    obtain ⟨d, rfl⟩ : ∃ d, q = p ++ d := by
      refine ⟨q.drop p.length, ?_⟩
      have := congrArg (List.take p.length) h
      rw [List.take_left, List.take_append_of_le_length (by omega)] at this
      conv => lhs; rw [← List.take_append_drop p.length q]
      rw [← this]
    rw [List.append_assoc] at h
    have h := List.append_cancel_left h
    have hd : 0 < d.length := by simp at hlt; omega
    by_cases hl : 12 ≤ d.length
    · have ht := congrArg (List.take 12) h
      rw [List.take_append_of_le_length hl, List.take_append_of_le_length (by decide)] at ht
      have e : d = b!",/nix/store/" ++ d.drop 12 := by
        conv => lhs; rw [← List.take_append_drop 12 d]
        rw [← ht]; rfl
      exact hq p (d.drop 12) (by rw [e]; simp)
    · have hg := congrArg (fun l => l[d.length]?) h
      simp only [List.getElem?_append_right (Nat.le_refl d.length), Nat.sub_self] at hg
      have : ∀ k, 0 < k → k < 12 → (b!",/nix/store/" ++ s)[k]? ≠ some 44 := by
        intro k h0 h1
        rw [List.getElem?_append_left (by simpa using h1)]
        have : ∀ k : Fin 12, 0 < k.1 → (b!",/nix/store/")[k.1]? ≠ some 44 := by decide
        exact this ⟨k, h1⟩ h0
      exact this _ hd (by omega) hg
  rcases Nat.lt_trichotomy p.length q.length with hl | hl | hl
  · exact (key hl hq h).elim
  · have h := h
    rw [List.append_assoc, List.append_assoc] at h
    obtain ⟨e1, e2⟩ := List.append_inj h hl
    exact ⟨e1, List.append_cancel_left e2⟩
  · exact (key hl hp h.symm).elim

theorem pieces_unique : ∀ (ps qs : List Bytes), ps ≠ [] → qs ≠ [] →
    (∀ p ∈ ps, ∀ a b, p ≠ a ++ b!",/nix/store/" ++ b) → (∀ p ∈ qs, ∀ a b, p ≠ a ++ b!",/nix/store/" ++ b) →
    join ps b!",/nix/store/" = join qs b!",/nix/store/" → ps = qs := by
  intro ps
  induction ps with
  | nil => intro _ h; exact absurd rfl h
  | cons p ps ih =>
    intro qs _ hq hps hqs h
    cases qs with
    | nil => exact absurd rfl hq
    | cons q qs =>
      by_cases hp' : ps = [] <;> by_cases hq' : qs = []
      · subst hp'; subst hq'; simp only [join] at h; rw [h]
      · subst hp'
        rw [join_cons hq'] at h
        simp only [join] at h
        exact absurd h (hps p List.mem_cons_self _ _)
      · subst hq'
        rw [join_cons hp'] at h
        simp only [join] at h
        exact absurd h.symm (hqs q List.mem_cons_self _ _)
      · rw [join_cons hp', join_cons hq'] at h
        obtain ⟨e1, e2⟩ := sep_cut (hps p List.mem_cons_self) (hqs q List.mem_cons_self) h
        rw [e1, ih qs hp' hq' (fun x hx => hps x (List.mem_cons_of_mem _ hx))
          (fun x hx => hqs x (List.mem_cons_of_mem _ hx)) e2]

theorem join_append {s : Bytes} : ∀ {ps qs : List Bytes}, ps ≠ [] → qs ≠ [] →
    join (ps ++ qs) s = join ps s ++ s ++ join qs s := by
  intro ps qs p1 q1
  induction ps with
  | nil => exact absurd rfl p1
  | cons x xs ihx =>
    by_cases hx : xs = []
    · subst hx
      rw [List.singleton_append, join_cons q1]; simp [join]
    · rw [List.cons_append, join_cons (by simp [hx]), join_cons hx, ihx hx]; simp

theorem pieces_exist (r : Bytes) : ∃ ps, Pieces r ps := by
  induction hn : r.length using Nat.strongRecOn generalizing r with
  | ind n ih =>
    by_cases h : ∃ a b, r = a ++ b!",/nix/store/" ++ b
    · obtain ⟨a, b, e⟩ := h
      have hl := congrArg List.length e
      simp at hl
      obtain ⟨ps, p1, p2, p3⟩ := ih a.length (by omega) a rfl
      obtain ⟨qs, q1, q2, q3⟩ := ih b.length (by omega) b rfl
      refine ⟨ps ++ qs, by simp [p1], ?_, ?_⟩
      · rw [e, p2, q2, join_append p1 q1]
      · intro p hp
        rcases List.mem_append.1 hp with hp | hp
        · exact p3 p hp
        · exact q3 p hp
    · exact ⟨[r], by simp, by simp [join], fun p hp a b e => h ⟨a, b, by simp at hp; rw [← hp]; exact e⟩⟩

theorem allPieces_exist (rs : List Bytes) : ∃ ps, AllPieces rs ps := by
  induction rs with
  | nil => exact ⟨_, .nil⟩
  | cons r rs ih =>
    obtain ⟨ps, h1⟩ := pieces_exist r
    obtain ⟨qs, h2⟩ := ih
    exact ⟨_, .cons h1 h2⟩

theorem allPieces_facts {rs ps : List Bytes} (h : AllPieces rs ps) :
    (rs = [] ↔ ps = []) ∧ (∀ p ∈ ps, ∀ a b, p ≠ a ++ b!",/nix/store/" ++ b) ∧
      join rs b!",/nix/store/" = join ps b!",/nix/store/" := by
  induction h with
  | nil => simp
  | @cons r ps rs qs h1 h2 ih =>
    obtain ⟨p1, p2, p3⟩ := h1
    obtain ⟨i1, i2, i3⟩ := ih
    refine ⟨by simp [p1], ?_, ?_⟩
    · intro p hp
      rcases List.mem_append.1 hp with hp | hp
      · exact p3 p hp
      · exact i2 p hp
    · by_cases hr : rs = []
      · have hq := i1.1 hr
        subst hr; subst hq
        simp [join, p2]
      · rw [join_cons hr, join_append p1 (fun h => hr (i1.2 h)), i3, ← p2]

theorem join_refs : ∀ {rs : List Bytes}, rs ≠ [] →
    join (rs.map fun r => b!"/nix/store/" ++ r) b!"," = b!"/nix/store/" ++ join rs b!",/nix/store/" := by
  intro rs h
  induction rs with
  | nil => exact absurd rfl h
  | cons r rs ih =>
    by_cases hr : rs = []
    · subst hr; simp [join]
    · rw [List.map_cons, join_cons (by simpa using hr), join_cons hr, ih hr]
      have : (b!",/nix/store/") = b!"," ++ b!"/nix/store/" := by decide
      rw [this]
      simp only [List.append_assoc]

theorem refs_iff (rs ss : List Bytes) :
    join (rs.map fun r => b!"/nix/store/" ++ r) b!"," = join (ss.map fun r => b!"/nix/store/" ++ r) b!"," ↔
      ∃ ps, AllPieces rs ps ∧ AllPieces ss ps := by
  obtain ⟨ps, hp⟩ := allPieces_exist rs
  obtain ⟨qs, hq⟩ := allPieces_exist ss
  obtain ⟨p1, p2, p3⟩ := allPieces_facts hp
  obtain ⟨q1, q2, q3⟩ := allPieces_facts hq
  constructor
  · intro h
    have : ps = qs := by
      by_cases h1 : rs = [] <;> by_cases h2 : ss = []
      · rw [p1.1 h1, q1.1 h2]
      · subst h1; rw [join_refs h2] at h; simp [join] at h
      · subst h2; rw [join_refs h1] at h; simp [join] at h
      · rw [join_refs h1, join_refs h2] at h
        have h := List.append_cancel_left h
        rw [p3, q3] at h
        exact pieces_unique _ _ (fun e => h1 (p1.2 e)) (fun e => h2 (q1.2 e)) p2 q2 h
    subst this
    exact ⟨ps, hp, hq⟩
  · rintro ⟨us, hu, hv⟩
    obtain ⟨u1, u2, u3⟩ := allPieces_facts hu
    obtain ⟨v1, v2, v3⟩ := allPieces_facts hv
    by_cases h1 : rs = []
    · have h2 : ss = [] := v1.2 (u1.1 h1)
      rw [h1, h2]
    · have h2 : ss ≠ [] := fun e => h1 (u1.2 (v1.1 e))
      rw [join_refs h1, join_refs h2, u3, v3]

/-- C51, exactly: for two values whose store paths have no semicolon, the fingerprints are equal if and only if store path,
NAR hash and NAR size are equal and the two lists of references become the same list when every reference is split at each
`,/nix/store/` in it. -/
theorem C51_exact (n1 n2 : NarInfo) (h1 h2 : HashWithEncoding) (a1 a2 : Bytes) (k1 k2 : Nat)
    (hh1 : n1.narHash = some h1) (hh2 : n2.narHash = some h2)
    (hr1 : (h1.hash.algo, a1, k1) ∈ hashAlgos) (hr2 : (h2.hash.algo, a2, k2) ∈ hashAlgos)
    (hs1 : (59 : UInt8) ∉ n1.storePath) (hs2 : (59 : UInt8) ∉ n2.storePath) :
    n1.fingerprint = n2.fingerprint ↔
      n1.storePath = n2.storePath ∧ h1.hash = h2.hash ∧ n1.narSize = n2.narSize ∧
        ∃ ps, AllPieces n1.references ps ∧ AllPieces n2.references ps := by
  rw [← refs_iff, fingerprint_eq hh1 hr1, fingerprint_eq hh2 hr2]
  simp only [Res.ok.injEq]
  constructor
  · intro hf
    have hf := List.append_cancel_left hf
    obtain ⟨e1, hf⟩ := split_at hs1 hs2 hf
    have hno : ∀ (h : HashWithEncoding) (a : Bytes) (k : Nat), (h.hash.algo, a, k) ∈ hashAlgos →
        (59 : UInt8) ∉ a ++ 58 :: Nixbase32.encodeToString h.hash.digest := by
      intro h a k hr
      simp only [List.mem_append, List.mem_cons, not_or]
      exact ⟨(algo_name_chars _ hr).2, by decide, encodeToString_no _ _ (by decide)⟩
    obtain ⟨e2, hf⟩ := split_at (hno h1 a1 k1 hr1) (hno h2 a2 k2 hr2) hf
    have hnd : ∀ m, (59 : UInt8) ∉ formatUint m := fun m hm => absurd ((formatUint_digits m).1 _ hm) (by decide)
    obtain ⟨e3, hf⟩ := split_at (hnd _) (hnd _) hf
    obtain ⟨e4, e5⟩ := split_at (algo_name_chars _ hr1).1 (algo_name_chars _ hr2).1 e2
    have hrow := algo_names_unique _ hr1 _ hr2 e4
    have halgo : h1.hash.algo = h2.hash.algo := congrArg Prod.fst hrow
    have hdig := C02_encode_injective _ _ e5
    refine ⟨e1, ?_, ?_, hf⟩
    · cases hx : h1.hash; cases hy : h2.hash; simp_all
    · have := congrArg (digitsValue 0) e3
      rwa [(formatUint_digits _).2.2, (formatUint_digits _).2.2] at this
  · rintro ⟨e1, e2, e3, e4⟩
    have halgo : ∀ r ∈ hashAlgos, ∀ r' ∈ hashAlgos, r.1 = r'.1 → r = r' := by decide
    have := halgo _ hr1 _ hr2 (by rw [e2])
    simp only [Prod.mk.injEq] at this
    rw [e1, e2, e3, e4, this.2.1]

/-- In particular, references without `,/nix/store/` are determined by the fingerprint. -/
theorem C51_refs (rs ss : List Bytes) (ps : List Bytes) (h1 : AllPieces rs ps) (h2 : AllPieces ss ps)
    (hr : ∀ r ∈ rs, ∀ a b, r ≠ a ++ b!",/nix/store/" ++ b) (hs : ∀ r ∈ ss, ∀ a b, r ≠ a ++ b!",/nix/store/" ++ b) :
    rs = ss := by
  obtain ⟨u1, u2, u3⟩ := allPieces_facts h1
  obtain ⟨v1, v2, v3⟩ := allPieces_facts h2
  by_cases e : rs = []
  · rw [e, v1.2 (u1.1 e)]
  · exact pieces_unique _ _ e (fun e' => e (u1.2 (v1.1 e'))) hr hs (u3.trans v3.symm)

example : AllPieces [b!"a,/nix/store/b", b!"c"] [b!"a", b!"b", b!"c"] ∧
    AllPieces [b!"a", b!"b,/nix/store/c"] [b!"a", b!"b", b!"c"] := by
  have small : ∀ p : Bytes, p.length < 12 → ∀ a b, p ≠ a ++ b!",/nix/store/" ++ b := by
    intro p hp a b e
    have := congrArg List.length e
    simp at this
    omega
  have one : ∀ x : UInt8, Pieces [x] [[x]] := fun x =>
    ⟨by simp, by simp [join], fun p hp => small p (by simp at hp; simp [hp])⟩
  have two : ∀ x y : UInt8, Pieces ([x] ++ b!",/nix/store/" ++ [y]) [[x], [y]] := fun x y =>
    ⟨by simp, by simp [join], fun p hp => small p (by simp at hp; rcases hp with rfl | rfl <;> simp)⟩
  exact ⟨.cons (two _ _) (.cons (one _) .nil), .cons (one _) (.cons (two _ _) .nil)⟩

end Verif.Props
