import Verif.Props.References
import Verif.Spec.NarRefs

/-!
# Where a hash can occur in an archive
-/

namespace Verif.Props
open Verif.Spec Verif.References Verif.Storepath

/-- not a base32 character -/
def NonDigit (c : UInt8) : Prop := c ∉ nixDigits

theorem run_cut (x y : Bytes) (c : UInt8) (hc : NonDigit c) : References.run (x ++ c :: y) = References.run y := by
  unfold References.run
  rw [List.reverse_append, List.reverse_cons, List.append_assoc, List.singleton_append]
  rw [List.takeWhile_append]
  split
  · rename_i h
    rw [List.takeWhile_cons, if_neg (by simpa [NonDigit] using hc)]
    simp [← h]
  · rfl

/-- The boundary between two pieces of data cannot be inside a hash. -/
def Boundary (u v : Bytes) : Prop :=
  u = [] ∨ (∃ u' c, u = u' ++ [c] ∧ NonDigit c) ∨ ∃ c v', v = c :: v' ∧ NonDigit c

theorem run_boundary {u a r : Bytes} (hb : Boundary u (a ++ r)) (hr : ∀ c ∈ r.head?, c ∈ nixDigits) (hr' : r ≠ []) :
    References.run (u ++ a) = References.run a := by
  rcases hb with rfl | ⟨u', c, rfl, hc⟩ | ⟨c, v', hv, hc⟩
  · rfl
  · rw [List.append_assoc, List.singleton_append, run_cut _ _ _ hc]
  · cases a with
    | nil =>
      exfalso
      rw [List.nil_append] at hv
      exact hc (hr c (by simp [hv]))
    | cons d a =>
      obtain ⟨rfl, _⟩ := List.cons.inj hv
      rw [run_cut _ _ _ hc]
      exact (run_cut [] a d hc).symm

theorem aligned_append {h u v : Bytes} (hb : Boundary u v) : Aligned h (u ++ v) ↔ Aligned h u ∨ Aligned h v := by
  constructor
  · rintro ⟨a, c, hd, hh, hr⟩
    have hne : h ≠ [] := by intro h0; rw [h0] at hh; exact absurd hh.1 (by decide)
    rw [List.append_assoc] at hd
    rcases List.append_eq_append_iff.1 hd with ⟨a', ha, hv⟩ | ⟨a', hu, ha⟩
    · right
      subst ha hv
      refine ⟨a', c, by simp, hh, ?_⟩
      rw [← run_boundary (r := h ++ c) hb ?_ (by simp [hne])]
      · exact hr
      · intro x hx
        cases h with
        | nil => exact absurd rfl hne
        | cons y h => simp at hx; subst hx; exact hh.2 _ List.mem_cons_self
    · subst hu
      rcases List.append_eq_append_iff.1 ha with ⟨w, hw, hv⟩ | ⟨w, hw, hv⟩
      · left
        exact ⟨a, w, by rw [hw, List.append_assoc], hh, hr⟩
      · by_cases hw0 : w = []
        · subst hw0
          left
          simp only [List.append_nil] at hw
          exact ⟨a, [], by simp [hw], hh, hr⟩
        by_cases ha0 : a' = []
        · subst ha0
          right
          simp only [List.nil_append] at hw
          subst hw hv
          refine ⟨[], c, by simp, hh, ?_⟩
          exact rfl
        exfalso
        rcases hb with h0 | ⟨u', x, hu, hx⟩ | ⟨x, v', hv', hx⟩
        · simp at h0; exact ha0 h0.2
        · have : x ∈ a' := by
            have h1 : (a ++ a').getLast? = some x := by rw [hu]; simp
            rw [List.getLast?_append, List.getLast?_eq_some_getLast ha0] at h1
            simp at h1
            exact h1 ▸ List.getLast_mem ha0
          exact hx (hh.2 x (by rw [hw]; simp [this]))
        · cases w with
          | nil => exact hw0 rfl
          | cons y w =>
            rw [hv] at hv'
            obtain ⟨rfl, _⟩ := List.cons.inj hv'
            exact hx (hh.2 _ (by rw [hw]; simp))
  · rintro (⟨a, c, rfl, hh, hr⟩ | ⟨a, c, rfl, hh, hr⟩)
    · exact ⟨a, c ++ v, by simp, hh, hr⟩
    · refine ⟨u ++ a, c, by simp, hh, ?_⟩
      have hne : h ≠ [] := by intro h0; rw [h0] at hh; exact absurd hh.1 (by decide)
      rw [run_boundary (r := h ++ c) (by simpa using hb) ?_ (by simp [hne])]
      · exact hr
      · intro x hx
        cases h with
        | nil => exact absurd rfl hne
        | cons y h => simp at hx; subst hx; exact hh.2 _ List.mem_cons_self

theorem not_aligned_short {h d : Bytes} (hd : d.length < 32) : ¬ Aligned h d := by
  rintro ⟨a, c, rfl, hh, _⟩
  have := hh.1
  simp at hd
  omega

theorem zero_nonDigit : NonDigit 0 := by unfold NonDigit; decide

/-- a token of the format, which is short and ends with padding -/
theorem aligned_fixed {h r : Bytes} (k : Bytes) (hk : (str k).length < 32 ∧ (str k).getLast? = some 0) :
    Aligned h (str k ++ r) ↔ Aligned h r := by
  rw [aligned_append (.inr (.inl ?_))]
  · exact ⟨fun h => h.resolve_left (not_aligned_short hk.1), .inr⟩
  · obtain ⟨u, hu⟩ := List.getLast?_eq_some_iff.1 hk.2
    exact ⟨u, 0, hu, zero_nonDigit⟩

/-- the bytes of a length -/
def lenBytes (n : Nat) : Bytes := (List.range 8).map (fun i => UInt8.ofNat (n / 256 ^ i))

theorem lenBytes_last {n : Nat} (hn : n < 2 ^ 56) : ∃ u, lenBytes n = u ++ [0] := by
  refine ⟨(List.range 7).map (fun i => UInt8.ofNat (n / 256 ^ i)), ?_⟩
  unfold lenBytes
  rw [List.range_succ, List.map_append]
  have : n / 256 ^ 7 = 0 := Nat.div_eq_of_lt (by omega)
  simp [this]

theorem str_parts (s : Bytes) : str s = lenBytes s.length ++ (s ++ List.replicate ((8 - s.length % 8) % 8) 0) := by
  unfold str lenBytes
  rw [List.append_assoc]

/-- a string with something before it that is short -/
theorem aligned_payload {h r : Bytes} (u s : Bytes) (hu : u.length < 24) (hs : s.length < 2 ^ 56)
    (hr : ∃ c r', r = c :: r' ∧ NonDigit c) :
    Aligned h (u ++ (str s ++ r)) ↔ Aligned h s ∨ Aligned h r := by
  obtain ⟨l, hl⟩ := lenBytes_last hs
  have hlen : (lenBytes s.length).length = 8 := by simp [lenBytes]
  have e : u ++ (str s ++ r) = (u ++ lenBytes s.length) ++ (s ++ (List.replicate ((8 - s.length % 8) % 8) 0 ++ r)) := by
    rw [str_parts]; simp
  rw [e, aligned_append (.inr (.inl ⟨u ++ l, 0, by rw [hl]; simp, zero_nonDigit⟩))]
  have hd : ¬ Aligned h (u ++ lenBytes s.length) := not_aligned_short (by simp [hlen]; omega)
  have hk : (8 - s.length % 8) % 8 < 32 := by omega
  generalize (8 - s.length % 8) % 8 = k at *
  cases k with
  | zero =>
    obtain ⟨c, r', rfl, hc⟩ := hr
    rw [List.replicate_zero, List.nil_append, aligned_append (.inr (.inr ⟨c, r', rfl, hc⟩))]
    exact ⟨fun x => x.resolve_left hd, .inr⟩
  | succ k =>
    rw [aligned_append (u := s) (.inr (.inr ⟨0, List.replicate k 0 ++ r, by simp [List.replicate_succ], zero_nonDigit⟩)),
      aligned_append (u := List.replicate (k + 1) 0) (.inr (.inl ⟨List.replicate k 0, 0, List.replicate_succ', zero_nonDigit⟩))]
    have hp : ¬ Aligned h (List.replicate (k + 1) (0 : UInt8)) := not_aligned_short (by simpa using hk)
    constructor
    · rintro (x | x | x | x)
      · exact absurd x hd
      · exact .inl x
      · exact absurd x hp
      · exact .inr x
    · rintro (x | x)
      · exact .inr (.inl x)
      · exact .inr (.inr (.inr x))

mutual
/-- `h` occurs in the contents of a file, the target of a link or the name of an entry. -/
def refsTree (h : Bytes) : Tree → Prop
  | .regular _ c => Aligned h c
  | .symlink t => Aligned h t
  | .directory es => refsEntries h es
/-- see `refsTree` -/
def refsEntries (h : Bytes) : Entries → Prop
  | .nil => False
  | .cons n t es => Aligned h n ∨ refsTree h t ∨ refsEntries h es
end

theorem starts_close (r : Bytes) : ∃ c r', str b!")" ++ r = c :: r' ∧ NonDigit c :=
  ⟨1, _, rfl, by unfold NonDigit; decide⟩

theorem starts_node (r : Bytes) : ∃ c r', str b!"node" ++ r = c :: r' ∧ NonDigit c :=
  ⟨4, _, rfl, by unfold NonDigit; decide⟩

mutual
theorem aligned_node {h : Bytes} (t : Tree) (ht : t.All SmallName SmallNode) (r : Bytes) :
    Aligned h (t.node ++ r) ↔ refsTree h t ∨ Aligned h r := by
  match t with
  | .regular x c =>
    have hs : c.length < 2 ^ 56 := ht
    simp only [Tree.node, List.append_assoc, refsTree]
    rw [aligned_fixed b!"(" (by decide), aligned_fixed b!"type" (by decide), aligned_fixed b!"regular" (by decide)]
    have main : Aligned h (str b!"contents" ++ (str c ++ (str b!")" ++ r))) ↔ Aligned h c ∨ Aligned h r := by
      rw [aligned_payload (str b!"contents") c (by decide) hs (starts_close r), aligned_fixed b!")" (by decide)]
    cases x with
    | false => simpa using main
    | true =>
      simp only [if_true, List.append_assoc]
      rw [aligned_fixed b!"executable" (by decide), aligned_fixed b!"" (by decide), main]
  | .symlink l =>
    have hs : l.length < 2 ^ 56 := ht
    simp only [Tree.node, List.append_assoc, refsTree]
    rw [aligned_fixed b!"(" (by decide), aligned_fixed b!"type" (by decide), aligned_fixed b!"symlink" (by decide),
      aligned_fixed b!"target" (by decide)]
    have := aligned_payload (h := h) [] l (by decide) hs (starts_close r)
    rw [List.nil_append] at this
    rw [this, aligned_fixed b!")" (by decide)]
  | .directory es =>
    simp only [Tree.All] at ht
    simp only [Tree.node, List.append_assoc, refsTree]
    rw [aligned_fixed b!"(" (by decide), aligned_fixed b!"type" (by decide), aligned_fixed b!"directory" (by decide),
      aligned_nodes es ht.2.2, aligned_fixed b!")" (by decide)]
theorem aligned_nodes {h : Bytes} (es : Entries) (hes : es.All SmallName SmallNode) (r : Bytes) :
    Aligned h (es.nodes ++ r) ↔ refsEntries h es ∨ Aligned h r := by
  match es with
  | .nil => simp [Entries.nodes, refsEntries]
  | .cons n t es =>
    simp only [Entries.All] at hes
    simp only [Entries.nodes, List.append_assoc, refsEntries]
    rw [aligned_fixed b!"entry" (by decide), aligned_fixed b!"(" (by decide), aligned_fixed b!"name" (by decide)]
    have := aligned_payload (h := h) [] n (by decide) hes.1 (starts_node (t.node ++ (str b!")" ++ (es.nodes ++ r))))
    rw [List.nil_append] at this
    rw [this, aligned_fixed b!"node" (by decide), aligned_node t hes.2.1, aligned_fixed b!")" (by decide),
      aligned_nodes es hes.2.2]
    simp only [or_assoc]
end

theorem aligned_childPath (h p n : Bytes) : Aligned h (childPath p n) ↔ Aligned h p ∨ Aligned h n := by
  unfold childPath
  split
  · subst_vars
    exact aligned_append (u := b!"/") (v := n) (.inr (.inl ⟨[], 47, rfl, by unfold NonDigit; decide⟩))
  · rw [aligned_append (.inr (.inl ⟨p, 47, rfl, by unfold NonDigit; decide⟩)),
      aligned_append (.inr (.inr ⟨47, [], rfl, by unfold NonDigit; decide⟩))]
    have : ¬ Aligned h b!"/" := not_aligned_short (by decide)
    simp [this]

mutual
theorem refs_tree (h p : Bytes) (t : Tree) :
    (∃ en ∈ t.entriesAt p, InEntry h en) ↔ refsTree h t ∨ Aligned h p := by
  have h0 : ¬ Aligned h [] := not_aligned_short (by decide)
  match t with
  | .regular x c => simp [Tree.entriesAt, InEntry, refsTree, h0, or_comm]
  | .symlink l => simp [Tree.entriesAt, InEntry, refsTree, h0, or_comm]
  | .directory es =>
    obtain ⟨h1, h2⟩ := refs_entries h p es
    simp only [Tree.entriesAt, refsTree, List.mem_cons, exists_eq_or_imp]
    constructor
    · rintro (x | x)
      · right; simpa [InEntry, h0] using x
      · exact h1 x
    · rintro (x | x)
      · exact .inr (h2 x)
      · exact .inl (.inl x)
theorem refs_entries (h p : Bytes) (es : Entries) :
    ((∃ en ∈ es.entriesAt p, InEntry h en) → refsEntries h es ∨ Aligned h p) ∧
    (refsEntries h es → ∃ en ∈ es.entriesAt p, InEntry h en) := by
  match es with
  | .nil => simp [Entries.entriesAt, refsEntries]
  | .cons n t es =>
    have ht := refs_tree h (childPath p n) t
    rw [aligned_childPath] at ht
    obtain ⟨h1, h2⟩ := refs_entries h p es
    simp only [Entries.entriesAt, List.mem_append, refsEntries]
    constructor
    · rintro ⟨en, hm | hm, hx⟩
      · rcases ht.1 ⟨en, hm, hx⟩ with x | x | x
        · exact .inl (.inr (.inl x))
        · exact .inr x
        · exact .inl (.inl x)
      · rcases h1 ⟨en, hm, hx⟩ with x | x
        · exact .inl (.inr (.inr x))
        · exact .inr x
    · rintro (x | x | x)
      · obtain ⟨en, hm, hx⟩ := ht.2 (.inr (.inr x)); exact ⟨en, .inl hm, hx⟩
      · obtain ⟨en, hm, hx⟩ := ht.2 (.inl x); exact ⟨en, .inl hm, hx⟩
      · obtain ⟨en, hm, hx⟩ := h2 x; exact ⟨en, .inr hm, hx⟩
end

/-- A hash occurs in an archive where it occurs in the path, the contents or the target of an entry, and nowhere else. -/
theorem aligned_nar {h : Bytes} (t : Tree) (ht : t.All SmallName SmallNode) :
    Aligned h t.nar ↔ ∃ en ∈ t.entriesAt b!"/", InEntry h en := by
  unfold Tree.nar
  rw [aligned_fixed b!"nix-archive-1" (by decide), refs_tree]
  have := aligned_node (h := h) t ht []
  rw [List.append_nil] at this
  rw [this]
  have h1 : ¬ Aligned h [] := not_aligned_short (by decide)
  have h2 : ¬ Aligned h b!"/" := not_aligned_short (by decide)
  simp [h1, h2]

end Verif.Props
