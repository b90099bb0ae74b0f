import Verif.Spec.DrvAgain
import Verif.Lemmas.DrvCut
import Verif.Props.DrvPathsFiles

/-!
# C61: which texts are given back when they are read and written, exactly
-/

namespace Verif.Derivation
open Verif.GoLib

theorem piece_inv {n m : Int} {c : UInt8} {r : Bytes} (h : Piece n m (c :: r)) :
    (c = 34 ∧ ∃ s x, Closed s ∧ r = s ++ 34 :: x ∧ Piece n m x) ∨ (c = 92 ∧ ∃ a x, r = a :: x ∧ Piece n m x) ∨
    ((c = 91 ∨ c = 40) ∧ Piece (n + 1) m r) ∨ ((c = 93 ∨ c = 41) ∧ Piece (n - 1) m r) ∨
    (c ∉ ([34, 92, 91, 40, 93, 41] : Bytes) ∧ (c = 44 → n ≠ 1) ∧ Piece n m r) := by
  generalize hz : c :: r = z at h
  cases h with
  | nil => cases hz
  | str hs hx =>
    rename_i s x
    have e : quoted s ++ x = 34 :: (s ++ 34 :: x) := by simp [quoted]
    rw [e] at hz
    cases hz
    exact .inl ⟨rfl, s, x, hs, rfl, hx⟩
  | esc a hx => cases hz; exact .inr (.inl ⟨rfl, a, _, rfl, hx⟩)
  | opening a ha hx => cases hz; exact .inr (.inr (.inl ⟨ha, hx⟩))
  | closing a ha hx => cases hz; exact .inr (.inr (.inr (.inl ⟨ha, hx⟩)))
  | plain a h1 h2 hx => cases hz; exact .inr (.inr (.inr (.inr ⟨h1, h2, hx⟩)))

theorem closed_unique {s s' a b : Bytes} (h : Closed s) (h' : Closed s') (e : s ++ 34 :: a = s' ++ 34 :: b) : s = s' ∧ a = b := by
  induction h generalizing s' with
  | nil =>
    cases h' with
    | nil => exact ⟨rfl, (List.cons.inj e).2⟩
    | plain c t h1 _ _ => exact absurd (List.cons.inj e).1.symm h1
    | esc c t _ => exact absurd (List.cons.inj e).1 (by decide)
  | plain c t h1 h2 _ ih =>
    cases h' with
    | nil => exact absurd (List.cons.inj e).1 h1
    | plain c' t' h1' h2' ht' =>
      obtain ⟨rfl, e'⟩ := List.cons.inj e
      obtain ⟨rfl, rfl⟩ := ih ht' e'
      exact ⟨rfl, rfl⟩
    | esc c' t' _ => exact absurd (List.cons.inj e).1 h2
  | esc c t _ ih =>
    cases h' with
    | nil => exact absurd (List.cons.inj e).1 (by decide)
    | plain c' t' h1' h2' ht' => exact absurd (List.cons.inj e).1.symm h2'
    | esc c' t' ht' =>
      obtain ⟨rfl, e'⟩ := List.cons.inj (List.cons.inj e).2
      obtain ⟨rfl, rfl⟩ := ih ht' e'
      exact ⟨rfl, rfl⟩

/-- A piece that begins with something that is a piece (between any numbers of brackets) is two pieces. -/
theorem piece_split {k k' : Int} {x : Bytes} (hx : Piece k k' x) : ∀ {n m : Int} {y : Bytes}, Piece n m (x ++ y) →
    ∃ j, j - n = k' - k ∧ Piece n j x ∧ Piece j m y := by
  induction hx with
  | nil k => intro n m y h; exact ⟨n, by omega, .nil n, h⟩
  | @str k k' s x hs _ ih =>
    intro n m y h
    have e : quoted s ++ x ++ y = 34 :: (s ++ 34 :: (x ++ y)) := by simp [quoted]
    rw [e] at h
    rcases piece_inv h with ⟨_, s', z, hs', e', hz⟩ | ⟨hc, _⟩ | ⟨hc, _⟩ | ⟨hc, _⟩ | ⟨hc, _⟩
    · obtain ⟨rfl, rfl⟩ := closed_unique hs hs' e'
      obtain ⟨j, h1, h2, h3⟩ := ih hz
      exact ⟨j, h1, .str hs h2, h3⟩
    · exact absurd hc (by decide)
    · exact absurd hc (by decide)
    · exact absurd hc (by decide)
    · exact absurd hc (by decide)
  | @esc k k' x c _ ih =>
    intro n m y h
    rcases piece_inv h with ⟨hc, _⟩ | ⟨_, a, z, e', hz⟩ | ⟨hc, _⟩ | ⟨hc, _⟩ | ⟨hc, _⟩
    · exact absurd hc (by decide)
    · obtain ⟨rfl, rfl⟩ := List.cons.inj e'
      obtain ⟨j, h1, h2, h3⟩ := ih hz
      exact ⟨j, h1, .esc c h2, h3⟩
    · exact absurd hc (by decide)
    · exact absurd hc (by decide)
    · exact absurd hc (by decide)
  | @opening k k' x c hc _ ih =>
    intro n m y h
    have no : c ≠ 34 ∧ c ≠ 92 ∧ ¬ (c = 93 ∨ c = 41) ∧ c ∈ ([34, 92, 91, 40, 93, 41] : Bytes) := by rcases hc with rfl | rfl <;> decide
    rcases piece_inv h with ⟨hc', _⟩ | ⟨hc', _⟩ | ⟨_, hz⟩ | ⟨hc', _⟩ | ⟨hc', _⟩
    · exact absurd hc' no.1
    · exact absurd hc' no.2.1
    · obtain ⟨j, h1, h2, h3⟩ := ih hz
      exact ⟨j, by omega, .opening c hc h2, h3⟩
    · exact absurd hc' no.2.2.1
    · exact absurd no.2.2.2 hc'
  | @closing k k' x c hc _ ih =>
    intro n m y h
    have no : c ≠ 34 ∧ c ≠ 92 ∧ ¬ (c = 91 ∨ c = 40) ∧ c ∈ ([34, 92, 91, 40, 93, 41] : Bytes) := by rcases hc with rfl | rfl <;> decide
    rcases piece_inv h with ⟨hc', _⟩ | ⟨hc', _⟩ | ⟨hc', _⟩ | ⟨_, hz⟩ | ⟨hc', _⟩
    · exact absurd hc' no.1
    · exact absurd hc' no.2.1
    · exact absurd hc' no.2.2.1
    · obtain ⟨j, h1, h2, h3⟩ := ih hz
      exact ⟨j, by omega, .closing c hc h2, h3⟩
    · exact absurd no.2.2.2 hc'
  | @plain k k' x c hc _ _ ih =>
    intro n m y h
    have hc2 := hc
    simp only [List.mem_cons, List.not_mem_nil, or_false, not_or] at hc2
    rcases piece_inv h with ⟨hc', _⟩ | ⟨hc', _⟩ | ⟨hc', _⟩ | ⟨hc', _⟩ | ⟨_, h44, hz⟩
    · exact absurd hc' hc2.1
    · exact absurd hc' hc2.2.1
    · exact absurd hc' (by simp [hc2])
    · exact absurd hc' (by simp [hc2])
    · obtain ⟨j, h1, h2, h3⟩ := ih hz
      exact ⟨j, by omega, .plain c hc h44 h2, h3⟩

theorem piece_append {n m k : Int} {x y : Bytes} (h : Piece n m x) (hy : Piece m k y) : Piece n k (x ++ y) := by
  induction h with
  | nil => exact hy
  | str hs _ ih => rw [List.append_assoc]; exact .str hs (ih hy)
  | esc c _ ih => exact .esc c (ih hy)
  | opening c hc _ ih => exact .opening c hc (ih hy)
  | closing c hc _ ih => exact .closing c hc (ih hy)
  | plain c h1 h2 _ ih => exact .plain c h1 h2 (ih hy)

theorem piece_nil {n m : Int} (h : Piece n m []) : n = m := by
  generalize hz : ([] : Bytes) = z at h
  cases h with
  | nil => rfl
  | @str s x _ _ => simp [quoted] at hz
  | esc => cases hz
  | opening => cases hz
  | closing => cases hz
  | plain => cases hz

theorem piece_comma {n m : Int} {r : Bytes} (h : Piece n m (44 :: r)) : n ≠ 1 ∧ Piece n m r := by
  rcases piece_inv h with ⟨hc, _⟩ | ⟨hc, _⟩ | ⟨hc, _⟩ | ⟨hc, _⟩ | ⟨_, h1, h2⟩
  · exact absurd hc (by decide)
  · exact absurd hc (by decide)
  · exact absurd hc (by decide)
  · exact absurd hc (by decide)
  · exact ⟨h1 rfl, h2⟩

theorem piece_items {items : List Bytes} (hi : ∀ x ∈ items, Piece 1 1 x) {j m : Int} {rest : Bytes}
    (h : Piece j m (items.flatMap (fun x => x ++ b!",") ++ rest)) : (∀ x ∈ items, Piece j j x) ∧ Piece j m rest := by
  induction items with
  | nil => exact ⟨by simp, h⟩
  | cons a items ih =>
    have e : List.flatMap (fun x => x ++ b!",") (a :: items) ++ rest = a ++ (44 :: (items.flatMap (fun x => x ++ b!",") ++ rest)) := by simp
    rw [e] at h
    obtain ⟨i, h1, h2, h3⟩ := piece_split (hi a List.mem_cons_self) h
    obtain rfl : i = j := by omega
    obtain ⟨h4, h5⟩ := ih (fun x hx => hi x (List.mem_cons_of_mem _ hx)) (piece_comma h3).2
    refine ⟨fun x hx => ?_, h5⟩
    rcases List.mem_cons.1 hx with rfl | hx
    · exact h2
    · exact h4 x hx

theorem piece_open {o : UInt8} (ho : o = 91 ∨ o = 40) {n m : Int} {r : Bytes} (h : Piece n m (o :: r)) : Piece (n + 1) m r := by
  have no : o ≠ 34 ∧ o ≠ 92 ∧ ¬ (o = 93 ∨ o = 41) ∧ o ∈ ([34, 92, 91, 40, 93, 41] : Bytes) := by rcases ho with rfl | rfl <;> decide
  rcases piece_inv h with ⟨hc', _⟩ | ⟨hc', _⟩ | ⟨_, hz⟩ | ⟨hc', _⟩ | ⟨hc', _⟩
  · exact absurd hc' no.1
  · exact absurd hc' no.2.1
  · exact hz
  · exact absurd hc' no.2.2.1
  · exact absurd no.2.2.2 hc'

theorem piece_close {c : UInt8} (hc : c = 93 ∨ c = 41) {n m : Int} {r : Bytes} (h : Piece n m (c :: r)) : Piece (n - 1) m r := by
  have no : c ≠ 34 ∧ c ≠ 92 ∧ ¬ (c = 91 ∨ c = 40) ∧ c ∈ ([34, 92, 91, 40, 93, 41] : Bytes) := by rcases hc with rfl | rfl <;> decide
  rcases piece_inv h with ⟨hc', _⟩ | ⟨hc', _⟩ | ⟨hc', _⟩ | ⟨_, hz⟩ | ⟨hc', _⟩
  · exact absurd hc' no.1
  · exact absurd hc' no.2.1
  · exact absurd hc' no.2.2.1
  · exact hz
  · exact absurd no.2.2.2 hc'

/-- The items of an array that is a piece of something. -/
theorem listing_pieces {items : List Bytes} {v : Bytes} (h : Listing items v) {k : Int} (hv : Piece k k v) :
    ∀ x ∈ items, Piece (k + 1) (k + 1) x := by
  cases h with
  | two a b => simp
  | @all o c init last n hb h1 h2 h3 =>
    rw [join_snoc, List.append_assoc, List.append_assoc, List.singleton_append] at hv
    have hv := piece_open (hb.imp And.left And.left) hv
    obtain ⟨h4, h5⟩ := piece_items h1 hv
    obtain ⟨j, h6, h7, h8⟩ := piece_split h2 h5
    have := piece_nil (piece_close (hb.imp And.right And.right) h8)
    obtain rfl : j = k + 1 := by omega
    intro x hx
    rcases List.mem_append.1 hx with hx | hx
    · exact h4 x hx
    · rw [List.mem_singleton.1 hx]; exact h7
  | @dropped o c _ p tail n hb h1 h2 h3 =>
    rw [List.append_assoc, List.append_assoc, List.append_assoc, List.singleton_append] at hv
    have hv := piece_open (hb.imp And.left And.left) hv
    exact (piece_items h1 hv).1

theorem piece_join {k : Int} (hk : k ≠ 1) {l : List Bytes} (h : ∀ x ∈ l, Piece k k x) : Piece k k (join l b!",") := by
  rcases List.eq_nil_or_concat l with rfl | ⟨init, last, rfl⟩
  · exact .nil k
  · rw [List.concat_eq_append] at h ⊢
    rw [join_snoc]
    refine piece_append (m := k) ?_ (h last (by simp))
    have hi : ∀ x ∈ init, Piece k k x := fun x hx => h x (by simp [hx])
    clear h
    induction init with
    | nil => exact .nil k
    | cons a init ih =>
      rw [List.flatMap_cons]
      refine piece_append (piece_append (hi a List.mem_cons_self) (.plain 44 (by decide) (fun _ => hk) (.nil k))) (ih fun x hx => hi x (List.mem_cons_of_mem _ hx))

theorem piece_bracketed {k : Int} (hk : 1 ≤ k) {l : List Bytes} (h : ∀ x ∈ l, Piece (k + 1) (k + 1) x) : Piece k k (bracketed l) := by
  unfold bracketed
  rw [List.append_assoc]
  refine .opening 91 (.inl rfl) (piece_append (x := join l b!",") (piece_join (by omega) h) (.closing 93 (.inl rfl) ?_))
  rw [show k + 1 - 1 = k by omega]
  exact .nil k

theorem piece_tuple {k : Int} (hk : 1 ≤ k) {l : List Bytes} (h : ∀ x ∈ l, Piece (k + 1) (k + 1) x) : Piece k k (tuple l) := by
  unfold tuple
  rw [List.append_assoc]
  refine .opening 40 (.inr rfl) (piece_append (x := join l b!",") (piece_join (by omega) h) (.closing 41 (.inr rfl) ?_))
  rw [show k + 1 - 1 = k by omega]
  exact .nil k

theorem piece_quoted {s : Bytes} (h : Closed s) (k : Int) : Piece k k (quoted s) := by
  have := Piece.str h (Piece.nil k)
  rwa [List.append_nil] at this

/-- Pieces before a comma are the same. -/
theorem piece_unique {x y a b : Bytes} (hx : Piece 1 1 x) (hy : Piece 1 1 y) (e : x ++ 44 :: a = y ++ 44 :: b) : x = y ∧ a = b := by
  have key : ∀ {x y a b : Bytes}, Piece 1 1 x → Piece 1 1 y → ∀ z, y = x ++ z → 44 :: a = z ++ 44 :: b → z = [] := by
    intro x y a b hx hy z e1 e2
    cases z with
    | nil => rfl
    | cons c z =>
      exfalso
      obtain ⟨rfl, _⟩ := List.cons.inj e2
      rw [e1] at hy
      obtain ⟨j, h1, _, h3⟩ := piece_split hx hy
      obtain rfl : j = 1 := by omega
      exact (piece_comma h3).1 rfl
  rcases List.append_eq_append_iff.1 e with ⟨z, e1, e2⟩ | ⟨z, e1, e2⟩
  · obtain rfl := key hx hy z e1 e2
    rw [List.append_nil] at e1
    exact ⟨e1.symm, (List.cons.inj e2).2⟩
  · obtain rfl := key hy hx z e1 e2
    rw [List.append_nil] at e1
    exact ⟨e1, (List.cons.inj e2).2.symm⟩

theorem outputs_piece {m : GoMap Output} {o : Bytes} (h : Table OutputText m o) (ho : Piece 1 1 o) :
    Piece 1 1 (bracketed (m.map fun o => tuple [quoted o.1, quoted o.2.path, quoted o.2.hashAlgorithm, quoted o.2.hash])) := by
  obtain ⟨_, l, hl, rfl, hi⟩ := h
  have hp := listing_pieces hl ho
  refine piece_bracketed (by omega) ?_
  intro x hx
  simp only [List.map_map, List.mem_map, Function.comp] at hx
  obtain ⟨y, hy, rfl⟩ := hx
  have hv := hp y.1 (List.mem_map_of_mem hy)
  have e : ∀ k : Int, Piece k k (quoted []) := piece_quoted .nil
  refine piece_tuple (by omega) ?_
  have key : ∀ {ss : List Bytes}, Strings ss y.1 → ∀ s ∈ ss, Piece (1 + 1 + 1) (1 + 1 + 1) (quoted s) := fun hs s h =>
    listing_pieces hs hv _ (List.mem_map_of_mem h)
  have all : Piece (1 + 1 + 1) (1 + 1 + 1) (quoted y.2.1) ∧ Piece (1 + 1 + 1) (1 + 1 + 1) (quoted y.2.2.path) ∧
      Piece (1 + 1 + 1) (1 + 1 + 1) (quoted y.2.2.hashAlgorithm) ∧ Piece (1 + 1 + 1) (1 + 1 + 1) (quoted y.2.2.hash) := by
    rcases hi y hy with h | ⟨h, h1⟩ | ⟨h, h1, h2⟩ | ⟨h, h1⟩
    · exact ⟨key h _ (by simp), key h _ (by simp), key h _ (by simp), key h _ (by simp)⟩
    · rw [h1]; exact ⟨key h _ (by simp), key h _ (by simp), key h _ (by simp), e _⟩
    · rw [h1, h2]; exact ⟨key h _ (by simp), key h _ (by simp), e _, e _⟩
    · rw [h1]; exact ⟨key h _ (by simp), e _, e _, e _⟩
  intro x hx
  simp only [List.mem_cons, List.not_mem_nil, or_false] at hx
  rcases hx with rfl | rfl | rfl | rfl
  · exact all.1
  · exact all.2.1
  · exact all.2.2.1
  · exact all.2.2.2

theorem inputs_piece {m : GoMap (List Bytes)} {o : Bytes} (h : Table InputText m o) (ho : Piece 1 1 o) :
    Piece 1 1 (bracketed (m.map fun i => tuple [quoted i.1, bracketed (i.2.map quoted)])) := by
  obtain ⟨_, l, hl, rfl, hi⟩ := h
  have hp := listing_pieces hl ho
  refine piece_bracketed (by omega) ?_
  intro x hx
  simp only [List.map_map, List.mem_map, Function.comp] at hx
  obtain ⟨y, hy, rfl⟩ := hx
  have hv := hp y.1 (List.mem_map_of_mem hy)
  obtain ⟨z, h1, h2⟩ := hi y hy
  have h3 := listing_pieces h1 hv
  refine piece_tuple (by omega) ?_
  intro x hx
  simp only [List.mem_cons, List.not_mem_nil, or_false] at hx
  rcases hx with rfl | rfl
  · exact h3 _ (by simp)
  · exact piece_bracketed (by omega) (listing_pieces h2 (h3 z (by simp)))

theorem strings_piece {l : List Bytes} {o : Bytes} (h : Strings l o) (ho : Piece 1 1 o) : Piece 1 1 (bracketed (l.map quoted)) :=
  piece_bracketed (by omega) (listing_pieces h ho)

/-- All but the last item of an array that has some. -/
theorem listing_init {init : List Bytes} {last v : Bytes} (h : Listing (init ++ [last]) v) :
    ∃ o r, v = o :: (init.flatMap (fun x => x ++ b!",") ++ r) ∧ ∀ x ∈ init, Piece 1 1 x := by
  generalize hz : init ++ [last] = z at h
  cases h with
  | two => simp at hz
  | @all o c init' last' n hb h1 h2 h3 =>
    obtain ⟨rfl, _⟩ := List.append_inj' hz rfl
    refine ⟨o, last' ++ [c], ?_, h1⟩
    rw [join_snoc]
    simp
  | @dropped o c _ p tail n hb h1 h2 h3 =>
    subst hz
    refine ⟨o, last ++ b!"," ++ p ++ tail ++ [c], ?_, fun x hx => h1 x (by simp [hx])⟩
    simp

end Verif.Derivation

namespace Verif.Props
open Verif.GoLib Verif.Derivation

/-- C61, exactly, for every text that is accepted (with all the laxities of C99, and whatever the strings contain): the bytes are
given back if and only if they are the strings of the derivation in the layout of the format, with the values of the environment
escaped, and platform and builder contain no character that is escaped. -/
theorem C61_exact (jn : Bytes → Res (Option Bytes)) (b : Bytes) (d : Derivation) (hd : readDerivation jn ⟨b, .eof⟩ = .ok d) :
    d.write ⟨[], none⟩ = (.ok (), ⟨b, none⟩) ↔ b = d.verbatim.text ∧ NoEscapes d.platform ∧ NoEscapes d.builder := by
  obtain ⟨⟨o, i, s, a, e, v, hb, hv, ho, hi, hs, ha, he⟩, _, _⟩ := (C99_reads jn b d).1 hd
  obtain ⟨cs, h1, h2⟩ := write_chunks d
  have hw : d.write ⟨[], none⟩ = (.ok (), ⟨(printed d false d.inputDerivations).text, none⟩) := by
    unfold Derivation.write
    rw [h1]
    show writeChunks cs ⟨[], none⟩ = _
    rw [writeChunks_none, h2]
    rfl
  have lt : ∀ {l : List Bytes}, Increasing l → l.Pairwise (· < ·) := fun h => (List.pairwise_cons.1 h).2
  have so : sortedEntries ⟨[], [], []⟩ d.outputs = d.outputs := sortedEntries_self _ (lt ho.1)
  have si : sortedEntries [] d.inputDerivations = d.inputDerivations := sortedEntries_self _ (lt hi.1)
  have se : sortedEntries [] d.env = d.env := sortedEntries_self _ (lt he.1)
  have hp : printed d false d.inputDerivations = { d.verbatim with platform := escaped d.platform, builder := escaped d.builder } := by
    unfold printed Derivation.verbatim
    rw [so, si, se]
    simp
  have esc : ∀ {x : Bytes}, NoEscapes x → escaped x = x := fun h => escaped_plain h
  rw [hw, hp]
  constructor
  · intro h
    have ht : DrvText.text { d.verbatim with platform := escaped d.platform, builder := escaped d.builder } = b := by
      simpa using h
    obtain ⟨o', r, rfl, hpc⟩ := listing_init (init := [o, i, s, quoted d.platform, quoted d.builder, a]) hv
    have p1 := hpc o (by simp)
    have p2 := hpc i (by simp)
    have p3 := hpc s (by simp)
    have p4 := hpc (quoted d.platform) (by simp)
    have p5 := hpc (quoted d.builder) (by simp)
    have t0 := ht.trans hb
    unfold DrvText.text at t0
    have t0 := List.append_cancel_left t0
    have t7 : ∀ a b c d e f g : Bytes, tuple [a, b, c, d, e, f, g] =
        40 :: (a ++ 44 :: (b ++ 44 :: (c ++ 44 :: (d ++ 44 :: (e ++ 44 :: (f ++ 44 :: (g ++ [41]))))))) := by
      intro a b c d e f g; simp [tuple, join]
    have t6 : ∀ a b c d e f r : Bytes, List.flatMap (fun x => x ++ b!",") [a, b, c, d, e, f] ++ r =
        a ++ 44 :: (b ++ 44 :: (c ++ 44 :: (d ++ 44 :: (e ++ 44 :: (f ++ 44 :: r))))) := by
      intro a b c d e f r; simp
    rw [t7, t6] at t0
    have t1 := (List.cons.inj t0).2
    simp only [Derivation.verbatim, List.map_map, Function.comp_def] at t1
    obtain ⟨_, t2⟩ := piece_unique (outputs_piece ho p1) p1 t1
    obtain ⟨_, t3⟩ := piece_unique (inputs_piece hi p2) p2 t2
    obtain ⟨_, t4⟩ := piece_unique (strings_piece hs p3) p3 t3
    obtain ⟨e1, t5⟩ := piece_unique (piece_quoted (closed_escaped _) 1) p4 t4
    obtain ⟨e2, _⟩ := piece_unique (piece_quoted (closed_escaped _) 1) p5 t5
    have unq : ∀ {x y : Bytes}, quoted x = quoted y → x = y := fun h => by
      unfold quoted at h
      exact List.append_cancel_left (List.append_cancel_right h)
    have e1 := unq e1
    have e2 := unq e2
    refine ⟨?_, escaped_fixed e1, escaped_fixed e2⟩
    rw [← ht, e1, e2]
    rfl
  · rintro ⟨h3, h4, h5⟩
    rw [esc h4, esc h5, h3]
    rfl

/-- A text with an argument that contains quotes which are not escaped: it is accepted and given back, although C61_any_partial
says nothing about it. -/
example : ∃ b d, readDerivation (fun _ => .panic) ⟨b, .eof⟩ = .ok d ∧ d.arguments = [b!"x\"y\"z"] ∧ b = d.verbatim.text ∧
    NoEscapes d.platform ∧ NoEscapes d.builder := by
  refine ⟨({ laxDrv with arguments := [b!"x\"y\"z"] } : Derivation).verbatim.text, { laxDrv with arguments := [b!"x\"y\"z"] }, ?_, rfl, rfl, ?_, ?_⟩
  · decide +kernel
  · unfold NoEscapes; decide
  · unfold NoEscapes; decide

/-- A text that is accepted and not given back. -/
example : ∃ b d, readDerivation (fun _ => .panic) ⟨b, .eof⟩ = .ok d ∧ b = d.verbatim.text ∧ ¬ NoEscapes d.platform := by
  refine ⟨({ laxDrv with platform := b!"x\ty" } : Derivation).verbatim.text, { laxDrv with platform := b!"x\ty" }, ?_, rfl, ?_⟩
  · decide +kernel
  · unfold NoEscapes; decide

end Verif.Props
