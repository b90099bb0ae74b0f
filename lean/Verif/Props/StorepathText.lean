import Verif.Spec.StorepathText
import Verif.Props.Storepath
import Verif.Props.HashText

/-!
# C103: what `storepath.FromString` and `FromAbsolutePath` accept, exactly
-/

namespace Verif.Props
open Verif.Storepath Verif.GoLib Verif.Spec Verif.Nixbase32

theorem walk_eq (l : List Bytes) (stack : List Bytes) (hs : ∀ x ∈ stack, Good x) (hl : ∀ x ∈ l, (47 : UInt8) ∉ x) :
    walk stack.reverse l = (l.foldl (cleanStep true) stack).reverse := by
  induction l generalizing stack with
  | nil => rfl
  | cons c l ih =>
    have hc := hl c (by simp)
    rw [List.foldl_cons, ← ih _ (cleanStep_good_stack hs hc) (fun x hx => hl x (by simp [hx]))]
    simp only [walk, cleanStep]
    split
    · rfl
    · split
      · cases stack with
        | nil => rfl
        | cons top rest =>
          have ht := (hs top (by simp)).2.2.1
          simp only [if_neg ht]
          simp
      · simp

theorem join_store_walk (s : Bytes) :
    (∀ x ∈ walk [b!"nix", b!"store"] (splitByte s 47), Good x) ∧
      pathJoin storeDir s = absPath (walk [b!"nix", b!"store"] (splitByte s 47)) := by
  have hg : ∀ x ∈ [b!"store", b!"nix"], Good x := by decide
  have hw := walk_eq (splitByte s 47) [b!"store", b!"nix"] hg (splitByte_no_sep s 47)
  have hrev : [b!"store", b!"nix"].reverse = [b!"nix", b!"store"] := rfl
  rw [hrev] at hw
  rw [hw]
  constructor
  · intro x hx
    exact foldl_cleanStep_good hg (splitByte_no_sep s 47) x (by simpa using hx)
  · by_cases he : s = []
    · subst he; decide +kernel
    · unfold pathJoin
      rw [if_neg (by simp [he]), if_neg (by simp [storeDir]), if_neg he]
      rw [clean_rooted _ rfl, cleanComps_rooted _ rfl]
      have e : splitByte (storeDir ++ b!"/" ++ s) 47 = [] :: b!"nix" :: b!"store" :: splitByte s 47 := by
        have e1 := splitByte_append (x := []) (s := b!"nix" ++ 47 :: (b!"store" ++ 47 :: s)) (c := 47) (by simp)
        have e2 := splitByte_append (x := b!"nix") (s := b!"store" ++ 47 :: s) (c := 47) (by decide)
        have e3 := splitByte_append (x := b!"store") (s := s) (c := 47) (by decide)
        rw [e2, e3] at e1
        exact e1
      rw [e]
      simp only [List.foldl_cons]
      have e' : cleanStep true (cleanStep true (cleanStep true [] []) b!"nix") b!"store" = [b!"store", b!"nix"] := by
        decide
      rw [e']

theorem hashAndMore_noslash {x : Bytes} (h : HashAndMore x) : (47 : UInt8) ∉ x := by
  obtain ⟨h, d, n, rfl, hh, hn⟩ := h
  simp only [List.append_assoc, List.mem_append, not_or]
  refine ⟨fun h => slash_not_digit (hh.2 _ h), ?_⟩
  exact ⟨fun h => slash_not_nameChar (hn _ (by simp at h; simp [h])), fun h => slash_not_nameChar (hn _ (by simp [h]))⟩

theorem accepted_absPath {cs : List Bytes} (hg : ∀ x ∈ cs, Good x) :
    validate (absPath cs) = .ok () ↔
      ∃ x, HashAndMore x ∧ (cs = [b!"nix", b!"store", x] ∨ ∃ c, cs = [b!"nix", b!"store" ++ [c] ++ x]) := by
  rw [validate_iff]
  constructor
  · rintro ⟨c, h, d, n, he, hh, hn⟩
    refine ⟨h ++ [d] ++ n, ⟨h, d, n, rfl, hh, hn⟩, ?_⟩
    have hns := hashAndMore_noslash ⟨h, d, n, rfl, hh, hn⟩
    have hcs : cs ≠ [] := by
      rintro rfl
      simp [absPath, join] at he
    have hsp := splitByte_absPath hg
    rw [if_neg hcs, he] at hsp
    have e1 := splitByte_append (x := []) (s := b!"nix" ++ 47 :: (b!"store" ++ c :: (h ++ [d] ++ n))) (c := 47) (by simp)
    have e2 := splitByte_append (x := b!"nix") (s := b!"store" ++ c :: (h ++ [d] ++ n)) (c := 47) (by decide)
    have e0 : b!"/nix/store" ++ [c] ++ h ++ [d] ++ n = [] ++ 47 :: (b!"nix" ++ 47 :: (b!"store" ++ c :: (h ++ [d] ++ n))) := by
      simp
    rw [e0, e1, e2] at hsp
    simp only [List.cons.injEq, true_and] at hsp
    rw [← hsp]
    by_cases hc : c = 47
    · left
      subst hc
      rw [splitByte_append (by decide), splitByte_self hns]
    · right
      refine ⟨c, ?_⟩
      rw [splitByte_self]
      · simp
      · simp only [List.mem_append, List.mem_cons, not_or] at hns ⊢
        refine ⟨by decide, fun h => hc h.symm, hns⟩
  · rintro ⟨x, ⟨h, d, n, rfl, hh, hn⟩, rfl | ⟨c, rfl⟩⟩
    · exact ⟨47, h, d, n, by simp [absPath, join], hh, hn⟩
    · exact ⟨c, h, d, n, by simp [absPath, join], hh, hn⟩

/-- C103: `FromString` accepts exactly the strings that `ReadsAs` describes, with the name and digest
given there. -/
theorem C103_from_string (s : Bytes) (p : StorePath) :
    fromString s = .ok p ↔ ReadsAs s p.name p.digest := by
  rw [(fromString_eq s).2 p, (join_store_walk s).2, accepted_absPath (join_store_walk s).1, nix32_iff]
  unfold ReadsAs
  rw [and_comm (a := ∃ x, HashAndMore x ∧ _)]
  refine and_congr_left fun _ => ?_
  constructor
  · rintro ⟨hl, hd, hn⟩
    have hlen := hd.2
    rw [List.length_take, Nat.min_eq_left (by omega)] at hlen
    have h33 : s.drop 32 = s[32] :: s.drop 33 := List.drop_eq_getElem_cons (by omega)
    refine ⟨s.take 32, s[32], ?_, hd, by omega⟩
    rw [hn, List.append_assoc, List.singleton_append, ← h33, List.take_append_drop]
  · rintro ⟨h, d, e, ht, hd⟩
    have hl : h.length = 32 := by rw [ht.2, hd]
    refine ⟨by rw [e]; simp [hl]; omega, ?_, ?_⟩
    · rw [e, List.append_assoc, List.take_left' hl]; exact ht
    · rw [e, List.drop_left' (by simp [hl])]

/-- C103: `FromAbsolutePath` ignores the first eleven bytes and reads the rest, which must be at least 34
bytes long, as `FromString` does. -/
theorem C103_from_absolute (s : Bytes) (p : StorePath) :
    fromAbsolutePath s = .ok p ↔
      ∃ pre t, s = pre ++ t ∧ pre.length = 11 ∧ 34 ≤ t.length ∧ ReadsAs t p.name p.digest := by
  constructor
  · intro h
    have hl : 45 ≤ s.length := by
      unfold fromAbsolutePath at h
      split at h
      · simp at h
      · rename_i h'
        have e1 : hashOffset = 11 := rfl
        have e2 : nameOffset = 33 := rfl
        omega
    refine ⟨s.take 11, s.drop 11, (List.take_append_drop _ _).symm, by simp; omega, by simp; omega, ?_⟩
    have := C43_prefix_partial (s.take 11) (s.drop 11) (by simp; omega)
    rw [List.take_append_drop, if_neg (by simp; omega), h] at this
    exact (C103_from_string _ _).1 this.symm
  · rintro ⟨pre, t, rfl, h1, h2, h3⟩
    rw [C43_prefix_partial _ _ h1, if_neg (by omega)]
    exact (C103_from_string _ _).2 h3

/-- C103: without a slash this is: the base32 text of the digest, any allowed character, allowed
characters. -/
theorem C103_plain (s name digest : Bytes) (hs : (47 : UInt8) ∉ s) :
    ReadsAs s name digest ↔
      ∃ h d, s = h ++ [d] ++ name ∧ Nix32Text h digest ∧ digest.length = 20 ∧ NameChars (d :: name) := by
  have hdig : ∀ {h : Bytes}, Nix32Text h digest → digest.length = 20 → HashPart h := by
    intro h ht hd
    have e := (C02_decode_iff_encode _ _).1 ((nix32_iff _ _).2 ht)
    rw [e]; exact encode_hashPart _ hd
  constructor
  · rintro ⟨⟨h, d, e, ht, hd⟩, x, ⟨h', d', n', e', hh', hn'⟩, hw⟩
    refine ⟨h, d, e, ht, hd, ?_⟩
    have hlen : 33 ≤ s.length := by rw [e]; simp [ht.2, hd]; omega
    have hg := good_of_noslash (by omega) hs
    rw [splitByte_self hs] at hw
    have hwalk : walk [b!"nix", b!"store"] [s] = [b!"nix", b!"store", s] := by
      simp only [walk]
      rw [if_neg (not_or.2 ⟨hg.1, hg.2.1⟩), if_neg hg.2.2.1]; rfl
    rw [hwalk] at hw
    rcases hw with hw | ⟨c, hw⟩
    · simp only [List.cons.injEq, true_and, and_true] at hw
      rw [← hw, e] at e'
      have hl : h.length = 32 := by rw [ht.2, hd]
      have hl' := hh'.1
      simp only [List.append_assoc, List.singleton_append] at e'
      obtain ⟨_, e3⟩ := List.append_inj e' (by rw [hl, hl'])
      rw [e3]; exact hn'
    · simp at hw
  · rintro ⟨h, d, e, ht, hd, hn⟩
    refine ⟨⟨h, d, e, ht, hd⟩, s, ⟨h, d, name, e, hdig ht hd, hn⟩, .inl ?_⟩
    have hlen : 33 ≤ s.length := by rw [e]; simp [ht.2, hd]; omega
    have hg := good_of_noslash (by omega) hs
    rw [splitByte_self hs]
    simp only [walk]
    rw [if_neg (not_or.2 ⟨hg.1, hg.2.1⟩), if_neg hg.2.2.1]; rfl

/-- strings with slashes that are read: through `..`, and into a sibling of the store -/
example :
    ReadsAs (sampleHash ++ b!"-a/../" ++ sampleHash ++ b!"-b") (b!"a/../" ++ sampleHash ++ b!"-b")
      [0x8a, 0x12, 0x32, 0x15, 0x22, 0xfd, 0x91, 0xef, 0xbd, 0x60, 0xeb, 0xb2, 0x48, 0x1a, 0xf8, 0x85, 0x80, 0xf6, 0x16, 0x00] ∧
    ReadsAs (sampleHash ++ b!"-a/../../storeX" ++ sampleHash ++ b!"-b") (b!"a/../../storeX" ++ sampleHash ++ b!"-b")
      [0x8a, 0x12, 0x32, 0x15, 0x22, 0xfd, 0x91, 0xef, 0xbd, 0x60, 0xeb, 0xb2, 0x48, 0x1a, 0xf8, 0x85, 0x80, 0xf6, 0x16, 0x00] :=
  ⟨(C103_from_string _ ⟨_, _⟩).1 (by decide +kernel), (C103_from_string _ ⟨_, _⟩).1 (by decide +kernel)⟩

end Verif.Props
