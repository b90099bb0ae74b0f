import Verif.Props.Storepath

/-!
# Store paths that are cut off (C159)
-/

namespace Verif.Props
open Verif.GoLib Verif.Spec Verif.Nixbase32 Verif.Storepath

/-- C159: if a text and a beginning of it are read as store paths, both have the same digest, and the name lacks what
was cut off. -/
theorem C159_digest (pre rest : Bytes) (p q : StorePath) :
    (fromString (pre ++ rest) = .ok p → fromString pre = .ok q → q.digest = p.digest ∧ p.name = q.name ++ rest) ∧
    (fromAbsolutePath (pre ++ rest) = .ok p → fromAbsolutePath pre = .ok q → q.digest = p.digest ∧ p.name = q.name ++ rest) := by
  have key : ∀ pre : Bytes, fromString (pre ++ rest) = .ok p → fromString pre = .ok q → q.digest = p.digest ∧ p.name = q.name ++ rest := by
    intro pre h1 h2
    obtain ⟨⟨a1, a2, a3, _⟩, _⟩ := C42_from_string_partial _ _ h1
    obtain ⟨⟨b1, b2, b3, _⟩, _⟩ := C42_from_string_partial _ _ h2
    have hl : 33 ≤ pre.length := (((fromString_eq pre).2 q).1 h2).2.1
    rw [List.take_append_of_le_length (by omega), b1] at a1
    refine ⟨?_, ?_⟩
    · have e1 := C01_decode_encode p.digest
      have e2 := C01_decode_encode q.digest
      rw [a1, e1] at e2
      exact (Res.ok.inj e2).symm
    · rw [a3, b3, List.drop_append_of_le_length hl]
  refine ⟨key pre, ?_⟩
  intro h1 h2
  unfold fromAbsolutePath at h1 h2
  split at h1
  · cases h1
  split at h2
  · cases h2
  rename_i hlt
  rw [List.drop_append_of_le_length (by omega)] at h1
  exact key _ h1 h2

/-- C159, exactly: which beginnings of the text of a store path are read, and as what: from 33 (`FromString`), 44 (`Validate`) or 45
(`FromAbsolutePath`) bytes on, all of them, as a path with the same digest and the name as far as it goes. -/
theorem C159_exact (p : StorePath) (hd : p.digest.length = 20) (hn : NameChars p.name) (k : Nat) (q : StorePath) :
    (k ≤ p.string.length → (fromString (p.string.take k) = .ok q ↔ 33 ≤ k ∧ q = ⟨p.name.take (k - 33), p.digest⟩)) ∧
    (k ≤ p.absolute.length → (fromAbsolutePath (p.absolute.take k) = .ok q ↔ 45 ≤ k ∧ q = ⟨p.name.take (k - 44), p.digest⟩) ∧
      (Storepath.validate (p.absolute.take k) = .ok () ↔ 44 ≤ k)) := by
  have hh := encode_hashPart _ hd
  have hl : (encodeToString p.digest).length = 32 := hh.1
  have habs := (C41_roundtrip p hd hn).1
  -- beginnings from 33 bytes on
  have htake : ∀ k, 33 ≤ k → p.string.take k = (⟨p.name.take (k - 33), p.digest⟩ : StorePath).string := by
    intro k hk
    unfold StorePath.string
    rw [List.take_append, List.take_of_length_le (by simp; omega)]
    congr 2
    simp [hl]
  have hshort : ∀ s q, fromString s = .ok q → 33 ≤ s.length := fun s q h => (((fromString_eq s).2 q).1 h).2.1
  have hnt : ∀ j, NameChars (p.name.take j) := fun j c hc => hn c (List.mem_of_mem_take hc)
  have hfrom : ∀ k, k ≤ p.string.length → (fromString (p.string.take k) = .ok q ↔ 33 ≤ k ∧ q = ⟨p.name.take (k - 33), p.digest⟩) := by
    intro k hk
    constructor
    · intro h
      have h33 := hshort _ _ h
      rw [List.length_take] at h33
      have h33' : 33 ≤ k := by omega
      refine ⟨h33', ?_⟩
      rw [htake k h33'] at h
      rw [(C41_roundtrip ⟨p.name.take (k - 33), p.digest⟩ hd (hnt _)).2.2.1] at h
      exact (Res.ok.inj h).symm
    · rintro ⟨h33, rfl⟩
      rw [htake k h33]
      exact (C41_roundtrip ⟨p.name.take (k - 33), p.digest⟩ hd (hnt _)).2.2.1
  refine ⟨hfrom k, fun hk => ⟨?_, ?_⟩⟩
  · have hla : p.absolute.length = 11 + p.string.length := by rw [habs]; simp; omega
    have h45 : hashOffset + nameOffset + 1 = 45 := by decide
    have h11 : hashOffset = 11 := by decide
    unfold fromAbsolutePath
    rw [h45, h11, List.length_take, Nat.min_eq_left hk]
    by_cases hk45 : k < 45
    · rw [if_pos hk45]
      constructor
      · intro h; cases h
      · rintro ⟨h, _⟩; omega
    · rw [if_neg hk45, List.drop_take]
      have : p.absolute.drop 11 = p.string := by rw [habs]; rfl
      rw [this, hfrom (k - 11) (by omega)]
      have e1 : k - 11 - 33 = k - 44 := by omega
      rw [e1]
      constructor
      · rintro ⟨_, h⟩; exact ⟨by omega, h⟩
      · rintro ⟨_, h⟩; exact ⟨by omega, h⟩
  · constructor
    · intro h
      unfold Storepath.validate at h
      split at h
      · cases h
      · rename_i hlt
        have : hashOffset + encodedPathHashSize + 1 = 44 := by decide
        rw [List.length_take] at hlt
        omega
    · intro h44
      have e : p.absolute.take k = (⟨p.name.take (k - 44), p.digest⟩ : StorePath).absolute := by
        rw [habs, (C41_roundtrip ⟨p.name.take (k - 44), p.digest⟩ hd (hnt _)).1]
        have h2 := htake (k - 11) (by omega)
        have e1 : k - 11 - 33 = k - 44 := by omega
        rw [e1] at h2
        rw [← h2, List.take_append, List.take_of_length_le (by simp; omega)]
        rfl
      rw [e]
      exact (C41_roundtrip ⟨p.name.take (k - 44), p.digest⟩ hd (hnt _)).2.1

/-- C159, so cutting off a store path is not always noticed: `/nix/store/<hash>-hello-2.12` without its last six bytes is read as `/nix/store/<hash>-hell`. -/
theorem C159_unnoticed :
    fromAbsolutePath (b!"/nix/store/" ++ List.replicate 32 48 ++ b!"-hello-2.12") = .ok ⟨b!"hello-2.12", List.replicate 20 0⟩ ∧
    fromAbsolutePath (b!"/nix/store/" ++ List.replicate 32 48 ++ b!"-hell") = .ok ⟨b!"hell", List.replicate 20 0⟩ := by
  decide +kernel

example := (C159_digest (List.replicate 32 48 ++ b!"-a/") b!"." ⟨b!"a/.", List.replicate 20 0⟩ ⟨b!"a/", List.replicate 20 0⟩).1
  (by decide +kernel) (by decide +kernel)
example := (C159_exact ⟨b!"hello-2.12", List.replicate 20 0⟩ (by decide) (by decide +kernel) 50
  ⟨b!"hello-", List.replicate 20 0⟩).2 (by decide +kernel)

end Verif.Props
