import Verif.Spec.Signature
import Verif.Model.Signature
import Verif.Lemmas.GoLib

/-!
# Properties of `pkg/narinfo/signature` (C53 - C55)
-/

namespace Verif.Props
open Verif Verif.Signature Verif.GoLib

/-- What the decoder accepts, in words: a non-empty name without colon, a colon, a non-empty base64
text (as Go's decoder understands it) of data of the given size. -/
theorem decode_iff (s : Bytes) (n : Nat) (k : Named) :
    decode s n = .ok k ↔
      ∃ t, s = k.name ++ b!":" ++ t ∧ k.name ≠ [] ∧ (58 : UInt8) ∉ k.name ∧ t ≠ [] ∧
        b64Decode t = .ok k.data ∧ k.data.length = n := by
  constructor
  · intro h
    unfold decode at h
    split at h
    · simp at h
    rename_i i hi
    obtain ⟨h1, h2⟩ := indexByte_some.1 hi
    split at h
    · simp at h
    rename_i hn
    split at h
    · simp at h
    rename_i hd
    split at h
    · simp at h
    · simp at h
    rename_i data hdata
    split at h
    · simp at h
    rename_i hlen
    simp at h
    subst h
    refine ⟨s.drop (i + 1), ?_, hn, h1, hd, hdata, by simpa using hlen⟩
    have hlt : i < s.length := by
      rcases Nat.lt_or_ge i s.length with h | h
      · exact h
      · rw [List.getElem?_eq_none h] at h2; simp at h2
    rw [List.getElem?_eq_getElem hlt] at h2
    simp only [Option.some.injEq] at h2
    show s = s.take i ++ [58] ++ s.drop (i + 1)
    rw [List.append_assoc, ← h2, List.singleton_append, List.getElem_cons_drop, List.take_append_drop]
  · rintro ⟨t, rfl, hn, hc, ht, hb, hl⟩
    unfold decode
    have hi : indexByte (k.name ++ b!":" ++ t) 58 = some k.name.length := by
      rw [List.append_assoc]; exact indexByte_append hc
    rw [hi]
    have h1 : (k.name ++ b!":" ++ t).take k.name.length = k.name := by
      rw [List.append_assoc]; simp
    have h2 : (k.name ++ b!":" ++ t).drop (k.name.length + 1) = t := by
      rw [List.drop_left' (by simp)]
    simp only [h1, h2, hn, ht, hb, hl, if_false]
    simp

theorem b64Encode_ne_nil {d : Bytes} (h : d ≠ []) : b64Encode d ≠ [] := by
  intro he
  have := b64Encode_length d
  rw [he] at this
  unfold b64EncodedLen at this
  cases d with
  | nil => exact h rfl
  | cons a d => simp at this; omega

theorem decode_encode (k : Named) (n : Nat) (hn : k.name ≠ []) (hc : (58 : UInt8) ∉ k.name)
    (hd : k.data.length = n) (h0 : 0 < n) : decode (encode k) n = .ok k := by
  rw [decode_iff]
  refine ⟨b64Encode k.data, rfl, hn, hc, b64Encode_ne_nil ?_, b64Decode_encode _, hd⟩
  intro h; rw [h] at hd; simp at hd; omega

/-- C53, round trip: signatures, public keys and secret keys with a non-empty name without colon and
data of the proper size (64, 32, 64 bytes) are read back from their printed form, and printed forms
of different values differ. -/
theorem C53_roundtrip (k : Named) (hn : k.name ≠ []) (hc : (58 : UInt8) ∉ k.name) :
    (k.data.length = 64 → parseSignature (encode k) = .ok k ∧ loadSecretKey (encode k) = .ok k) ∧
    (k.data.length = 32 → parsePublicKey (encode k) = .ok k) ∧
    (∀ k' : Named, (58 : UInt8) ∉ k'.name → encode k = encode k' → k = k') := by
  refine ⟨fun h => ⟨decode_encode k _ hn hc h (by decide), decode_encode k _ hn hc h (by decide)⟩,
    fun h => decode_encode k _ hn hc h (by decide), fun k' hc' he => ?_⟩
  unfold encode at he
  have e1 : indexByte (k.name ++ b!":" ++ b64Encode k.data) 58 = some k.name.length := by
    rw [List.append_assoc]; exact indexByte_append hc
  have e2 : indexByte (k'.name ++ b!":" ++ b64Encode k'.data) 58 = some k'.name.length := by
    rw [List.append_assoc]; exact indexByte_append hc'
  rw [he, e2] at e1
  simp only [Option.some.injEq] at e1
  have := List.append_inj he (by simp [e1])
  obtain ⟨h1, h2⟩ := this
  have hname : k.name = k'.name := (List.append_inj h1 e1.symm).1
  have hdata : k.data = k'.data := by
    have := b64Decode_encode k.data
    rw [h2, b64Decode_encode] at this
    simpa using this.symm
  cases k; cases k'; simp_all

/-- C53, acceptance: exactly the texts `name:data` with a non-empty name without colon (the colon is
the first one of the text) and a base64 text of data of the exact size; everything else is an error,
never a panic. -/
theorem C53_accepts (s : Bytes) (k : Named) :
    (parseSignature s = .ok k ↔ ∃ t, s = k.name ++ b!":" ++ t ∧ k.name ≠ [] ∧ (58 : UInt8) ∉ k.name ∧
        b64Decode t = .ok k.data ∧ k.data.length = 64) ∧
    (parsePublicKey s = .ok k ↔ ∃ t, s = k.name ++ b!":" ++ t ∧ k.name ≠ [] ∧ (58 : UInt8) ∉ k.name ∧
        b64Decode t = .ok k.data ∧ k.data.length = 32) ∧
    (loadSecretKey s = .ok k ↔ ∃ t, s = k.name ++ b!":" ++ t ∧ k.name ≠ [] ∧ (58 : UInt8) ∉ k.name ∧
        b64Decode t = .ok k.data ∧ k.data.length = 64) ∧
    parseSignature s ≠ .panic ∧ parsePublicKey s ≠ .panic ∧ loadSecretKey s ≠ .panic := by
  have key : ∀ n, 0 < n → (decode s n = .ok k ↔ ∃ t, s = k.name ++ b!":" ++ t ∧ k.name ≠ [] ∧
      (58 : UInt8) ∉ k.name ∧ b64Decode t = .ok k.data ∧ k.data.length = n) := by
    intro n hn
    rw [decode_iff]
    constructor
    · rintro ⟨t, a, b, c, _, d, e⟩; exact ⟨t, a, b, c, d, e⟩
    · rintro ⟨t, a, b, c, d, e⟩
      refine ⟨t, a, b, c, ?_, d, e⟩
      rintro rfl
      have : b64Decode [] = .ok [] := rfl
      rw [this] at d
      simp at d
      rw [d] at e
      simp at e; omega
  have np : ∀ n, decode s n ≠ .panic := by
    intro n h
    unfold decode at h
    split at h
    · simp at h
    split at h
    · simp at h
    split at h
    · simp at h
    split at h
    · simp at h
    · rename_i hb
      exact b64Decode_ne_panic _ hb
    split at h <;> simp at h
  exact ⟨key _ (by decide), key _ (by decide), key _ (by decide), np _, np _, np _⟩

/-- A key of 32 bytes. -/
example : parsePublicKey b!"cache.nixos.org-1:6NCHdD59X431o0gWypbMrAURkbJ16ZPMQFGspcDShjY=" =
    .ok ⟨b!"cache.nixos.org-1", [232, 208, 135, 116, 62, 125, 95, 141, 245, 163, 72, 22, 202, 150,
      204, 172, 5, 17, 145, 178, 117, 233, 147, 204, 64, 81, 172, 165, 192, 210, 134, 54]⟩ := by
  decide +kernel

example : (⟨b!"k", List.replicate 64 3⟩ : Named).name ≠ [] ∧
    (58 : UInt8) ∉ (⟨b!"k", List.replicate 64 3⟩ : Named).name := by decide

/-! ### C54 -/

theorem verifyInner_eq (E : Ed25519) (f : Bytes) (key : Named) (sigs : List Named) :
    verifyInner E f key sigs =
      (sigs.find? fun s => decide (key.name = s.name)).map fun s => verify E key f s := by
  induction sigs with
  | nil => rfl
  | cons s sigs ih =>
    unfold verifyInner
    rw [List.find?_cons]
    by_cases h : key.name = s.name
    · simp [h]
    · simp [h, ih]

/-- C54: the result is decided by the first pair of key and signature (keys outermost) with equal
names; there is none iff the result is false for that reason. -/
theorem C54_first_match (E : Ed25519) (f : Bytes) (sigs keys : List Named) :
    verifyFirst E f sigs keys =
      match (pairs keys sigs).find? fun p => decide (p.1.name = p.2.name) with
      | some (k, s) => E.Verify k.data f s.data
      | none => .ok false := by
  induction keys with
  | nil => rfl
  | cons k keys ih =>
    unfold verifyFirst pairs
    rw [List.flatMap_cons, List.find?_append, List.find?_map, verifyInner_eq]
    have he : ((fun p : Named × Named => decide (p.1.name = p.2.name)) ∘ fun s => (k, s)) =
        fun s => decide (k.name = s.name) := rfl
    rw [he]
    cases hf : sigs.find? fun s => decide (k.name = s.name) with
    | none => simp only [Option.map_none, Option.none_or]; exact ih
    | some s =>
      have := List.find?_some hf
      simp at this
      simp [verify, this]

/-- C54, soundness: true only if a given key verifies a given signature of the same name; and with
proper public keys (32 bytes) there is no panic. -/
theorem C54_sound (E : Ed25519) (f : Bytes) (sigs keys : List Named) :
    (verifyFirst E f sigs keys = .ok true →
      ∃ k ∈ keys, ∃ s ∈ sigs, k.name = s.name ∧ k.data.length = 32 ∧ s.data.length = 64 ∧
        E.verify k.data f s.data = true) ∧
    ((∀ k ∈ keys, ∀ s ∈ sigs, k.name ≠ s.name) → verifyFirst E f sigs keys = .ok false) ∧
    ((∀ k ∈ keys, k.data.length = 32) → verifyFirst E f sigs keys ≠ .panic) := by
  rw [C54_first_match]
  have hmem : ∀ {p : Named × Named}, p ∈ pairs keys sigs ↔ p.1 ∈ keys ∧ p.2 ∈ sigs := by
    intro p
    unfold pairs
    simp only [List.mem_flatMap, List.mem_map]
    constructor
    · rintro ⟨k, hk, s, hs, rfl⟩; exact ⟨hk, hs⟩
    · rintro ⟨hk, hs⟩; exact ⟨p.1, hk, p.2, hs, rfl⟩
  cases hf : (pairs keys sigs).find? fun p => decide (p.1.name = p.2.name) with
  | none => exact ⟨by simp, fun _ => rfl, fun _ => by simp⟩
  | some p =>
    have h1 := List.find?_some hf
    simp at h1
    have h2 := hmem.1 (List.mem_of_find?_eq_some hf)
    obtain ⟨k, s⟩ := p
    refine ⟨fun h => ?_, fun h => absurd h1 (h k h2.1 s h2.2), fun h => ?_⟩
    · simp only [Ed25519.Verify] at h
      split at h
      · simp at h
      split at h
      · simp at h
      rename_i a b
      simp at h
      exact ⟨k, h2.1, s, h2.2, h1, by simpa [publicKeySize] using a, by simpa [signatureSize] using b, h⟩
    · simp only [Ed25519.Verify]
      rw [if_neg (by simpa [publicKeySize] using h k h2.1)]
      split <;> simp

/-- An `Ed25519` that accepts signatures starting with the first byte of the key. -/
def toyEd : Ed25519 :=
  ⟨fun s => s, fun p _ => List.replicate 64 ((p.drop 32).headD 0), fun p _ s => p.headD 0 == s.headD 0⟩

example : verifyFirst toyEd [] [⟨b!"a", List.replicate 64 1⟩, ⟨b!"b", List.replicate 64 1⟩]
    [⟨b!"c", List.replicate 32 1⟩, ⟨b!"b", List.replicate 32 1⟩] = .ok true := by decide
/-- A later valid signature does not help when the first one of the name is bad. -/
example : verifyFirst toyEd [] [⟨b!"b", List.replicate 64 2⟩, ⟨b!"b", List.replicate 64 1⟩]
    [⟨b!"b", List.replicate 32 1⟩] = .ok false := by decide

/-! ### C55 -/

/-- C55: a generated key pair is consistent; signing succeeds, the signature verifies with the
public key (generated, derived from the secret key, or read back from its text), also when secret
key or signature went through their text form (for printable names); a key of another name never
verifies it. -/
theorem C55_sign_verify (E : Ed25519) (hE : Ed25519.Correct E) (name seed f : Bytes)
    (hs : seed.length = 32) :
    ∃ sk pk sig, generateKeypair E name (.ok seed) = .ok (sk, pk) ∧ toPublicKey sk = .ok pk ∧
      sign E sk f = .ok sig ∧ verify E pk f sig = .ok true ∧
      (∀ keys sigs, verifyFirst E f (sig :: sigs) (pk :: keys) = .ok true) ∧
      (∀ other : Named, other.name ≠ name → verify E other f sig = .ok false) ∧
      (name ≠ [] → (58 : UInt8) ∉ name →
        loadSecretKey (encode sk) = .ok sk ∧ parsePublicKey (encode pk) = .ok pk ∧
        parseSignature (encode sig) = .ok sig) := by
  have hd := hE.derive_size seed hs
  have hl : (seed ++ E.derive seed).length = 64 := by rw [List.length_append, hs, hd]
  have hv : verify E ⟨name, E.derive seed⟩ f ⟨name, E.sign (seed ++ E.derive seed) f⟩ = .ok true := by
    unfold verify Ed25519.Verify
    simp [hd, hE.sign_size, publicKeySize, signatureSize, hE.verifies seed f hs]
  refine ⟨⟨name, seed ++ E.derive seed⟩, ⟨name, E.derive seed⟩,
    ⟨name, E.sign (seed ++ E.derive seed) f⟩, rfl, ?_, ?_, hv, fun keys sigs => ?_, fun o ho => ?_,
    fun hn hc => ⟨?_, ?_, ?_⟩⟩
  · unfold toPublicKey publicPart
    rw [if_neg (by show ¬ (seed ++ E.derive seed).length < 32; omega)]
    simp only [Res.bind_ok]
    rw [List.drop_left' hs, List.take_of_length_le (by omega), hd]
    simp
  · unfold sign Ed25519.Sign
    rw [if_neg (by simpa [privateKeySize] using hl)]
    rfl
  · unfold verifyFirst verifyInner
    simp [hv]
  · unfold verify
    simp [ho]
  · exact ((C53_roundtrip _ hn hc).1 hl).2
  · exact (C53_roundtrip _ hn hc).2.1 hd
  · exact ((C53_roundtrip _ hn hc).1 (hE.sign_size _ _)).1

/-- A correct scheme exists (so the theorem is not vacuous). -/
example : Ed25519.Correct toyEd := by
  constructor
  · intro seed h; exact h
  · intro priv msg; simp [toyEd]
  · intro seed msg h
    show (seed.headD 0 == (List.replicate 64 (((seed ++ seed).drop 32).headD 0)).headD 0) = true
    rw [List.drop_left' h]
    simp [List.replicate_succ]

end Verif.Props
