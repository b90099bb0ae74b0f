import Verif.Props.HashText
import Verif.Props.NarinfoCut

/-!
# Texts of keys, signatures and hashes that are cut off (C157, C158)
-/

namespace Verif.Props
open Verif.GoLib Verif.Spec Verif.Nixhash

section
open Verif.Signature

theorem b64_filter_cut {t r d d' : Bytes} {n : Nat} (h : b64Decode (t ++ r) = .ok d) (h' : b64Decode t = .ok d')
    (hd : d.length = n) (hd' : d'.length = n) : (∀ c ∈ r, c = 10 ∨ c = 13) ∧ d' = d := by
  have len : ∀ {t d : Bytes}, b64Decode t = .ok d → d.length = n →
      (t.filter (fun c => c != 13 && c != 10)).length = 4 * ((n + 2) / 3) := by
    intro t d h hd
    obtain ⟨vs, p, h1, h2, h3, h4, h5, _⟩ := (b64Decode_iff t d).1 h
    have hl := congrArg List.length h3
    simp only [List.length_append, List.length_map, List.length_replicate] at hl
    omega
  have e1 := len h hd
  have e2 := len h' hd'
  rw [List.filter_append, List.length_append, e2] at e1
  have hz : r.filter (fun c => c != 13 && c != 10) = [] := by
    rw [← List.length_eq_zero_iff]; omega
  have hf : ∀ t : Bytes, t.filter (fun c => c != 10 && c != 13) = t.filter (fun c => c != 13 && c != 10) := by
    intro t; congr 1; funext c; exact Bool.and_comm _ _
  refine ⟨?_, ?_⟩
  · intro c hc
    rw [List.filter_eq_nil_iff] at hz
    have := hz c hc
    simp only [Bool.and_eq_true, bne_iff_ne, ne_eq, not_and, Decidable.not_not] at this
    by_cases h13 : c = 13
    · exact .inr h13
    · exact .inl (this h13)
  · unfold b64Decode at h h'
    rw [hf, List.filter_append, hz, List.append_nil] at h
    rw [hf, h] at h'
    exact (Res.ok.inj h').symm

theorem b64_lines {t r : Bytes} (hr : ∀ c ∈ r, c = 10 ∨ c = 13) : b64Decode (t ++ r) = b64Decode t := by
  unfold b64Decode
  rw [List.filter_append]
  have : r.filter (fun c => c != 10 && c != 13) = [] := by
    rw [List.filter_eq_nil_iff]
    intro c hc
    rcases hr c hc with rfl | rfl <;> decide
  rw [this, List.append_nil]

/-- What all three parsers do. -/
theorem named_cut {P : Bytes → Res Named} {n : Nat}
    (hP : ∀ s k, P s = .ok k ↔ ∃ t, s = k.name ++ b!":" ++ t ∧ k.name ≠ [] ∧ (58 : UInt8) ∉ k.name ∧
        b64Decode t = .ok k.data ∧ k.data.length = n)
    (pre rest : Bytes) (k k' : Named) (h : P (pre ++ rest) = .ok k) :
    P pre = .ok k' ↔ (∀ c ∈ rest, c = 10 ∨ c = 13) ∧ k' = k := by
  obtain ⟨t, e, h1, h2, h3, h4⟩ := (hP _ _).1 h
  constructor
  · intro h'
    obtain ⟨t', e', _, g2, g3, g4⟩ := (hP _ _).1 h'
    rw [e'] at e
    obtain ⟨en, et⟩ := split_at (r := t' ++ rest) (r' := t) g2 h2 (by simpa using e)
    rw [← et] at h3
    obtain ⟨f1, f2⟩ := b64_filter_cut h3 g3 h4 g4
    refine ⟨f1, ?_⟩
    cases k; cases k'
    simp only [Named.mk.injEq]
    exact ⟨en, f2⟩
  · rintro ⟨hr, rfl⟩
    -- the colon is not among the line breaks
    have hsplit : ∃ t', pre = k'.name ++ b!":" ++ t' ∧ t = t' ++ rest := by
      rw [List.append_eq_append_iff] at e
      rcases e with ⟨x, e1, e2⟩ | ⟨x, e1, e2⟩
      · cases x with
        | nil => exact ⟨[], by simpa using e1.symm, by simpa using e2.symm⟩
        | cons y x =>
          exfalso
          have hm : (58 : UInt8) ∈ y :: x := by
            have hl := congrArg List.getLast? e1
            rw [List.getLast?_append, List.getLast?_append] at hl
            have h58 : (b!":").getLast? = some 58 := rfl
            rw [h58] at hl
            rw [List.getLast?_cons] at hl
            simp only [Option.some_or, Option.some.injEq] at hl
            rw [hl]
            rw [← List.getLast?_cons.symm.trans (List.getLast?_eq_some_getLast (by simp))
              |> fun h => Option.some.inj h |>.symm]
            exact List.getLast_mem _
          have := hr 58 (by rw [e2]; exact List.mem_append_left _ hm)
          revert this; decide
      · exact ⟨x, e1, e2⟩
    obtain ⟨t', rfl, rfl⟩ := hsplit
    rw [b64_lines hr] at h3
    exact (hP _ _).2 ⟨t', rfl, h1, h2, h3, h4⟩

/-- C157: of a text that is read as a signature, public key or secret key, a beginning is read as one exactly if nothing but line breaks was
cut off, and then as the same one. -/
theorem C157_cut (pre rest : Bytes) (k k' : Named) :
    (parseSignature (pre ++ rest) = .ok k → (parseSignature pre = .ok k' ↔ (∀ c ∈ rest, c = 10 ∨ c = 13) ∧ k' = k)) ∧
    (parsePublicKey (pre ++ rest) = .ok k → (parsePublicKey pre = .ok k' ↔ (∀ c ∈ rest, c = 10 ∨ c = 13) ∧ k' = k)) ∧
    (loadSecretKey (pre ++ rest) = .ok k → (loadSecretKey pre = .ok k' ↔ (∀ c ∈ rest, c = 10 ∨ c = 13) ∧ k' = k)) :=
  ⟨named_cut (fun s k => (C53_accepts s k).1) pre rest k k',
   named_cut (fun s k => (C53_accepts s k).2.1) pre rest k k',
   named_cut (fun s k => (C53_accepts s k).2.2.1) pre rest k k'⟩

/-- C157, for printed keys and signatures: every strict beginning is refused by all three functions. -/
theorem C157_printed (k : Named) (hn : k.name ≠ []) (hc : (58 : UInt8) ∉ k.name) (pre rest : Bytes)
    (he : encode k = pre ++ rest) (hr : rest ≠ []) :
    (k.data.length = 64 → (∃ e, parseSignature pre = .err e) ∧ ∃ e, loadSecretKey pre = .err e) ∧
    (k.data.length = 32 → ∃ e, parsePublicKey pre = .err e) := by
  have hlast : ∀ n, k.data.length = n + 1 → ¬ ∀ c ∈ rest, c = 10 ∨ c = 13 := by
    intro n hd hall
    have hne := b64Encode_ne_nil (d := k.data) (by intro h; rw [h] at hd; simp at hd)
    obtain ⟨x, hx⟩ : ∃ x, (b64Encode k.data).getLast? = some x := ⟨_, List.getLast?_eq_some_getLast hne⟩
    have hl : (pre ++ rest).getLast? = some x := by
      rw [← he]; unfold encode; rw [List.getLast?_append, hx]; rfl
    rw [List.getLast?_append] at hl
    obtain ⟨y, hy⟩ : ∃ y, rest.getLast? = some y := ⟨_, List.getLast?_eq_some_getLast hr⟩
    rw [hy] at hl
    simp only [Option.some_or, Option.some.injEq] at hl
    subst hl
    have h1 := hall y (List.mem_of_getLast? hy)
    have h2 := b64Encode_mem k.data y (List.mem_of_getLast? hx)
    rcases h1 with rfl | rfl <;> revert h2 <;> decide
  have fin : ∀ {r : Res Named}, r ≠ .panic → (∀ k', r ≠ .ok k') → ∃ e, r = .err e := by
    intro r h1 h2
    cases r with
    | ok k' => exact absurd rfl (h2 k')
    | err e => exact ⟨e, rfl⟩
    | panic => exact absurd rfl h1
  obtain ⟨r1, r2, _⟩ := C53_roundtrip k hn hc
  obtain ⟨_, _, _, p1, p2, p3⟩ := C53_accepts pre k
  refine ⟨fun hd => ⟨fin p1 fun k' h => ?_, fin p3 fun k' h => ?_⟩, fun hd => fin p2 fun k' h => ?_⟩
  · exact hlast 63 hd (((C157_cut pre rest k k').1 (he ▸ (r1 hd).1)).1 h).1
  · exact hlast 63 hd (((C157_cut pre rest k k').2.2 (he ▸ (r1 hd).2)).1 h).1
  · exact hlast 31 hd (((C157_cut pre rest k k').2.1 (he ▸ r2 hd)).1 h).1

/-- A public key. -/
def someKey : Named := ⟨b!"cache.example.org-1", List.replicate 32 7⟩

example := (C157_cut (encode someKey) b!"\n" someKey someKey).2.1 (by decide +kernel)
example : parsePublicKey (encode someKey ++ b!"\n") = .ok someKey ∧ parsePublicKey (encode someKey) = .ok someKey ∧
    parsePublicKey ((encode someKey).take 63) = .err (.msg "data is corrupt") ∧
    parsePublicKey ((encode someKey).take 60) = .err (.msg "data is not the right size") ∧
    parsePublicKey ((encode someKey).take 20) = .err (.msg "data is missing") ∧ (encode someKey).length = 64 := by decide +kernel
example := C157_printed someKey (by decide) (by decide) ((encode someKey).take 60) ((encode someKey).drop 60)
  (List.take_append_drop _ _).symm (by decide +kernel)
end

section

theorem hash_rows {a : UInt8} {name : Bytes} {n : Nat} (h : (a, name, n) ∈ hashAlgos) :
    (n = 16 ∨ n = 20 ∨ n = 32 ∨ n = 64) ∧ name.length ≤ 6 ∧ (58 : UInt8) ∉ name ∧ (45 : UInt8) ∉ name := by
  simp only [hashAlgos, List.mem_cons, List.not_mem_nil, or_false, Prod.mk.injEq] at h
  rcases h with ⟨_, rfl, rfl⟩ | ⟨_, rfl, rfl⟩ | ⟨_, rfl, rfl⟩ | ⟨_, rfl, rfl⟩ <;> decide

theorem hash_row_unique {a : UInt8} {name name' : Bytes} {n n' : Nat} (h : (a, name, n) ∈ hashAlgos) (h' : (a, name', n') ∈ hashAlgos) :
    name = name' ∧ n = n' := by
  simp only [hashAlgos, List.mem_cons, List.not_mem_nil, or_false, Prod.mk.injEq] at h h'
  rcases h with ⟨rfl, rfl, rfl⟩ | ⟨rfl, rfl, rfl⟩ | ⟨rfl, rfl, rfl⟩ | ⟨rfl, rfl, rfl⟩ <;> simp at h' <;> simp [h']

theorem hash_name_unique {a a' : UInt8} {name : Bytes} {n n' : Nat} (h : (a, name, n) ∈ hashAlgos) (h' : (a', name, n') ∈ hashAlgos) :
    a = a' ∧ n = n' := by
  simp only [hashAlgos, List.mem_cons, List.not_mem_nil, or_false, Prod.mk.injEq] at h h'
  rcases h with ⟨rfl, rfl, rfl⟩ | ⟨rfl, rfl, rfl⟩ | ⟨rfl, rfl, rfl⟩ | ⟨rfl, rfl, rfl⟩ <;> simp at h' <;> simp [h']

theorem bodyText_length {n : Nat} {e : UInt8} {s d : Bytes} (h : BodyText n e s d) :
    (e = 1 ∧ s.length = 2 * n) ∨ (e = 3 ∧ s.length = (8 * n + 4) / 5) ∨ (e = 2 ∧ s.length = 4 * ((n + 2) / 3)) := by
  cases h with
  | hex _ h => exact .inl ⟨rfl, h⟩
  | nix32 h1 h2 => exact .inr (.inl ⟨rfl, by rw [h1.2, h2]⟩)
  | base64 _ h => exact .inr (.inr ⟨rfl, h⟩)

/-- Two texts of which one begins with the other have the same head. -/
theorem hash_heads {known : Option UInt8} {pre rest d d' : Bytes} {a a' e e' : UInt8} {named named' : Bool}
    (h : HashText known (pre ++ rest) a d e named) (h' : HashText known pre a' d' e' named') :
    ∃ name n head b x y, (a, name, n) ∈ hashAlgos ∧ a' = a ∧ named' = named ∧ pre = head ++ b ∧ BodyText n x (b ++ rest) d ∧ BodyText n y b d' ∧
      ((named = true ∧ head = name ++ b!":" ∧ x = e ∧ y = e') ∨ (named = true ∧ head = name ++ b!"-" ∧ x = 2 ∧ y = 2 ∧ e = 4 ∧ e' = 4) ∨
        (named = false ∧ head = [] ∧ x = e ∧ y = e')) := by
  generalize hs : pre ++ rest = s at h
  cases h' with
  | @colon a' name' n' e' b' d' hrow' hk' hb' =>
    cases h with
    | @colon a name n e b d hrow hk hb =>
      obtain ⟨rfl, ht⟩ := split_at (c := 58) (r := b' ++ rest) (r' := b) (hash_rows hrow').2.2.1 (hash_rows hrow).2.2.1 (by simpa using hs)
      obtain ⟨rfl, rfl⟩ := hash_name_unique hrow hrow'
      exact ⟨_, _, _, _, _, _, hrow, rfl, rfl, rfl, ht ▸ hb, hb', .inl ⟨rfl, rfl, rfl, rfl⟩⟩
    | @sri a name n b d hrow hk hb =>
      exfalso
      have : (58 : UInt8) ∈ name ++ b!"-" ++ b := by rw [← hs]; simp
      simp only [List.mem_append, (hash_rows hrow).2.2.1, bodyText_no hb 58 (.inl rfl)] at this
      revert this; decide
    | @bare a name n e b d hrow hk hb =>
      exact absurd (by rw [← hs]; simp) (bodyText_no hb 58 (.inl rfl))
  | @sri a' name' n' b' d' hrow' hk' hb' =>
    cases h with
    | @colon a name n e b d hrow hk hb =>
      exfalso
      have h1 : (45 : UInt8) ∈ name ++ b!":" ++ b := by rw [← hs]; simp
      simp only [List.mem_append, (hash_rows hrow).2.2.2, bodyText_no hb 45 (.inr rfl)] at h1
      revert h1; decide
    | @sri a name n b d hrow hk hb =>
      obtain ⟨rfl, ht⟩ := split_at (c := 45) (r := b' ++ rest) (r' := b) (hash_rows hrow').2.2.2 (hash_rows hrow).2.2.2 (by simpa using hs)
      obtain ⟨rfl, rfl⟩ := hash_name_unique hrow hrow'
      exact ⟨_, _, _, _, _, _, hrow, rfl, rfl, rfl, ht ▸ hb, hb', .inr (.inl ⟨rfl, rfl, rfl, rfl, rfl, rfl⟩)⟩
    | @bare a name n e b d hrow hk hb =>
      exact absurd (by rw [← hs]; simp) (bodyText_no hb 45 (.inr rfl))
  | @bare a' name' n' e' b' d' hrow' hk' hb' =>
    have hl' := bodyText_length hb'
    have hr' := (hash_rows hrow').1
    have long : ∀ {a name n} (c : UInt8) {b : Bytes}, (a, name, n) ∈ hashAlgos → (c = 58 ∨ c = 45) → pre ++ rest ≠ name ++ [c] ++ b := by
      intro a name n c b hrow hc he
      have hn := (hash_rows hrow).2.1
      have hlt : name.length < pre.length := by omega
      have h1 : (pre ++ rest)[name.length]? = some c := by rw [he]; simp
      rw [List.getElem?_append_left hlt] at h1
      exact bodyText_no hb' c hc (List.mem_of_getElem? h1)
    cases h with
    | @colon a name n e b d hrow hk hb => exact absurd hs (long 58 hrow (.inl rfl))
    | @sri a name n b d hrow hk hb => exact absurd hs (long 45 hrow (.inr rfl))
    | @bare a name n e b d hrow hk hb =>
      rw [hk'] at hk
      cases hk
      obtain ⟨rfl, rfl⟩ := hash_row_unique hrow hrow'
      exact ⟨_, _, [], pre, _, _, hrow, rfl, rfl, rfl, hs ▸ hb, hb', .inr (.inr ⟨rfl, rfl, rfl, rfl⟩)⟩

/-- C158, exactly: of a text that is read as a hash, a strict beginning is read as a hash exactly if it keeps the head (name of the algorithm and
colon, or nothing), and either the text is hexadecimal or nixbase32 and the beginning is as long as base64 texts of the algorithm
are, or the text is hexadecimal and the beginning is a nixbase32 text of a digest. The encoding is another one then. -/
theorem C158_exact (known : Option Algorithm) (pre rest : Bytes) (hr : rest ≠ []) (a a' : Algorithm) (d d' : Bytes) (e e' : Encoding) (named named' : Bool)
    (h : parseAny (pre ++ rest) known = .ok ⟨⟨a, d⟩, e, named⟩) :
    parseAny pre known = .ok ⟨⟨a', d'⟩, e', named'⟩ ↔
      a' = a ∧ named' = named ∧ ∃ name n b, (a, name, n) ∈ hashAlgos ∧ pre = (if named then name ++ b!":" else []) ++ b ∧
        (((e = Base16 ∨ e = NixBase32) ∧ e' = Base64 ∧ b.length = 4 * ((n + 2) / 3) ∧ Base64Text b d') ∨
          (e = Base16 ∧ e' = NixBase32 ∧ d'.length = n ∧ Nix32Text b d')) := by
  have hlr : 0 < rest.length := List.length_pos_iff.2 hr
  rw [C102_parse_any] at h ⊢
  constructor
  · intro h'
    obtain ⟨name, n, head, b, x, y, hrow, ha, hn, hp, hb, hb', hc⟩ := hash_heads h h'
    have l1 := bodyText_length hb
    have l2 := bodyText_length hb'
    rw [List.length_append] at l1
    have hrw := (hash_rows hrow).1
    refine ⟨ha, hn, name, n, b, hrow, ?_, ?_⟩
    · rcases hc with ⟨rfl, rfl, _⟩ | ⟨rfl, rfl, rfl, rfl, _⟩ | ⟨rfl, rfl, _⟩
      · simpa using hp
      · exfalso
        simp at l1 l2
        omega
      · simpa using hp
    · have hxy : ((e = Base16 ∨ e = NixBase32) ∧ e' = Base64 ∧ y = 2) ∨ (e = Base16 ∧ e' = NixBase32 ∧ y = 3) := by
        unfold Base16 NixBase32 Base64
        rcases hc with ⟨_, _, rfl, rfl⟩ | ⟨_, _, rfl, rfl, _⟩ | ⟨_, _, rfl, rfl⟩
        · rcases l1 with ⟨rfl, l1⟩ | ⟨rfl, l1⟩ | ⟨rfl, l1⟩ <;> rcases l2 with ⟨rfl, l2⟩ | ⟨rfl, l2⟩ | ⟨rfl, l2⟩ <;>
            first | (exfalso; omega) | simp
        · exfalso
          simp at l1 l2
          omega
        · rcases l1 with ⟨rfl, l1⟩ | ⟨rfl, l1⟩ | ⟨rfl, l1⟩ <;> rcases l2 with ⟨rfl, l2⟩ | ⟨rfl, l2⟩ | ⟨rfl, l2⟩ <;>
            first | (exfalso; omega) | simp
      rcases hxy with ⟨h1, h2, rfl⟩ | ⟨h1, h2, rfl⟩
      · cases hb' with
        | base64 h3 h4 => exact .inl ⟨h1, h2, h4, h3⟩
      · cases hb' with
        | nix32 h3 h4 => exact .inr ⟨h1, h2, h4, h3⟩
  · rintro ⟨rfl, rfl, name, n, b, hrow, rfl, hc⟩
    have hb : BodyText n e' b d' := by
      rcases hc with ⟨_, rfl, h1, h2⟩ | ⟨_, rfl, h1, h2⟩
      · exact .base64 h2 h1
      · exact .nix32 h2 h1
    have hk : (named' = true → known = none ∨ known = some a') ∧ (named' = false → known = some a') := by
      clear hc
      generalize (if named' = true then name ++ b!":" else []) ++ b ++ rest = s at h
      cases h with
      | colon _ hk _ => exact ⟨fun _ => hk, by simp⟩
      | sri _ hk _ => exact ⟨fun _ => hk, by simp⟩
      | bare _ hk _ => exact ⟨by simp, fun _ => hk⟩
    cases named' with
    | true => exact .colon hrow (hk.1 rfl) hb
    | false => exact .bare hrow (hk.2 rfl) hb

/-- C158: a text in base64, with or without a dash in front, has no strict beginning that is read as a hash. -/
theorem C158_base64 (known : Option Algorithm) (pre rest : Bytes) (hr : rest ≠ []) (h h' : HashWithEncoding)
    (hp : parseAny (pre ++ rest) known = .ok h) (he : h.encoding = Base64 ∨ h.encoding = SRI) :
    parseAny pre known ≠ .ok h' := by
  intro h1
  obtain ⟨⟨a, d⟩, e, nm⟩ := h
  obtain ⟨⟨a', d'⟩, e', nm'⟩ := h'
  obtain ⟨_, _, _, _, _, _, _, hc⟩ := (C158_exact known pre rest hr a a' d d' e e' nm nm' hp).1 h1
  simp only at he
  rcases hc with ⟨h2 | h2, _⟩ | ⟨h2, _⟩ <;> rw [h2] at he <;> revert he <;> decide

/-- C158: what `ParseNixBase32` reads has no strict beginning that it reads. -/
theorem C158_nixbase32 (pre rest : Bytes) (hr : rest ≠ []) (h : Hash) (hp : parseNixBase32 (pre ++ rest) = .ok h) :
    ∃ e, parseNixBase32 pre = .err e := by
  obtain ⟨a, d⟩ := h
  obtain ⟨name, n, hrow, hd, hs⟩ := (C11_parseNixBase32_iff _ _ _).1 hp
  refine (((C11_must_parse pre).2 ?_).2)
  rintro ⟨a', name', n', d', hrow', hd', hs'⟩
  have hl : (Nixbase32.encodeToString d).length = (Nixbase32.encodeToString d').length + rest.length ∧ d'.length = d.length := by
    rw [hs'] at hs
    obtain ⟨rfl, ht⟩ := split_at (c := 58) (r := Nixbase32.encodeToString d' ++ rest) (r' := Nixbase32.encodeToString d)
      (hash_rows hrow').2.2.1 (hash_rows hrow).2.2.1 (by simpa using hs)
    obtain ⟨rfl, rfl⟩ := hash_name_unique hrow hrow'
    exact ⟨by rw [← ht, List.length_append], by omega⟩
  have h1 := (C03_encode_is_numeral d).1
  have h2 := (C03_encode_is_numeral d').1
  have h3 : 0 < rest.length := List.length_pos_iff.2 hr
  rw [h1, h2, hl.2] at hl
  omega

theorem hexText_digits {s d : Bytes} (h : HexText s d) : ∀ c ∈ s, c ∈ base64Digits := by
  have key : ∀ {x : UInt8} {v : Nat}, HexDigit x v → x ∈ base64Digits := by
    have k1 : ∀ c ∈ b!"0123456789abcdef", c ∈ base64Digits := by decide +kernel
    have k2 : ∀ c ∈ b!"0123456789ABCDEF", c ∈ base64Digits := by decide +kernel
    rintro x v (h | h)
    · exact k1 x (List.mem_of_getElem? h)
    · exact k2 x (List.mem_of_getElem? h)
  induction h with
  | nil => simp
  | cons h1 h2 _ ih =>
    intro c hc
    rcases List.mem_cons.1 hc with rfl | hc
    · exact key h1
    · rcases List.mem_cons.1 hc with rfl | hc
      · exact key h2
      · exact ih c hc

theorem nix32_digits {s : Bytes} {v : Nat} (h : IsNumeral32 s v) : ∀ c ∈ s, c ∈ base64Digits := by
  have k : ∀ c ∈ nixDigits, c ∈ base64Digits := by decide +kernel
  induction h with
  | nil => simp
  | snoc _ hd ih =>
    intro c hc
    rcases List.mem_append.1 hc with hc | hc
    · exact ih c hc
    · rw [List.mem_singleton.1 hc]
      exact k _ (List.mem_of_getElem? hd)

/-- Digits of base64, a multiple of four of them, are always a base64 text. -/
theorem digits_base64 {b : Bytes} {k : Nat} (hb : ∀ c ∈ b, c ∈ base64Digits) (hl : b.length = 4 * k) :
    ∃ d, Base64Text b d ∧ d.length = 3 * k := by
  have hv : ∀ c ∈ base64Digits, ∃ v, v < 64 ∧ base64Digits.getD v 0 = c := by
    intro c hc
    obtain ⟨v, hv, rfl⟩ := List.mem_iff_getElem.1 hc
    exact ⟨v, hv, by rw [List.getD_eq_getElem?_getD, List.getElem?_eq_getElem hv]; rfl⟩
  obtain ⟨vs, hvs, hlt⟩ : ∃ vs : List Nat, b = vs.map (fun v => base64Digits.getD v 0) ∧ ∀ v ∈ vs, v < 64 := by
    clear hl
    induction b with
    | nil => exact ⟨[], rfl, by simp⟩
    | cons c b ih =>
      obtain ⟨vs, h1, h2⟩ := ih fun x hx => hb x (List.mem_cons_of_mem _ hx)
      obtain ⟨v, h3, h4⟩ := hv c (hb c (by simp))
      exact ⟨v :: vs, by rw [List.map_cons, h4, ← h1], by
        intro x hx
        rcases List.mem_cons.1 hx with rfl | hx
        · exact h3
        · exact h2 x hx⟩
  have hlv : vs.length = 4 * k := by rw [← hl, hvs, List.length_map]
  obtain ⟨d, h1, h2, h3⟩ := b64Quads_value vs 0 (by decide) (by omega) hlt 0
  refine ⟨d, ?_, by omega⟩
  rw [← b64Decode_iff]
  unfold b64Decode
  have hf : b.filter (fun c => c != 10 && c != 13) = b := by
    rw [List.filter_eq_self]
    intro c hc
    have k : ∀ c ∈ base64Digits, (c != 10 && c != 13) = true := by decide +kernel
    exact k c (hb c hc)
  rw [hf, hvs]
  simpa using h1

/-- C158, when it happens: of every text in hexadecimal or nixbase32 the beginning with as many characters as base64 texts have (24, 28,
44 or 88 behind the head) is read as a hash: of the same algorithm, in base64, with a digest of a size that the
algorithm does not have. -/
theorem C158_accepts (known : Option Algorithm) (s : Bytes) (a : Algorithm) (d : Bytes) (e : Encoding) (named : Bool)
    (h : parseAny s known = .ok ⟨⟨a, d⟩, e, named⟩) (he : e = Base16 ∨ e = NixBase32) (name : Bytes) (n : Nat) (hrow : (a, name, n) ∈ hashAlgos) :
    let k := (if named then name.length + 1 else 0) + 4 * ((n + 2) / 3)
    k < s.length ∧ ∃ d', parseAny (s.take k) known = .ok ⟨⟨a, d'⟩, Base64, named⟩ ∧ d'.length = 3 * ((n + 2) / 3) ∧ d'.length ≠ n := by
  intro k
  have hp := h
  rw [C102_parse_any] at h
  have hn := (hash_rows hrow).1
  obtain ⟨head, b, rfl, hhead, hb⟩ : ∃ head b, s = head ++ b ∧ head = (if named then name ++ b!":" else []) ∧ BodyText n e b d := by
    cases h with
    | colon hrow' _ hb =>
      obtain ⟨rfl, rfl⟩ := hash_row_unique hrow hrow'
      exact ⟨_, _, rfl, rfl, hb⟩
    | sri _ _ _ => exact absurd he (by decide)
    | bare hrow' _ hb =>
      obtain ⟨rfl, rfl⟩ := hash_row_unique hrow hrow'
      exact ⟨[], _, rfl, rfl, hb⟩
  have hdig : ∀ c ∈ b, c ∈ base64Digits := by
    cases hb with
    | hex h1 _ => exact hexText_digits h1
    | nix32 h1 _ => exact nix32_digits h1.1
    | base64 _ _ => exact absurd he (by decide)
  have hl := bodyText_length hb
  have hlen : 4 * ((n + 2) / 3) < b.length := by
    rcases hl with ⟨rfl, hl⟩ | ⟨rfl, hl⟩ | ⟨rfl, hl⟩
    · omega
    · omega
    · exact absurd he (by decide)
  have hk : k = head.length + 4 * ((n + 2) / 3) := by
    show (if named then name.length + 1 else 0) + 4 * ((n + 2) / 3) = _
    rw [hhead]
    cases named <;> simp
  have htake : (head ++ b).take k = head ++ b.take (4 * ((n + 2) / 3)) := by
    rw [hk, List.take_length_add_append]
  refine ⟨by rw [hk, List.length_append]; omega, ?_⟩
  have htl : (b.take (4 * ((n + 2) / 3))).length = 4 * ((n + 2) / 3) := by
    rw [List.length_take]; omega
  obtain ⟨d', h1, h2⟩ := digits_base64 (b := b.take (4 * ((n + 2) / 3))) (fun c hc => hdig c (List.mem_of_mem_take hc)) htl
  refine ⟨d', ?_, h2, by omega⟩
  rw [htake]
  have hsplit : head ++ b = (head ++ b.take (4 * ((n + 2) / 3))) ++ b.drop (4 * ((n + 2) / 3)) := by
    rw [List.append_assoc, List.take_append_drop]
  rw [hsplit] at hp
  refine (C158_exact known _ _ ?_ a a d d' e Base64 named named hp).2 ⟨rfl, rfl, name, n, _, hrow, by rw [hhead], .inl ⟨he, rfl, htl, h1⟩⟩
  intro h0
  have := congrArg List.length h0
  rw [List.length_drop, List.length_nil] at this
  omega

/-- C158 as stated is false: a hexadecimal SHA-256 hash cut off after 44 of its 64 digits is read as a hash of 33 bytes (in base64), and this one cut off after 52 digits
as one of 32 bytes (in nixbase32). -/
theorem C158_refuted :
    parseAny (b!"sha256:" ++ List.replicate 64 48) none = .ok ⟨⟨SHA256, List.replicate 32 0⟩, Base16, true⟩ ∧
    parseAny (b!"sha256:" ++ List.replicate 44 48) none = .ok ⟨⟨SHA256, (List.replicate 11 [211, 77, 52]).flatten⟩, Base64, true⟩ ∧
    parseAny (b!"sha256:" ++ List.replicate 52 48) none = .ok ⟨⟨SHA256, List.replicate 32 0⟩, NixBase32, true⟩ := by
  decide +kernel

example := (C158_exact none (b!"sha256:" ++ List.replicate 52 48) (List.replicate 12 48) (by decide) SHA256 SHA256 (List.replicate 32 0)
  (List.replicate 32 0) Base16 NixBase32 true true (by decide +kernel)).1 (by decide +kernel)
example := C158_base64 (some SHA1) (b!"sha1-" ++ List.replicate 24 48) b!"000=" (by decide)
  ⟨⟨SHA1, (List.replicate 6 [211, 77, 52]).flatten ++ [211, 77]⟩, SRI, true⟩ ⟨⟨SHA1, []⟩, SRI, true⟩ (by decide +kernel) (by decide)
example := C158_nixbase32 (b!"md5:" ++ List.replicate 25 48) b!"0" (by decide) ⟨MD5, List.replicate 16 0⟩ (by decide +kernel)
example := C158_accepts (some SHA1) (List.replicate 32 48) SHA1 (List.replicate 20 0) NixBase32 false (by decide +kernel) (by decide)
  b!"sha1" 20 (by decide)

end

end Verif.Props
