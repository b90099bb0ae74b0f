import Verif.Lemmas.NarinfoAgain

/-!
# C112: printing a parsed `.narinfo` and parsing it again
-/

namespace Verif.Props
open Verif Verif.Narinfo Verif.Nixhash Verif.GoLib Verif.Signature Verif.Spec Verif.Wire

theorem algo_sizes : ∀ r ∈ hashAlgos, (r.2.2 = 16 ∨ r.2.2 = 20 ∨ r.2.2 = 32 ∨ r.2.2 = 64) := by decide

theorem row_unique {a : UInt8} {name name' : Bytes} {n n' : Nat} (h : (a, name, n) ∈ hashAlgos)
    (h' : (a, name', n') ∈ hashAlgos) : name = name' ∧ n = n' := by
  have r := row_of_mem h
  have r' := row_of_mem h'
  exact ⟨by simpa [r.str] using r'.str, by simpa [r.size] using r'.size⟩

theorem hexText_length {s d : Bytes} (h : HexText s d) : s.length = 2 * d.length := by
  induction h with
  | nil => rfl
  | cons _ _ _ ih => simp [ih]; omega

/-- The digest of a hash that was parsed, and when its text is recognised again. -/
theorem body_again {a : UInt8} {name : Bytes} {n : Nat} {e : UInt8} {s d : Bytes}
    (hrow : (a, name, n) ∈ hashAlgos) (hb : BodyText n e s d) :
    d.length ≤ 66 ∧ (∀ e' d', decodeByLen n (body e d) = .ok (e', d') → (d.length + 2) / 3 = (n + 2) / 3) ∧
      ((d.length + 2) / 3 = (n + 2) / 3 → decodeByLen n (body e d) = .ok (e, d)) := by
  have hn := algo_sizes _ hrow
  simp only at hn
  have full : d.length = n → e ∈ hashEncodings → e ≠ 4 → d.length ≤ 66 ∧
      (∀ e' d', decodeByLen n (body e d) = .ok (e', d') → (d.length + 2) / 3 = (n + 2) / 3) ∧
      ((d.length + 2) / 3 = (n + 2) / 3 → decodeByLen n (body e d) = .ok (e, d)) := by
    intro hd he h4
    refine ⟨by omega, fun _ _ _ => by rw [hd], fun _ => ?_⟩
    rw [decodeByLen_iff hrow]
    simp only [hashEncodings, List.mem_cons, List.not_mem_nil, or_false] at he
    rcases he with rfl | rfl | rfl | rfl
    · refine .hex ((hexDecode_iff _ _).1 ?_) ?_
      · exact hexDecode_encode d
      · show (hexEncode d).length = _
        rw [hexEncode_length]; omega
    · refine .base64 ((b64Decode_iff _ _).1 (b64Decode_encode d)) ?_
      show (b64Encode d).length = _
      rw [b64Encode_length, hd]; unfold b64EncodedLen; omega
    · refine .nix32 ((nix32_iff _ _).1 ?_) hd
      exact (C02_decode_iff_encode _ _).2 rfl
    · exact absurd rfl h4
  cases hb with
  | hex h hlen =>
    have := hexText_length h
    exact full (by omega) (by decide) (by decide)
  | nix32 h hd => exact full hd (by decide) (by decide)
  | base64 h hlen =>
    have hle := base64_length ((b64Decode_iff _ _).2 h)
    have hl : (body 2 d).length = 4 * ((d.length + 2) / 3) := by
      show (b64Encode d).length = _
      rw [b64Encode_length]; unfold b64EncodedLen; omega
    refine ⟨by omega, fun e' d' hdec => ?_, fun hd => ?_⟩
    · have hb' := (decodeByLen_iff hrow _ _ _).1 hdec
      cases hb' with
      | hex _ h2 => omega
      | nix32 h1 h2 =>
        have := h1.2
        rw [h2] at this
        omega
      | base64 _ h2 => omega
    · rw [decodeByLen_iff hrow]
      refine .base64 ((b64Decode_iff _ _).1 (b64Decode_encode d)) ?_
      show (body 2 d).length = _
      rw [hl]; omega

theorem body_sri (d : Bytes) : body 4 d = body 2 d := rfl

/-- The text of a hash that was parsed. -/
theorem hash_again {v : Bytes} {h : HashWithEncoding} (hp : parseAny v none = .ok h) :
    ∃ t, h.string = .ok t ∧ (∀ c ∈ t, c ≠ 10 ∧ c ≠ 13 ∧ c ≠ 32) ∧ t.length ≤ 300 ∧
      ((∃ h', parseAny t none = .ok h') → HashPrints h) ∧
      (HashPrints h → parseAny t none = .ok h) := by
  obtain ⟨⟨a, d⟩, e, incl⟩ := h
  have ht := (C102_parse_any _ _ _ _ _ _).1 hp
  have key : ∀ (name : Bytes) (n : Nat) (e0 : UInt8) (s : Bytes) (sep : UInt8),
      (a, name, n) ∈ hashAlgos → BodyText n e0 s d → body e d = body e0 d →
      (sep = 58 ∧ e = e0 ∨ sep = 45 ∧ e = 4 ∧ e0 = 2) → e ∈ hashEncodings →
      Hash.format ⟨a, d⟩ e incl = .ok (name ++ sep :: body e d) → incl = true →
      ∃ t, HashWithEncoding.string ⟨⟨a, d⟩, e, incl⟩ = .ok t ∧
      (∀ c ∈ t, c ≠ 10 ∧ c ≠ 13 ∧ c ≠ 32) ∧ t.length ≤ 300 ∧
      ((∃ h', parseAny t none = .ok h') → HashPrints ⟨⟨a, d⟩, e, incl⟩) ∧
      (HashPrints ⟨⟨a, d⟩, e, incl⟩ → parseAny t none = .ok ⟨⟨a, d⟩, e, incl⟩) := by
    intro name n e0 s sep hrow hb hbe hsep he hfmt hincl
    obtain ⟨b1, b2, b3⟩ := body_again hrow hb
    rw [← hbe] at b2 b3
    have r := row_of_mem hrow
    obtain ⟨n1, n2, n3⟩ := algo_names _ hrow
    simp only at n1 n2 n3
    refine ⟨_, hfmt, ?_, ?_, ?_, ?_⟩
    · intro c hc
      rw [List.mem_append, List.mem_cons] at hc
      rcases hc with hc | rfl | hc
      · exact n3 c hc
      · rcases hsep with ⟨rfl, _⟩ | ⟨rfl, _⟩ <;> decide
      · refine ⟨?_, ?_, ?_⟩ <;> rintro rfl <;>
          exact body_no e d _ (by decide) (by decide) (by decide) (by decide) hc
    · have : (body e d).length ≤ 200 := by
        unfold body
        split
        · rw [hexEncode_length]; omega
        split
        · rw [Nixbase32.encodeToString_length]; unfold Nixbase32.encodedLen; omega
        · rw [b64Encode_length]; unfold b64EncodedLen; omega
      simp; omega
    · rintro ⟨h', hp'⟩
      obtain ⟨name', n', hrow', _, hh⟩ := parseAny_ok hp'
      have r' := row_of_mem hrow'
      refine ⟨name, n, hrow, ?_⟩
      have fin : ∀ rest x, name = name' → body e d = rest → decodeByLen n' rest = .ok x →
          (d.length + 2) / 3 = (n + 2) / 3 := by
        intro rest x e1 e2 e3
        have hnn : n = n' := by
          have := algo_names_unique _ hrow _ hrow' e1
          simp at this; exact this.2.2
        subst hnn
        rw [← e2] at e3
        exact b2 x.1 x.2 e3
      rcases hh with ⟨_, rest, e1, e2⟩ | ⟨_, _, rest, e1, e2⟩ | ⟨_, h0, _⟩
      · have hs : sep = 58 := by
          rcases hsep with ⟨h, _⟩ | ⟨rfl, h4, _⟩
          · exact h
          · exfalso
            have : (58 : UInt8) ∈ name ++ 45 :: body e d := by rw [e1]; simp
            rw [List.mem_append, List.mem_cons] at this
            rcases this with h | h | h
            · exact r.no58 h
            · exact absurd h (by decide)
            · exact body_no58 _ _ h
        subst hs
        obtain ⟨e3, e4⟩ := split_at r.no58 r'.no58 e1
        exact fin _ _ e3 e4 e2
      · have hs : sep = 45 := by
          rcases hsep with ⟨rfl, _⟩ | ⟨h, _⟩
          · exfalso
            have : (45 : UInt8) ∈ name ++ 58 :: body e d := by rw [e1]; simp
            rw [List.mem_append, List.mem_cons] at this
            rcases this with h | h | h
            · exact r.no45 h
            · exact absurd h (by decide)
            · exact body_no e d 45 (by decide) (by decide) (by decide) (by decide) h
          · exact h
        subst hs
        obtain ⟨e3, e4⟩ := split_at r.no45 r'.no45 e1
        exact fin _ _ e3 e4 e2
      · simp at h0
    · rintro ⟨name', n', hrow', hlen⟩
      simp only at hrow' hlen
      obtain ⟨-, rfl⟩ := row_unique hrow hrow'
      have hdec := (decodeByLen_iff hrow _ _ _).1 (b3 hlen)
      rw [C102_parse_any, hincl]
      rcases hsep with ⟨rfl, rfl⟩ | ⟨rfl, rfl, rfl⟩
      · have := HashText.colon (known := none) hrow (.inl rfl) hdec
        rw [List.append_assoc] at this
        exact this
      · have := HashText.sri (known := none) hrow (.inl rfl) hdec
        rw [List.append_assoc] at this
        exact this
  have h1 : ∀ e0 s n, BodyText n e0 s d → e0 ∈ hashEncodings ∧ e0 ≠ SRI := by
    intro e0 s n hb
    cases hb <;> decide
  cases ht with
  | colon hrow _ hb =>
    obtain ⟨he, hne⟩ := h1 _ _ _ hb
    refine key _ _ e _ 58 hrow hb rfl (.inl ⟨rfl, rfl⟩) he ?_ rfl
    rw [format_eq hrow d e he, if_neg hne]; rfl
  | sri hrow _ hb =>
    refine key _ _ 2 _ 45 hrow hb (body_sri d) (.inr ⟨rfl, rfl, rfl⟩) (by decide) ?_ rfl
    rw [format_eq hrow d 4 (by decide)]; rfl
  | bare _ h0 _ => simp at h0

/-! ### The references -/

theorem join_getLast_cr (refs : List Bytes) :
    (join refs [32]).getLast? = some 13 ↔ ∃ r, refs.getLast? = some r ∧ r.getLast? = some 13 := by
  induction refs with
  | nil => simp [join]
  | cons r rs ih =>
    cases rs with
    | nil => simp [join]
    | cons r' rs =>
      rw [join_cons (by simp), List.getLast?_cons_cons, ← ih, List.append_assoc, getLast?_app (by simp)]
      cases hj : join (r' :: rs) [32] with
      | nil => simp
      | cons x t => rw [getLast?_app (by simp)]

theorem refs_sep {refs : List Bytes} (h32 : ∀ r ∈ refs, (32 : UInt8) ∉ r) :
    (∀ a b, join refs [32] ≠ a ++ b!": " ++ b) ↔
      ∀ a r b, refs = a ++ r :: b → b ≠ [] → r.getLast? ≠ some 58 := by
  constructor
  · rintro h a r b rfl hb hr
    obtain ⟨ys, rfl⟩ := List.getLast?_eq_some_iff.1 hr
    by_cases ha : a = []
    · subst ha
      refine h ys (join b [32]) ?_
      rw [List.nil_append, join_cons hb]; simp
    · refine h (join a [32] ++ [32] ++ ys) (join b [32]) ?_
      rw [join_append ha (by simp), join_cons hb]; simp
  · intro h
    induction refs with
    | nil => intro a b; simp [join]
    | cons r rs ih =>
      intro a b he
      obtain ⟨g1, g2⟩ := List.forall_mem_cons.1 h32
      cases rs with
      | nil =>
        apply g1
        rw [show r = _ from he]; simp
      | cons r' rs =>
        have ih' := ih g2 (fun x y z e hz => h (r :: x) y z (by rw [e]; rfl) hz)
        have hr := h [] r (r' :: rs) rfl (by simp)
        rw [join_cons (by simp), List.append_assoc, List.append_assoc] at he
        rcases List.append_eq_append_iff.1 he with ⟨c, e1, e2⟩ | ⟨c, e1, e2⟩
        · cases c with
          | nil => simp at e2
          | cons x c =>
            simp only [List.cons_append, List.nil_append, List.cons.injEq] at e2
            exact ih' c b (by rw [List.append_assoc]; exact e2.2)
        · cases c with
          | nil => simp at e2
          | cons x c =>
            simp only [List.cons_append, List.nil_append, List.cons.injEq] at e2
            cases c with
            | nil => apply hr; rw [e1, ← e2.1]; simp
            | cons y c =>
              simp only [List.cons_append, List.cons.injEq] at e2
              apply g1
              rw [e1, ← e2.2.1]; simp

theorem refs_noLF {n : NarInfo} (h : Parsed n) : (10 : UInt8) ∉ join n.references [32] := by
  intro hc
  rcases mem_join hc with h' | ⟨r, hr, h'⟩
  · exact absurd h' (by decide)
  · exact (h.references.1 r hr).2 h'

theorem setField_refs_any (m : NarInfo) (v : Bytes) (hm : m.references = []) :
    setField m b!"References" v =
      .ok { m with references := if v = [] then [] else splitByte v 32 } := by
  unfold setField
  repeat rw [if_neg (by decide)]
  rw [if_pos rfl]
  split
  · rw [← hm]
  · rw [hm]; rfl

/-! ### The printed text -/

/-- The text that `String` prints, from the texts of the hashes. -/
def printed (n : NarInfo) (ft nt : Bytes) : Bytes :=
  b!"StorePath: " ++ n.storePath ++ b!"\n" ++
    b!"URL: " ++ n.url ++ b!"\n" ++ b!"Compression: " ++ n.compression ++ b!"\n" ++ ft ++
    b!"NarHash: " ++ nt ++ b!"\n" ++ b!"NarSize: " ++ formatUint n.narSize ++ b!"\n" ++
    b!"References:" ++ refsText n.references ++ b!"\n" ++ optLine b!"Deriver: " n.deriver ++
    optLine b!"System: " n.system ++
    (n.signatures.flatMap fun s => b!"Sig: " ++ encode s ++ b!"\n") ++
    optLine b!"CA: " n.ca

theorem uint_line {n k : Nat} (h : n < 2 ^ 64) (hk : k ≤ 100) :
    FromLine k (formatUint n) ∧ dropCR (formatUint n) = formatUint n := by
  have hl := formatUint_length (n := n) (k := 20) (by decide) (by omega)
  refine fromLine_simple (fun c hc => ?_) (by omega)
  have := (formatUint_digits n).1 c hc
  refine ⟨?_, ?_, ?_⟩ <;> rintro rfl <;> exact absurd this (by decide)

theorem sig_line {s : Named} (h : s.name ≠ [] ∧ (58 : UInt8) ∉ s.name ∧ (10 : UInt8) ∉ s.name ∧
    s.name.length + 94 < 1048576 ∧ s.data.length = 64) :
    FromLine 3 (encode s) ∧ dropCR (encode s) = encode s ∧ parseSignature (encode s) = .ok s := by
  obtain ⟨h1, h2, h3, h4, h5⟩ := h
  have hb : ∀ c ∈ b64Encode s.data, c ≠ 10 ∧ c ≠ 13 ∧ c ≠ 32 := by
    intro c hc
    refine ⟨?_, ?_, ?_⟩ <;> rintro rfl <;> exact b64Encode_no _ _ (by decide) (by decide) hc
  have hne : b64Encode s.data ≠ [] := b64Encode_ne_nil (by rintro h; rw [h] at h5; simp at h5)
  have hl : (b64Encode s.data).length = 88 := by rw [b64Encode_length, h5]; rfl
  refine ⟨⟨?_, ?_, ?_⟩, ?_, ((C53_roundtrip s h1 h2).1 h5).1⟩
  · unfold encode
    simp only [List.mem_append, not_or]
    exact ⟨⟨h3, by decide⟩, fun hc => (hb _ hc).1 rfl⟩
  · unfold encode
    intro a b hab
    rw [List.append_assoc, List.append_assoc] at hab
    rcases List.append_eq_append_iff.1 hab with ⟨c, e1, e2⟩ | ⟨c, e1, e2⟩
    · have h32 : (32 : UInt8) ∈ b!":" ++ b64Encode s.data := by rw [e2]; simp
      rw [List.mem_append] at h32
      rcases h32 with h | h
      · exact absurd h (by decide)
      · exact (hb _ h).2.2 rfl
    · cases c with
      | nil =>
        simp only [List.nil_append, List.cons_append, List.cons.injEq, true_and] at e2
        exact (hb 32 (by rw [← e2]; simp)).2.2 rfl
      | cons x c =>
        simp only [List.cons_append, List.nil_append, List.cons.injEq] at e2
        apply h2; rw [e1, ← e2.1]; simp
  · unfold encode; simp; omega
  · rw [dropCR_eq_self]
    unfold encode NoCR
    rw [getLast?_app hne]
    intro hc
    exact (hb 13 (List.mem_of_getLast? hc)).2.1 rfl

theorem run_sigs_cr (sigs : List Named) (m : NarInfo) (rest : Bytes)
    (h : ∀ s ∈ sigs, s.name ≠ [] ∧ (58 : UInt8) ∉ s.name ∧ (10 : UInt8) ∉ s.name ∧
    s.name.length + 94 < 1048576 ∧ s.data.length = 64) :
    parseLines m (splitByte ((sigs.flatMap fun s => b!"Sig: " ++ encode s ++ b!"\n") ++ rest) 10) =
      parseLines { m with signatures := m.signatures ++ sigs } (splitByte rest 10) := by
  induction sigs generalizing m with
  | nil => simp
  | cons s sigs ih =>
    obtain ⟨h1, h2⟩ := List.forall_mem_cons.1 h
    obtain ⟨v, cr, p⟩ := sig_line h1
    rw [List.flatMap_cons, List.append_assoc, List.append_assoc, List.append_assoc,
      run_line_cr (pre := b!"Sig: ") (k := b!"Sig") m rfl (by decide) v]
    have : setField m b!"Sig" (dropCR (encode s)) = .ok { m with signatures := m.signatures ++ [s] } := by
      rw [cr]
      unfold setField
      simp [p]
    rw [this, Res.bind_ok, ih _ h2]
    simp

/-- Reading the printed text when all its parts can be read. -/
theorem parse_printed {n : NarInfo} (hn : Parsed n) {ft nt : Bytes} {nh : HashWithEncoding}
    (hft : ∀ (m : NarInfo) rest, m.fileHash = none → m.fileSize = 0 →
      parseLines m (splitByte (ft ++ rest) 10) = parseLines { m with
        fileHash := if n.fileSize = 0 then none else n.fileHash
        fileSize := if n.fileHash = none then 0 else n.fileSize } (splitByte rest 10))
    (hnv : FromLine 7 nt ∧ dropCR nt = nt) (hnp : parseAny nt none = .ok nh) (hnh : n.narHash = some nh)
    (hr : RefsPrint n.references) : parse ⟨printed n ft nt, .eof⟩ = .ok (normal n) := by
  have hrl : FromLine 10 (join n.references [32]) :=
    ⟨refs_noLF hn, (refs_sep fun r h => (hn.references.1 r h).1).2 hr.1, by have := hr.2; omega⟩
  have s1 : ∀ (m : NarInfo) v, setField m b!"StorePath" v = .ok { m with storePath := v } := by
    intro m v; unfold setField; simp
  have s2 : ∀ (m : NarInfo) v, setField m b!"URL" v = .ok { m with url := v } := by
    intro m v; unfold setField; simp
  have s3 : ∀ (m : NarInfo) v, setField m b!"Compression" v = .ok { m with compression := v } := by
    intro m v; unfold setField; simp
  have s4 : ∀ (m : NarInfo), setField m b!"NarHash" nt = .ok { m with narHash := n.narHash } := by
    intro m; unfold setField; simp [hnp, hnh]
  have s5 : ∀ (m : NarInfo), setField m b!"NarSize" (formatUint n.narSize) =
      .ok { m with narSize := n.narSize } := by
    intro m; unfold setField; simp [parseUint_formatUint hn.narSize]
  have s6 : ∀ (m : NarInfo) v, m.deriver = [] → setField m b!"Deriver" v =
      .ok { m with deriver := if v = b!"unknown-deriver" then [] else v } := by
    intro m v h
    unfold setField
    repeat rw [if_neg (by decide)]
    rw [if_pos rfl]
    by_cases hd : v = b!"unknown-deriver"
    · rw [if_neg (by simp [hd]), if_pos hd, ← h]
    · rw [if_pos hd, if_neg hd]
  have s7 : ∀ (m : NarInfo) v, setField m b!"System" v = .ok { m with system := v } := by
    intro m v; unfold setField; simp
  have s8 : ∀ (m : NarInfo) v, setField m b!"CA" v = .ok { m with ca := v } := by
    intro m v; unfold setField; simp
  have er : b!"References:" ++ refsText n.references = b!"References: " ++ join n.references [32] := by
    rw [refsText_eq]; rfl
  have hp : parseLines empty (splitByte (printed n ft nt) 10) =
      .ok { normal n with compression := dropCR n.compression } := by
    unfold printed
    simp only [List.append_assoc]
    rw [← List.append_assoc b!"References:", er, List.append_assoc b!"References: "]
    rw [run_line_cr (pre := b!"StorePath: ") (k := b!"StorePath") _ rfl (by decide) hn.storePath, s1, Res.bind_ok]
    rw [run_line_cr (pre := b!"URL: ") (k := b!"URL") _ rfl (by decide) hn.url, s2, Res.bind_ok]
    rw [run_line_cr (pre := b!"Compression: ") (k := b!"Compression") _ rfl (by decide) hn.compression, s3, Res.bind_ok]
    rw [hft _ _ rfl rfl]
    rw [run_line_cr (pre := b!"NarHash: ") (k := b!"NarHash") _ rfl (by decide) hnv.1, hnv.2, s4, Res.bind_ok]
    rw [run_line_cr (pre := b!"NarSize: ") (k := b!"NarSize") _ rfl (by decide) (uint_line hn.narSize (by decide)).1,
      (uint_line (k := 0) hn.narSize (by decide)).2, s5, Res.bind_ok]
    rw [run_line_cr (pre := b!"References: ") (k := b!"References") _ rfl (by decide) hrl, setField_refs_any _ _ rfl, Res.bind_ok]
    simp only [empty]
    rw [show (if n.fileSize = 0 then none else n.fileHash) = (normal n).fileHash from rfl,
      show (if n.fileHash = none then 0 else n.fileSize) = (normal n).fileSize from rfl,
      show (if dropCR (join n.references [32]) = [] then [] else splitByte (dropCR (join n.references [32])) 32) =
        (normal n).references from rfl]
    rw [run_opt_cr (pre := b!"Deriver: ") (k := b!"Deriver") ⟨dropCR n.storePath, dropCR n.url,
      dropCR n.compression, (normal n).fileHash, (normal n).fileSize, n.narHash, n.narSize, (normal n).references,
      [], [], [], []⟩ (fun v => ⟨dropCR n.storePath, dropCR n.url,
      dropCR n.compression, (normal n).fileHash, (normal n).fileSize, n.narHash, n.narSize, (normal n).references,
      if v = b!"unknown-deriver" then [] else v, [], [], []⟩) rfl (by decide) hn.deriver.1 (fun v => s6 _ v rfl) rfl]
    rw [show (if dropCR n.deriver = b!"unknown-deriver" then [] else dropCR n.deriver) = (normal n).deriver from rfl]
    rw [run_opt_cr (pre := b!"System: ") (k := b!"System") ⟨dropCR n.storePath, dropCR n.url,
      dropCR n.compression, (normal n).fileHash, (normal n).fileSize, n.narHash, n.narSize, (normal n).references,
      (normal n).deriver, [], [], []⟩ (fun v => ⟨dropCR n.storePath, dropCR n.url,
      dropCR n.compression, (normal n).fileHash, (normal n).fileSize, n.narHash, n.narSize, (normal n).references,
      (normal n).deriver, v, [], []⟩) rfl (by decide) hn.system (fun v => s7 _ _) rfl]
    have rs := fun m rest => run_sigs_cr n.signatures m rest hn.signatures
    simp only [List.append_assoc] at rs
    rw [rs]
    simp only [List.nil_append]
    rw [← List.append_nil (optLine b!"CA: " n.ca)]
    rw [run_opt_cr (pre := b!"CA: ") (k := b!"CA")
      ⟨dropCR n.storePath, dropCR n.url,
      dropCR n.compression, (normal n).fileHash, (normal n).fileSize, n.narHash, n.narSize, (normal n).references,
      (normal n).deriver, dropCR n.system, n.signatures, []⟩ (fun v => ⟨dropCR n.storePath, dropCR n.url,
      dropCR n.compression, (normal n).fileHash, (normal n).fileSize, n.narHash, n.narSize, (normal n).references,
      (normal n).deriver, dropCR n.system, n.signatures, v⟩) rfl (by decide) hn.ca (fun _ => s8 _ _) rfl]
    have e : splitByte [] 10 = [[]] := rfl
    have e' : ∀ m, parseLine m [] = .ok m := fun m => rfl
    rw [e, parseLines_cons, e', Res.bind_ok]
    rfl
  unfold parse
  rw [hp]
  simp only [Res.bind_ok, ne_eq, not_true_eq_false, if_false, Res.ok.injEq]
  unfold normal
  simp only
  split <;> rfl

theorem splitByte_mid (a r : Bytes) (c : UInt8) :
    splitByte (a ++ c :: r) c = splitByte a c ++ splitByte r c := by
  induction a with
  | nil => simp [splitByte]
  | cons x a ih =>
    rw [List.cons_append, splitByte, splitByte]
    split
    · rw [ih]; rfl
    · rw [ih]
      cases h : splitByte a c with
      | nil => exact absurd h (splitByte_ne_nil a c)
      | cons y ys => rfl

theorem line_mem {a l b : Bytes} (h : (10 : UInt8) ∉ l) :
    l ∈ splitByte (a ++ b!"\n" ++ l ++ b!"\n" ++ b) 10 := by
  have e : a ++ b!"\n" ++ l ++ b!"\n" ++ b = a ++ 10 :: (l ++ 10 :: b) := by simp
  rw [e, splitByte_mid, splitByte_append h]
  simp

theorem splits_key {k v k' v' : Bytes} (h : SplitsAs (k ++ b!": " ++ v) k' v') : k' = k ∧ v' = v := by
  have e := h.2 k v rfl
  subst e
  have := h.1
  simp at this
  exact ⟨rfl, this.symm⟩

theorem good_hash {v : Bytes} (h : GoodValue b!"NarHash" v ∨ GoodValue b!"FileHash" v) :
    ∃ x, parseAny v none = .ok x := by
  rcases h with h | h <;>
  · rcases h with h | ⟨_, h⟩ | ⟨h, _⟩ | ⟨h, _⟩
    · exact absurd h (by decide)
    · exact h
    · exact absurd h (by decide)
    · exact absurd h (by decide)

/-- The text of the file lines. -/
theorem file_again {n : NarInfo} (hn : Parsed n) :
    ∃ ft, fileLines n = .ok ft ∧
      ((∀ h, n.fileHash = some h → n.fileSize ≠ 0 → HashPrints h) →
        ∀ (m : NarInfo) rest, m.fileHash = none → m.fileSize = 0 →
          parseLines m (splitByte (ft ++ rest) 10) = parseLines { m with
            fileHash := if n.fileSize = 0 then none else n.fileHash
            fileSize := if n.fileHash = none then 0 else n.fileSize } (splitByte rest 10)) ∧
      (∀ h, n.fileHash = some h → n.fileSize ≠ 0 →
        ∃ t u, ft = b!"FileHash: " ++ t ++ b!"\n" ++ u ∧ (10 : UInt8) ∉ t ∧ dropCR t = t ∧
          ((∃ h', parseAny t none = .ok h') → HashPrints h)) := by
  unfold fileLines
  cases hf : n.fileHash with
  | none =>
    refine ⟨[], rfl, fun _ m rest e1 e2 => ?_, by simp⟩
    simp only [ite_self, if_true, List.nil_append]
    rw [← e1, ← e2]
  | some h =>
    by_cases h0 : n.fileSize = 0
    · refine ⟨[], by simp [h0], fun _ m rest e1 e2 => ?_, fun _ _ h => absurd h0 h⟩
      simp only [h0, if_true, ite_self, List.nil_append]
      rw [← e1, ← e2]
    · obtain ⟨v, hv⟩ := hn.fileHash h hf
      obtain ⟨t, t1, t2, t3, t4, t5⟩ := hash_again hv
      obtain ⟨l1, l2⟩ := fromLine_simple (k := 8) t2 (by omega)
      refine ⟨_, by simp only [if_pos h0, t1]; rfl, fun hp m rest e1 e2 => ?_, fun h' e _ =>
        ⟨t, _, by simp only [List.append_assoc]; rfl, l1.noLF, l2, ?_⟩⟩
      · have c := t5 (hp h rfl h0)
        simp only [List.append_assoc]
        rw [run_line_cr (pre := b!"FileHash: ") (k := b!"FileHash") m rfl (by decide) l1, l2]
        have s1 : setField m b!"FileHash" t = .ok { m with fileHash := some h } := by
          unfold setField; simp [c]
        obtain ⟨u1, u2⟩ := uint_line (k := 8) hn.fileSize (by decide)
        rw [s1, Res.bind_ok, run_line_cr (pre := b!"FileSize: ") (k := b!"FileSize") _ rfl (by decide) u1, u2]
        have s2 : ∀ m : NarInfo, setField m b!"FileSize" (formatUint n.fileSize) =
            .ok { m with fileSize := n.fileSize } := by
          intro m; unfold setField; simp [parseUint_formatUint hn.fileSize]
        rw [s2, Res.bind_ok]
        simp [h0]
      · simp only [Option.some.injEq] at e
        subst e
        exact t4

/-- C112, the outcome of printing a parsed value and parsing the text again: it is accepted exactly when
there is a NAR hash, the hashes that are printed have digests of a recognisable size and the references fit on
one line; then the result is the value up to carriage returns at the ends and a lone file hash or size. -/
theorem C112_outcome (s : Stream) (n : NarInfo) (h : parse s = .ok n) (m : NarInfo) :
    (n.string >>= fun text => parse ⟨text, .eof⟩) = .ok m ↔
      (∃ x, n.narHash = some x ∧ HashPrints x) ∧
      (∀ x, n.fileHash = some x → n.fileSize ≠ 0 → HashPrints x) ∧
      RefsPrint n.references ∧ m = normal n := by
  obtain ⟨hn, hc⟩ := parsed_parse h
  obtain ⟨ft, f1, f2, f3⟩ := file_again hn
  cases hnh : n.narHash with
  | none =>
    have : n.string = .panic := by
      unfold NarInfo.string
      rw [f1, hnh]; rfl
    rw [this]
    simp
  | some x =>
    obtain ⟨v, hv⟩ := hn.narHash x hnh
    obtain ⟨nt, t1, t2, t3, t4, t5⟩ := hash_again hv
    obtain ⟨l1, l2⟩ := fromLine_simple (k := 7) t2 (by omega)
    have hs : n.string = .ok (printed n ft nt) := by
      unfold NarInfo.string
      rw [f1, hnh]
      unfold hashString
      simp only [Res.bind_ok, t1]
      rfl
    rw [hs, Res.bind_ok]
    constructor
    · intro hp
      have hacc := ((C50_accepts _).1).1 ⟨m, hp⟩
      simp only at hacc
      obtain ⟨_, a1, a2⟩ := hacc
      have er : b!"References:" ++ refsText n.references = b!"References: " ++ join n.references [32] := by
        rw [refsText_eq]; rfl
      -- a line of the text
      have hline : ∀ k v, (58 : UInt8) ∉ k → (10 : UInt8) ∉ k → (10 : UInt8) ∉ v →
          (∃ a b, printed n ft nt = a ++ b!"\n" ++ (k ++ b!": " ++ v) ++ b!"\n" ++ b) →
          (k ++ b!": " ++ v).length < 1048576 ∧ GoodValue k (dropCR v) ∧
            ∀ x y, v ≠ x ++ b!": " ++ y := by
        rintro k v k1 k2 v1 ⟨a, b, e⟩
        have h10 : (10 : UInt8) ∉ k ++ b!": " ++ v := by
          simp only [List.mem_append, not_or]; exact ⟨⟨k2, by decide⟩, v1⟩
        have hm : k ++ b!": " ++ v ∈ splitByte (printed n ft nt) 10 := by rw [e]; exact line_mem h10
        have hd := a2 (dropCR (k ++ b!": " ++ v)) (List.mem_map_of_mem hm)
        refine ⟨a1 _ hm, ?_⟩
        rw [dropCR_line] at hd
        rcases hd with hd | ⟨k', v', g1, g2⟩
        · simp at hd
        · obtain ⟨rfl, rfl⟩ := splits_key g1
          refine ⟨g2, fun x y e' => ?_⟩
          rw [e', dropCR_line] at g1
          have := g1.2 (k' ++ b!": " ++ x) (dropCR y) (by simp)
          have := congrArg List.length this
          simp at this
      have c1 : HashPrints x := by
        refine t4 (good_hash (.inl ?_))
        rw [← l2]
        refine (hline b!"NarHash" nt (by decide) (by decide) l1.noLF ?_).2.1
        by_cases hf : ∃ y, n.fileHash = some y ∧ n.fileSize ≠ 0
        · have hend : ∃ u, ft = u ++ b!"\n" := by
            obtain ⟨y, y1, y2⟩ := hf
            unfold fileLines at f1
            rw [y1] at f1
            simp only [if_pos y2] at f1
            rw [Res.bind_eq_ok] at f1
            obtain ⟨z, _, z2⟩ := f1
            simp only [Res.ok.injEq] at z2
            exact ⟨_, z2.symm⟩
          obtain ⟨u, rfl⟩ := hend
          exact ⟨b!"StorePath: " ++ n.storePath ++ b!"\n" ++
            b!"URL: " ++ n.url ++ b!"\n" ++ b!"Compression: " ++ n.compression ++ b!"\n" ++ u, _,
            by unfold printed; simp only [List.append_assoc]; rfl⟩
        · have : ft = [] := by
            unfold fileLines at f1
            split at f1
            · simpa using f1.symm
            · rename_i y hy
              rw [if_neg (fun h => hf ⟨y, hy, h⟩)] at f1
              simpa using f1.symm
          subst this
          exact ⟨b!"StorePath: " ++ n.storePath ++ b!"\n" ++
            b!"URL: " ++ n.url ++ b!"\n" ++ b!"Compression: " ++ n.compression, _,
            by unfold printed; simp only [List.append_assoc, List.nil_append]; rfl⟩
      have c2 : ∀ x, n.fileHash = some x → n.fileSize ≠ 0 → HashPrints x := by
        intro y y1 y2
        obtain ⟨t, u, rfl, g1, g2, g3⟩ := f3 y y1 y2
        refine g3 (good_hash (.inr ?_))
        rw [← g2]
        refine (hline b!"FileHash" t (by decide) (by decide) g1 ?_).2.1
        exact ⟨b!"StorePath: " ++ n.storePath ++ b!"\n" ++
            b!"URL: " ++ n.url ++ b!"\n" ++ b!"Compression: " ++ n.compression, _,
            by unfold printed; simp only [List.append_assoc]; rfl⟩
      have c3 : RefsPrint n.references := by
        obtain ⟨g1, _, g3⟩ := hline b!"References" (join n.references [32]) (by decide) (by decide)
          (refs_noLF hn) ⟨b!"StorePath: " ++ n.storePath ++ b!"\n" ++
            b!"URL: " ++ n.url ++ b!"\n" ++ b!"Compression: " ++ n.compression ++ b!"\n" ++ ft ++
            b!"NarHash: " ++ nt ++ b!"\n" ++ b!"NarSize: " ++ formatUint n.narSize, _, by
            unfold printed; simp only [List.append_assoc]
            rw [← List.append_assoc b!"References:", er, List.append_assoc b!"References: "]
            rfl⟩
        refine ⟨(refs_sep fun r h => (hn.references.1 r h).1).1 g3, ?_⟩
        simp at g1; omega
      have := parse_printed hn (f2 c2) ⟨l1, l2⟩ (t5 c1) hnh c3
      rw [this] at hp
      exact ⟨⟨x, rfl, c1⟩, c2, c3, by simpa using hp.symm⟩
    · rintro ⟨⟨x', e, c1⟩, c2, c3, rfl⟩
      simp only [Option.some.injEq] at e
      subst e
      exact parse_printed hn (f2 c2) ⟨l1, l2⟩ (t5 c1) hnh c3

/-- C112, panics: printing a parsed value panics exactly when there was no NAR hash. -/
theorem C112_panic (s : Stream) (n : NarInfo) (h : parse s = .ok n) :
    n.string = .panic ↔ n.narHash = none := by
  obtain ⟨hn, hc⟩ := parsed_parse h
  obtain ⟨ft, f1, f2, f3⟩ := file_again hn
  unfold NarInfo.string
  rw [f1]
  cases hnh : n.narHash with
  | none => simp [hashString]
  | some x =>
    obtain ⟨v, hv⟩ := hn.narHash x hnh
    obtain ⟨nt, t1, _⟩ := hash_again hv
    simp [hashString, t1]

/-- C112, exactly when printing and parsing again gives the same value. -/
theorem C112_exact (s : Stream) (n : NarInfo) (h : parse s = .ok n) :
    (n.string >>= fun text => parse ⟨text, .eof⟩) = .ok n ↔
      (∃ x, n.narHash = some x ∧ HashPrints x) ∧
      (n.fileHash = none ↔ n.fileSize = 0) ∧ (∀ x, n.fileHash = some x → HashPrints x) ∧
      (∀ v ∈ [n.storePath, n.url, n.compression, n.deriver, n.system, n.ca], NoCR v) ∧
      RefsPrint n.references ∧ ∀ r, n.references.getLast? = some r → NoCR r := by
  obtain ⟨hn, hc⟩ := parsed_parse h
  rw [C112_outcome s n h]
  have hrefs : (normal n).references = n.references ↔ ∀ r, n.references.getLast? = some r → NoCR r := by
    have hj : NoCR (join n.references [32]) ↔ ∀ r, n.references.getLast? = some r → NoCR r := by
      unfold NoCR
      rw [ne_eq, join_getLast_cr]
      simp
    rw [← hj, ← dropCR_eq_self]
    unfold normal
    simp only
    by_cases h0 : n.references = []
    · rw [h0]; simp [join, dropCR]
    constructor
    · intro e
      split at e
      · exact absurd e.symm h0
      · rw [← congrArg (fun l => join l [32]) e, join_splitByte]
        have := congrArg (fun l => join l [32]) e
        simp only [join_splitByte] at this
        rw [this, this]
    · intro e
      rw [e]
      have hne : join n.references [32] ≠ [] := by
        intro e'
        have := splitByte_join h0 (fun r hr => (hn.references.1 r hr).1)
        rw [e'] at this
        exact hn.references.2 this.symm
      rw [if_neg hne, splitByte_join h0 (fun r hr => (hn.references.1 r hr).1)]
  have hfile : (normal n).fileHash = n.fileHash ∧ (normal n).fileSize = n.fileSize ↔
      (n.fileHash = none ↔ n.fileSize = 0) := by
    unfold normal
    simp only
    cases n.fileHash with
    | none => by_cases h0 : n.fileSize = 0 <;> simp [h0, eq_comm]
    | some x => by_cases h0 : n.fileSize = 0 <;> simp [h0]
  have hder : (normal n).deriver = n.deriver ↔ NoCR n.deriver := by
    rw [← dropCR_eq_self]
    unfold normal
    simp only
    constructor
    · intro e
      split at e
      · rename_i e'
        rw [← e] at e'
        exact absurd e' (by decide)
      · exact e
    · intro e
      rw [e, if_neg hn.deriver.2]
  have hcomp : (normal n).compression = n.compression ↔ NoCR n.compression := by
    rw [← dropCR_eq_self]
    unfold normal
    simp only
    constructor
    · intro e
      split at e
      · rename_i e'
        rw [← e] at e'
        exact absurd e' (by decide)
      · exact e
    · intro e
      rw [e, if_neg hc]
  have heq : n = normal n ↔ (n.fileHash = none ↔ n.fileSize = 0) ∧
      (∀ v ∈ [n.storePath, n.url, n.compression, n.deriver, n.system, n.ca], NoCR v) ∧
      ∀ r, n.references.getLast? = some r → NoCR r := by
    rw [← hrefs, ← hfile]
    simp only [List.forall_mem_cons, List.not_mem_nil, false_implies, implies_true, and_true]
    rw [← hder, ← hcomp, ← dropCR_eq_self, ← dropCR_eq_self, ← dropCR_eq_self, ← dropCR_eq_self]
    constructor
    · intro e
      exact ⟨⟨(congrArg NarInfo.fileHash e).symm, (congrArg NarInfo.fileSize e).symm⟩,
        ⟨(congrArg NarInfo.storePath e).symm, (congrArg NarInfo.url e).symm,
          (congrArg NarInfo.compression e).symm, (congrArg NarInfo.deriver e).symm,
          (congrArg NarInfo.system e).symm, (congrArg NarInfo.ca e).symm⟩,
        (congrArg NarInfo.references e).symm⟩
    · rintro ⟨⟨e1, e2⟩, ⟨e3, e4, e5, e6, e7, e8⟩, e9⟩
      have : normal n = ⟨(normal n).storePath, (normal n).url, (normal n).compression, (normal n).fileHash,
        (normal n).fileSize, n.narHash, n.narSize, (normal n).references, (normal n).deriver,
        (normal n).system, n.signatures, (normal n).ca⟩ := rfl
      rw [this, e1, e2, e5, e6, e9, show (normal n).storePath = _ from e3, show (normal n).url = _ from e4,
        show (normal n).system = _ from e7, show (normal n).ca = _ from e8]
  rw [heq]
  constructor
  · rintro ⟨h1, h2, h3, h4, h5, h6⟩
    exact ⟨h1, h4, fun x hx => h2 x hx fun h0 => by rw [h4.2 h0] at hx; simp at hx, h5, h3, h6⟩
  · rintro ⟨h1, h2, h3, h4, h5, h6⟩
    exact ⟨h1, fun x hx _ => h3 x hx, h5, h2, h4, h6⟩

/-! ### The property as stated is false -/

/-- The text of a NAR hash. -/
def againHash : Bytes := b!"NarHash: sha256:0lxjvvpr59c2mdram7ympy5ay741f180kv3349hvfc3f8nrmbqf6\n"

/-- The value of `againHash`. -/
def againInfo : NarInfo :=
  { empty with
    compression := b!"bzip2"
    narHash := some ⟨⟨3, [198, 225, 85, 179, 69, 110, 48, 183, 97, 34, 99, 236, 9, 80, 112, 129, 28, 175,
      138, 191, 213, 159, 170, 114, 171, 130, 165, 146, 239, 222, 178, 83]⟩, 3, true⟩ }

/-- C112 as stated is refuted. Each of these texts is parsed; printing then panics (no `NarHash`), or the
printed text is refused (the references of two lines on one line), or it is read differently (a file size
without a hash is lost; a carriage return is lost). -/
theorem C112_refuted :
    (∃ n, parse ⟨b!"URL: x\n", .eof⟩ = .ok n ∧ n.string = .panic) ∧
    (∃ n t e, parse ⟨againHash ++ b!"References: a:\nReferences: b\n", .eof⟩ = .ok n ∧
      n.references = [b!"a:", b!"b"] ∧ n.string = .ok t ∧ parse ⟨t, .eof⟩ = .err e) ∧
    (∃ n t m, parse ⟨againHash ++ b!"FileSize: 5\n", .eof⟩ = .ok n ∧ n.fileSize = 5 ∧
      n.string = .ok t ∧ parse ⟨t, .eof⟩ = .ok m ∧ m.fileSize = 0) ∧
    (∃ n t m, parse ⟨againHash ++ b!"URL: x\r\r\n", .eof⟩ = .ok n ∧ n.url = b!"x\r" ∧
      n.string = .ok t ∧ parse ⟨t, .eof⟩ = .ok m ∧ m.url = b!"x") := by
  refine ⟨?_, ?_, ?_, ?_⟩
  · have h : ((parse ⟨b!"URL: x\n", .eof⟩).bind NarInfo.string) = .panic := by decide +kernel
    cases hp : parse ⟨b!"URL: x\n", .eof⟩ with
    | ok n => rw [hp] at h; exact ⟨n, rfl, h⟩
    | err e => rw [hp] at h; simp [Res.bind] at h
    | panic => exact absurd hp (C50_accepts _).2
  · exact ⟨{ againInfo with references := [b!"a:", b!"b"] },
      b!"StorePath: \nURL: \nCompression: bzip2\n" ++ againHash ++ b!"NarSize: 0\nReferences: a: b\n",
      .msg "found separator twice or more",
      by decide +kernel, rfl, by decide +kernel, by decide +kernel⟩
  · exact ⟨{ againInfo with fileSize := 5 },
      b!"StorePath: \nURL: \nCompression: bzip2\n" ++ againHash ++ b!"NarSize: 0\nReferences: \n", againInfo,
      by decide +kernel, rfl, by decide +kernel, by decide +kernel, rfl⟩
  · exact ⟨{ againInfo with url := b!"x\r" },
      b!"StorePath: \nURL: x\r\nCompression: bzip2\n" ++ againHash ++ b!"NarSize: 0\nReferences: \n",
      { againInfo with url := b!"x" }, by decide +kernel, rfl, by decide +kernel, by decide +kernel, rfl⟩

/-- A text with a file hash and size, references on two lines, and a deriver: parsed, printed
and parsed again it is the same. -/
example : ∃ n, parse ⟨againHash ++ b!"FileHash: sha256:0lxjvvpr59c2mdram7ympy5ay741f180kv3349hvfc3f8nrmbqf6\nFileSize: 5\n" ++
      b!"References: a b\nDeriver: d\r\nReferences: c:\n", .eof⟩ = .ok n ∧ n.references = [b!"a", b!"b", b!"c:"] ∧
      n.deriver = b!"d" ∧ (n.string >>= fun text => parse ⟨text, .eof⟩) = .ok n :=
  ⟨{ againInfo with references := [b!"a", b!"b", b!"c:"], deriver := b!"d", fileSize := 5, fileHash := againInfo.narHash },
    by decide +kernel, rfl, rfl, by decide +kernel⟩

end Verif.Props
