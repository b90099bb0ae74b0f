import Verif.Spec.NarinfoCut
import Verif.Props.NarinfoTrust
import Verif.Props.NarinfoAgain

/-!
# C154: A truncated .narinfo file
-/

namespace Verif.Props
open Verif.GoLib Verif.Nixhash Verif.Signature Verif.Narinfo Verif.Wire Verif.Spec

theorem splitByte_cut (c : UInt8) (b rest : Bytes) : ∃ L p q L', splitByte b c = L ++ [p] ∧ splitByte (b ++ rest) c = L ++ (p ++ q) :: L' := by
  induction b with
  | nil =>
    obtain ⟨x, xs, h⟩ := List.exists_cons_of_ne_nil (splitByte_ne_nil rest c)
    exact ⟨[], [], x, xs, rfl, h⟩
  | cons a b ih =>
    obtain ⟨L, p, q, L', h1, h2⟩ := ih
    rw [List.cons_append, splitByte, splitByte, h1, h2]
    by_cases ha : (a == c) = true
    · rw [if_pos ha, if_pos ha]
      exact ⟨[] :: L, p, q, L', rfl, rfl⟩
    · rw [if_neg ha, if_neg ha]
      cases L with
      | nil => exact ⟨[], a :: p, q, L', rfl, rfl⟩
      | cons x L => exact ⟨(a :: x) :: L, p, q, L', rfl, rfl⟩

theorem values_eq_nil {k : Bytes} {ls : List Bytes} (h : ∀ l ∈ ls, ¬ HasKey k l) : values k ls = [] := by
  unfold values
  rw [List.filterMap_eq_nil_iff]
  intro l hl
  rw [if_neg]
  intro hp
  rw [List.isPrefixOf_iff_prefix] at hp
  obtain ⟨v, hv⟩ := hp
  exact h l hl ⟨v, hv.symm⟩

theorem values_ne_nil {k : Bytes} {ls : List Bytes} (h : values k ls ≠ []) : ∃ a l b, ls = a ++ l :: b ∧ HasKey k l := by
  obtain ⟨x, xs, hx⟩ := List.exists_cons_of_ne_nil h
  have : x ∈ values k ls := by rw [hx]; simp
  unfold values at this
  rw [List.mem_filterMap] at this
  obtain ⟨l, hl, hv⟩ := this
  split at hv
  · rename_i hp
    rw [List.isPrefixOf_iff_prefix] at hp
    obtain ⟨v, hv⟩ := hp
    obtain ⟨a, b, hab⟩ := List.append_of_mem hl
    exact ⟨a, l, b, hab, v, hv.symm⟩
  · cases hv

theorem dropCR_rest (v : Bytes) : ∃ t, v = dropCR v ++ t ∧ ∀ x ∈ t, x = 13 := by
  unfold dropCR
  split
  · rename_i h
    obtain ⟨w, rfl⟩ := List.getLast?_eq_some_iff.1 h
    exact ⟨[13], by simp, by simp⟩
  · exact ⟨[], by simp, by simp⟩

/-- A line that begins with another one has its key. -/
theorem hasKey_cut {k p q : Bytes} (h : HasKey k (dropCR p)) : HasKey k (dropCR (p ++ q)) := by
  obtain ⟨v, hv⟩ := h
  obtain ⟨t, ht, _⟩ := dropCR_rest p
  have e : p ++ q = k ++ b!": " ++ (v ++ t ++ q) := by
    rw [ht, hv]; simp
  rw [e, dropCR_line]
  exact ⟨_, rfl⟩

/-- A line has a single key. -/
theorem hasKey_unique {k k' l : Bytes} (h : HasKey k l) (h' : HasKey k' l) (hk : (58 : UInt8) ∉ k) (hk' : (58 : UInt8) ∉ k') : k = k' := by
  obtain ⟨v, rfl⟩ := h
  obtain ⟨v', h'⟩ := h'
  have e : k ++ 58 :: (32 :: v) = k' ++ 58 :: (32 :: v') := by simpa using h'
  exact (split_at hk hk' e).1

/-- Base64 texts of 64 bytes have no strict beginnings that are such texts, up to the line ends that are ignored. -/
theorem b64_cut {t t' r cr d d' : Bytes} (h : b64Decode t = .ok d) (h' : b64Decode t' = .ok d') (hd : d.length = 64) (hd' : d'.length = 64)
    (e : t' ++ r = t ++ cr) (hcr : ∀ x ∈ cr, x = 13) : d' = d := by
  have len : ∀ {t d : Bytes}, b64Decode t = .ok d → d.length = 64 → (t.filter (fun c => c != 13 && c != 10)).length = 88 := by
    intro t d h hd
    obtain ⟨vs, p, h1, h2, h3, h4, h5, _⟩ := (b64Decode_iff t d).1 h
    have hl := congrArg List.length h3
    simp only [List.length_append, List.length_map, List.length_replicate] at hl
    omega
  have e2 := congrArg (List.filter (fun c => c != 13 && c != 10)) e
  rw [List.filter_append, List.filter_append] at e2
  have hz : cr.filter (fun c => c != 13 && c != 10) = [] := by
    rw [List.filter_eq_nil_iff]
    intro x hx
    rw [hcr x hx]
    decide
  have hl := List.append_inj e2 (by rw [len h hd, len h' hd'])
  have hf : ∀ t : Bytes, t.filter (fun c => c != 10 && c != 13) = t.filter (fun c => c != 13 && c != 10) := by
    intro t; congr 1; funext c; exact Bool.and_comm _ _
  unfold b64Decode at h h'
  rw [hf] at h h'
  rw [hl.1, h] at h'
  exact (Res.ok.inj h').symm

/-- The signature in a line that was cut off within is not another one. -/
theorem sig_cut {p q v v' : Bytes} {s s' : Named} (h' : dropCR p = b!"Sig: " ++ v') (h : dropCR (p ++ q) = b!"Sig: " ++ v)
    (hs' : parseSignature v' = .ok s') (hs : parseSignature v = .ok s) : s' = s := by
  obtain ⟨t1, e1, _⟩ := dropCR_rest p
  obtain ⟨cr, e2, hcr⟩ := dropCR_rest (p ++ q)
  obtain ⟨t', f1, _, f2, f3, f4⟩ := (C53_accepts v' s').1.1 hs'
  obtain ⟨t, g1, _, g2, g3, g4⟩ := (C53_accepts v s).1.1 hs
  have e : v' ++ (t1 ++ q) = v ++ cr := by
    rw [h] at e2
    rw [e1, h'] at e2
    simpa using e2
  rw [f1, g1] at e
  have e' : s'.name ++ 58 :: (t' ++ (t1 ++ q)) = s.name ++ 58 :: (t ++ cr) := by simpa using e
  obtain ⟨en, et⟩ := split_at f2 g2 e'
  have := b64_cut g3 f3 g4 f4 et hcr
  cases s; cases s'
  simp only [Named.mk.injEq]
  exact ⟨en, this⟩

/-- C154: if a text whose signatures stand behind what is signed is cut off anywhere, and the rest is still read as something with a
signature, then what is signed is that of the whole text, and its signatures are the first ones of the whole text. -/
theorem C154_signed (b rest : Bytes) (term : Err) (n m : NarInfo) (hn : parse ⟨b ++ rest, .eof⟩ = .ok n) (ho : SignedFirst (b ++ rest))
    (hm : parse ⟨b, term⟩ = .ok m) (hs : m.signatures ≠ []) :
    m.storePath = n.storePath ∧ m.narHash = n.narHash ∧ m.narSize = n.narSize ∧ m.references = n.references ∧
      m.fingerprint = n.fingerprint ∧ m.signatures <+: n.signatures := by
  obtain ⟨L, p, q, L', h1, h2⟩ := splitByte_cut 10 b rest
  obtain ⟨m1, _, _, _, _, m6, m7, m8, _, _, m11, _⟩ := C50_result _ _ hm
  obtain ⟨n1, _, _, _, _, n6, n7, n8, _, _, n11, _⟩ := C50_result _ _ hn
  have lb : lines b = L.map dropCR ++ [dropCR p] := by unfold lines; rw [h1]; simp
  have lt : lines (b ++ rest) = L.map dropCR ++ dropCR (p ++ q) :: L'.map dropCR := by unfold lines; rw [h2]; simp
  simp only at m1 m6 m7 m8 m11 n1 n6 n7 n8 n11
  have hsv : values b!"Sig" (lines b) ≠ [] := by
    intro e
    rw [e] at m11
    have := congrArg List.length m11
    simp at this
    exact hs (List.eq_nil_of_length_eq_zero this.symm)
  -- the values of the signed keys are the same
  have key : ∀ k ∈ signedKeys, values k (lines b) = values k (lines (b ++ rest)) := by
    intro k hk
    have k58 : (58 : UInt8) ∉ k ∧ k ≠ b!"Sig" := by
      simp only [signedKeys, List.mem_cons, List.not_mem_nil, or_false] at hk
      rcases hk with rfl | rfl | rfl | rfl <;> decide
    have htail : ¬ HasKey k (dropCR p) ∧ ¬ HasKey k (dropCR (p ++ q)) ∧ ∀ l ∈ L'.map dropCR, ¬ HasKey k l := by
      rw [lb, values_append] at hsv
      by_cases hL : values b!"Sig" (L.map dropCR) = []
      · rw [hL, List.nil_append] at hsv
        obtain ⟨x, l, y, hxy, hl⟩ := values_ne_nil hsv
        have hl' : HasKey b!"Sig" (dropCR p) := by
          have : l ∈ [dropCR p] := by rw [hxy]; simp
          rw [List.mem_singleton] at this
          exact this ▸ hl
        have hfull := hasKey_cut (q := q) hl'
        refine ⟨fun h => k58.2 (hasKey_unique h hl' k58.1 (by decide)), fun h => k58.2 (hasKey_unique h hfull k58.1 (by decide)), ?_⟩
        intro l hl
        exact ho _ _ _ lt hfull l hl k hk
      · obtain ⟨x, l, y, hxy, hl⟩ := values_ne_nil hL
        rw [hxy, List.append_assoc, List.cons_append] at lt
        have := ho _ _ _ lt hl
        have hf : ¬ HasKey k (dropCR (p ++ q)) := this _ (by simp) k hk
        exact ⟨fun h => hf (hasKey_cut h), hf, fun l hl => this l (by simp only [List.mem_append, List.mem_cons]; exact .inr (.inr hl)) k hk⟩
    rw [lb, lt, values_append, values_append, values_eq_nil (ls := [dropCR p]) (by simpa using htail.1),
      values_eq_nil (ls := dropCR (p ++ q) :: L'.map dropCR) (by
        intro l hl
        rcases List.mem_cons.1 hl with rfl | hl
        · exact htail.2.1
        · exact htail.2.2 l hl)]
  have k1 := key b!"StorePath" (by simp [signedKeys])
  have k2 := key b!"NarHash" (by simp [signedKeys])
  have k3 := key b!"NarSize" (by simp [signedKeys])
  have k4 := key b!"References" (by simp [signedKeys])
  have e1 : m.storePath = n.storePath := by rw [m1, n1, k1]
  have e2 : m.narHash = n.narHash := by
    refine Option.ext fun h => ?_
    rw [m6 h, n6 h, k2]
  have e3 : m.narSize = n.narSize := by rw [m7, n7, k3]
  have e4 : m.references = n.references := by rw [m8, n8, k4]
  refine ⟨e1, e2, e3, e4, ?_, ?_⟩
  · unfold NarInfo.fingerprint
    rw [e1, e2, e3, e4]
  -- the signatures
  rw [lb, values_append] at m11
  have hlt : lines (b ++ rest) = L.map dropCR ++ ([dropCR (p ++ q)] ++ L'.map dropCR) := by rw [lt]; simp
  rw [hlt, values_append, values_append] at n11
  by_cases hp : HasKey b!"Sig" (dropCR p)
  · obtain ⟨v', hv'⟩ := hp
    obtain ⟨v, hv⟩ := hasKey_cut (q := q) ⟨v', hv'⟩
    have vv : ∀ {x v : Bytes}, x = b!"Sig" ++ b!": " ++ v → values b!"Sig" [x] = [v] := by
      intro x v e
      have hp : ((b!"Sig" ++ b!": ") : Bytes).isPrefixOf x = true := by
        rw [List.isPrefixOf_iff_prefix]; exact ⟨v, e.symm⟩
      unfold values
      simp only [List.filterMap_cons, hp, if_true, List.filterMap_nil]
      rw [e, List.drop_left' (by simp)]
    rw [vv hv', List.map_append] at m11
    rw [vv hv, List.map_append, List.map_append] at n11
    obtain ⟨s1, s2, em, g1, g2⟩ := List.map_eq_append_iff.1 m11.symm
    obtain ⟨r1, r2, en, g3, g4⟩ := List.map_eq_append_iff.1 n11.symm
    obtain ⟨r3, r4, er, g5, g6⟩ := List.map_eq_append_iff.1 g4
    have es : s1 = r1 := by
      have : s1.map Res.ok = r1.map Res.ok := g1.trans g3.symm
      exact (List.map_inj_right (fun x y h => Res.ok.inj h)).1 this
    obtain ⟨s', rfl⟩ : ∃ s', s2 = [s'] := List.length_eq_one_iff.1 (by simpa using congrArg List.length g2)
    obtain ⟨s, rfl⟩ : ∃ s, r3 = [s] := List.length_eq_one_iff.1 (by simpa using congrArg List.length g5)
    simp only [List.map_cons, List.map_nil, List.cons.injEq, and_true] at g2 g5
    have := sig_cut (p := p) (q := q) (by simpa using hv') (by simpa using hv) g2.symm g5.symm
    rw [em, en, er, es, this]
    exact ⟨r4, by simp⟩
  · rw [values_eq_nil (ls := [dropCR p]) (by simpa using hp), List.append_nil] at m11
    rw [List.map_append] at n11
    obtain ⟨r1, r2, en, g3, g4⟩ := List.map_eq_append_iff.1 n11.symm
    have es : m.signatures = r1 := by
      have : m.signatures.map Res.ok = r1.map Res.ok := m11.symm.trans g3.symm
      exact (List.map_inj_right (fun x y h => Res.ok.inj h)).1 this
    rw [en, es]
    exact ⟨r2, rfl⟩

/-- C154: so a truncated text that is verified was signed as it is. -/
theorem C154_verified (E : Ed25519) (keys : List Named) (b rest : Bytes) (term : Err) (n m : NarInfo) (f : Bytes) (hn : parse ⟨b ++ rest, .eof⟩ = .ok n)
    (ho : SignedFirst (b ++ rest)) (hm : parse ⟨b, term⟩ = .ok m) (hf : m.fingerprint = .ok f) (hv : verifyFirst E f m.signatures keys = .ok true) :
    n.fingerprint = .ok f ∧ ∃ k ∈ keys, ∃ s ∈ n.signatures, k.name = s.name ∧ E.verify k.data f s.data = true := by
  obtain ⟨k, hk, sg, hsg, hname, _, _, hver⟩ := (C54_sound E f m.signatures keys).1 hv
  obtain ⟨_, _, _, _, e, hp⟩ := C154_signed b rest term n m hn ho hm (by intro h; rw [h] at hsg; cases hsg)
  exact ⟨by rw [← e]; exact hf, k, hk, sg, hp.subset hsg, hname, hver⟩

/-- The lines of the text have none of these keys. -/
def Safe (K : List Bytes) (x : Bytes) : Prop := ∀ r, ∃ H, lines (x ++ r) = H ++ lines r ∧ ∀ l ∈ H, ∀ k ∈ K, ¬ HasKey k l

theorem safe_nil (K : List Bytes) : Safe K [] := fun r => ⟨[], rfl, by simp⟩

theorem Safe.append {K : List Bytes} {x y : Bytes} (hx : Safe K x) (hy : Safe K y) : Safe K (x ++ y) := by
  intro r
  obtain ⟨H1, e1, h1⟩ := hx (y ++ r)
  obtain ⟨H2, e2, h2⟩ := hy r
  refine ⟨H1 ++ H2, by rw [List.append_assoc, e1, e2, List.append_assoc], ?_⟩
  intro l hl
  rcases List.mem_append.1 hl with h | h
  · exact h1 l h
  · exact h2 l h

theorem safe_line {K : List Bytes} {pre k v : Bytes} (hpre : pre = k ++ b!": ") (hk : (58 : UInt8) ∉ k ∧ (10 : UInt8) ∉ k) (hv : (10 : UInt8) ∉ v) (hK : ∀ k' ∈ K, (58 : UInt8) ∉ k' ∧ k' ≠ k) :
    Safe K (pre ++ (v ++ b!"\n")) := by
  subst hpre
  intro r
  have e : k ++ b!": " ++ (v ++ b!"\n") ++ r = (k ++ b!": " ++ v) ++ 10 :: r := by simp
  have h10 : (10 : UInt8) ∉ k ++ b!": " ++ v := by
    simp only [List.mem_append, not_or]
    exact ⟨⟨hk.2, by decide⟩, hv⟩
  refine ⟨[dropCR (k ++ b!": " ++ v)], ?_, ?_⟩
  · unfold lines
    rw [e, splitByte_append h10]
    rfl
  · intro l hl k' hk' h
    rw [List.mem_singleton.1 hl, dropCR_line] at h
    exact (hK k' hk').2 (hasKey_unique h ⟨_, rfl⟩ (hK k' hk').1 hk.1)

theorem signedFirst_of {x y : Bytes} (hx : Safe [b!"Sig"] x) (hy : Safe signedKeys y) : SignedFirst (x ++ y) := by
  obtain ⟨H, e1, h1⟩ := hx y
  obtain ⟨T, e2, h2⟩ := hy []
  rw [List.append_nil] at e2
  have e0 : lines [] = [[]] := rfl
  intro a l b e hl l' hl' k hk
  rw [e1, e2, e0] at e
  have hin : l' ∈ T ++ [[]] := by
    rcases List.append_eq_append_iff.1 e with ⟨c, g1, g2⟩ | ⟨c, g1, g2⟩
    · rw [g2]; simp [hl']
    · cases c with
      | nil =>
        simp only [List.nil_append] at g2
        rw [← g2]; simp [hl']
      | cons y c =>
        simp only [List.cons_append, List.cons.injEq] at g2
        exfalso
        exact h1 l (by rw [g1, g2.1]; simp) _ (by simp) hl
  rcases List.mem_append.1 hin with h | h
  · exact h2 l' h k hk
  · rw [List.mem_singleton.1 h]
    rintro ⟨v, hv⟩
    have := congrArg List.length hv
    simp at this

/-- What `String` prints for a well-formed value has the signatures behind what is signed. -/
theorem string_signedFirst {n : NarInfo} (hw : WellFormed n) {text : Bytes} (h : n.string = .ok text) : SignedFirst text := by
  obtain ⟨nh, hnh, hnok⟩ := hw.narHash
  obtain ⟨nt, hnt, hnv, hnp⟩ := hash_text hnok
  have hfile : ∃ ft, fileLines n = .ok ft ∧ Safe [b!"Sig"] ft := by
    rcases hw.file with ⟨h1, h2⟩ | ⟨h, h1, h2, h3, h4⟩
    · exact ⟨[], by unfold fileLines; rw [h1], safe_nil _⟩
    · obtain ⟨t, a, b, c⟩ := hash_text h2
      refine ⟨_, by unfold fileLines; rw [h1]; simp only []; rw [if_pos (by omega), a]; rfl, ?_⟩
      have l1 : Safe [b!"Sig"] (b!"FileHash: " ++ (t ++ b!"\n")) := safe_line (k := b!"FileHash") rfl (by decide) b.noLF (by decide)
      have l2 : Safe [b!"Sig"] (b!"FileSize: " ++ (formatUint n.fileSize ++ b!"\n")) := safe_line (k := b!"FileSize") rfl (by decide) (uint_text h4).noLF (by decide)
      have := l1.append l2
      simpa using this
  obtain ⟨ft, hft, hfs⟩ := hfile
  unfold NarInfo.string at h
  rw [hft, hnh] at h
  unfold hashString at h
  simp only [Res.bind_ok, hnt] at h
  have h := Res.ok.inj h
  have er : b!"References:" ++ refsText n.references = b!"References: " ++ join n.references [32] := by
    rw [refsText_eq]; rfl
  have opt : ∀ {K : List Bytes} {pre k v : Bytes}, pre = k ++ b!": " → (58 : UInt8) ∉ k ∧ (10 : UInt8) ∉ k → (10 : UInt8) ∉ v → (∀ k' ∈ K, (58 : UInt8) ∉ k' ∧ k' ≠ k) →
      Safe K (optLine pre v) := by
    intro K pre k v h1 h2 h3 h4
    unfold optLine
    split
    · exact safe_nil _
    · have := safe_line h1 h2 h3 h4
      simpa using this
  have hsigs : Safe signedKeys (n.signatures.flatMap fun s => b!"Sig: " ++ encode s ++ b!"\n") := by
    have hall := hw.signatures
    generalize n.signatures = sigs at hall ⊢
    induction sigs with
    | nil => exact safe_nil _
    | cons s sigs ih =>
      obtain ⟨h1, h2⟩ := List.forall_mem_cons.1 hall
      have l1 : Safe signedKeys (b!"Sig: " ++ (encode s ++ b!"\n")) := safe_line (k := b!"Sig") rfl (by decide) (sig_text h1).1.noLF (by decide)
      rw [List.flatMap_cons, List.append_assoc b!"Sig: "]
      exact l1.append (ih h2)
  have l1 : Safe [b!"Sig"] (b!"StorePath: " ++ (n.storePath ++ b!"\n")) := safe_line (k := b!"StorePath") rfl (by decide) hw.storePath.noLF (by decide)
  have l2 : Safe [b!"Sig"] (b!"URL: " ++ (n.url ++ b!"\n")) := safe_line (k := b!"URL") rfl (by decide) hw.url.noLF (by decide)
  have l3 : Safe [b!"Sig"] (b!"Compression: " ++ (n.compression ++ b!"\n")) := safe_line (k := b!"Compression") rfl (by decide) hw.compression.1.noLF (by decide)
  have l4 : Safe [b!"Sig"] (b!"NarHash: " ++ (nt ++ b!"\n")) := safe_line (k := b!"NarHash") rfl (by decide) hnv.noLF (by decide)
  have l5 : Safe [b!"Sig"] (b!"NarSize: " ++ (formatUint n.narSize ++ b!"\n")) := safe_line (k := b!"NarSize") rfl (by decide) (uint_text hw.narSize).noLF (by decide)
  have l6 : Safe [b!"Sig"] (b!"References: " ++ (join n.references [32] ++ b!"\n")) := safe_line (k := b!"References") rfl (by decide) (refs_text hw).noLF (by decide)
  have l7 : Safe [b!"Sig"] (optLine b!"Deriver: " n.deriver) := opt (k := b!"Deriver") rfl (by decide) hw.deriver.1.noLF (by decide)
  have l8 : Safe [b!"Sig"] (optLine b!"System: " n.system) := opt (k := b!"System") rfl (by decide) hw.system.noLF (by decide)
  have l9 : Safe signedKeys (optLine b!"CA: " n.ca) := opt (k := b!"CA") rfl (by decide) hw.ca.noLF (by decide)
  have hall := signedFirst_of ((((((((l1.append l2).append l3).append hfs).append l4).append l5).append l6).append l7).append l8) (hsigs.append l9)
  rw [← h]
  simp only [List.append_assoc] at hall ⊢
  rw [← List.append_assoc b!"References:", er, List.append_assoc b!"References: "]
  exact hall

/-- C154: what `String` printed for a well-formed value, cut off anywhere: if it is still read as something with a signature, then store path, NAR hash, NAR size and
references are complete, and its signatures are the first ones of the value. -/
theorem C154_printed (n : NarInfo) (hw : WellFormed n) (b rest : Bytes) (h : n.string = .ok (b ++ rest)) (term : Err) (m : NarInfo)
    (hm : parse ⟨b, term⟩ = .ok m) (hs : m.signatures ≠ []) :
    m.storePath = n.storePath ∧ m.narHash = n.narHash ∧ m.narSize = n.narSize ∧ m.references = n.references ∧
      m.fingerprint = n.fingerprint ∧ m.signatures <+: n.signatures := by
  obtain ⟨text, h1, h2⟩ := C49_roundtrip n hw
  rw [h] at h1
  cases Res.ok.inj h1
  exact C154_signed b rest term n m h2 (string_signedFirst hw h) hm hs

/-- What `parse` makes of the first `i` bytes of the text of `strictInfo`. -/
def cutInfo (i : Nat) : NarInfo := match parse ⟨strictText.take i, .eof⟩ with | .ok m => m | _ => empty

theorem strictText_eq : strictInfo.string = .ok strictText := by decide +kernel

theorem strictInfo_wf : WellFormed strictInfo := by
  have v : ∀ x : Bytes, (10 : UInt8) ∉ x → x.getLast? ≠ some 13 → contains x b!": " = false →
      x.length < 1048000 → ValueOk x := fun x a b c d => ⟨a, b, noSep_of c, d⟩
  constructor
  · exact v _ (by decide) (by decide) (by decide) (by decide)
  · exact v _ (by decide) (by decide) (by decide) (by decide)
  · exact ⟨v _ (by decide) (by decide) (by decide) (by decide), by decide⟩
  · exact .inr ⟨_, rfl, ⟨⟨b!"sha256", by decide⟩, by decide, rfl⟩, by decide, by decide⟩
  · exact ⟨_, rfl, ⟨b!"sha256", by decide⟩, by decide, rfl⟩
  · decide
  · decide
  · exact ⟨v _ (by decide) (by decide) (by decide) (by decide), by decide⟩
  · exact v _ (by decide) (by decide) (by decide) (by decide)
  · decide
  · exact v _ (by decide) (by decide) (by decide) (by decide)

/-- The hypotheses can be met: cut off behind the first signature, a value is verified. -/
example : WellFormed strictInfo ∧ strictInfo.string = .ok (strictText.take 470 ++ strictText.drop 470) ∧ SignedFirst (strictText.take 470 ++ strictText.drop 470) ∧
    parse ⟨strictText.take 470 ++ strictText.drop 470, .eof⟩ = .ok strictInfo ∧ parse ⟨strictText.take 470, .eof⟩ = .ok (cutInfo 470) ∧
    (cutInfo 470).signatures = strictInfo.signatures.take 1 ∧ (cutInfo 470).ca ≠ strictInfo.ca ∧ (cutInfo 470).fingerprint = .ok strictPrint ∧
    verifyFirst onlyStrict strictPrint (cutInfo 470).signatures [⟨b!"cache.nixos.org-1", List.replicate 32 1⟩] = .ok true := by
  have e : strictText.take 470 ++ strictText.drop 470 = strictText := List.take_append_drop _ _
  rw [e]
  exact ⟨strictInfo_wf, strictText_eq, string_signedFirst strictInfo_wf strictText_eq, by decide +kernel, by decide +kernel, by decide +kernel, by decide +kernel,
    by decide +kernel, by decide +kernel⟩

/-- Nothing but the signatures protects against truncation: cut off within the references, the text is read, without error, as a value with
other references, which also passes `Check` if the value does; cut off in the NAR size, as one with another size; cut off at the beginning, as an
empty value. -/
theorem C154_unsigned : ∃ t : Bytes, strictInfo.string = .ok t ∧ strictInfo.check = .ok () ∧
    (∃ b rest m, t = b ++ rest ∧ parse ⟨b, .eof⟩ = .ok m ∧ m.check = .ok () ∧ m.narSize = strictInfo.narSize ∧ m.references ≠ strictInfo.references) ∧
    (∃ b rest m, t = b ++ rest ∧ parse ⟨b, .eof⟩ = .ok m ∧ m.check = .ok () ∧ m.narSize ≠ strictInfo.narSize) ∧
    (∃ m, parse ⟨[], .eof⟩ = .ok m ∧ m = { empty with compression := b!"bzip2" }) := by
  refine ⟨strictText, strictText_eq, by decide +kernel, ⟨strictText.take 323, strictText.drop 323, cutInfo 323, ?_⟩, ⟨strictText.take 264, strictText.drop 264, cutInfo 264, ?_⟩,
    ⟨_, rfl, rfl⟩⟩
  · exact ⟨(List.take_append_drop _ _).symm, by decide +kernel, by decide +kernel, by decide +kernel, by decide +kernel⟩
  · exact ⟨(List.take_append_drop _ _).symm, by decide +kernel, by decide +kernel, by decide +kernel⟩

end Verif.Props
