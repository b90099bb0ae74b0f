import Verif.Props.DrvPaths
import Verif.Props.DrvGrammar
import Verif.Props.ShowRead

/-! # When two derivations have the same path -/

namespace Verif.Props
open Verif.GoLib Verif.Wire Verif.Derivation Verif.Storepath Verif.Nixhash Verif.Spec

/-- What `ReadDerivation` returns for a file in the format can be written. -/
theorem read_quotable (jn : Bytes → Res (Option Bytes)) {f : DrvText} (hf : f.Closed) {d : Derivation}
    (hd : readDerivation jn ⟨f.text, .eof⟩ = .ok d) : Quotable d := by
  obtain ⟨_, e1, e2, e3, e4, e5, e6, e7⟩ := C60_order jn f hf d hd
  refine ⟨?_, ?_, ?_, ?_, ?_⟩
  · rw [e1]
    intro o ho
    obtain ⟨x, hx, rfl⟩ := List.mem_map.1 ho
    exact hf.outputs x hx
  · rw [e2]; exact hf.inputDrvs
  · rw [e4]; exact hf.inputSrcs
  · rw [e7]; exact hf.args
  · rw [e3]
    intro o ho
    obtain ⟨x, hx, rfl⟩ := List.mem_map.1 ho
    exact (hf.env x hx).1

/-- The name is determined by the environment. -/
theorem read_name (jn : Bytes → Res (Option Bytes)) {s : Stream} {d : Derivation} (hd : readDerivation jn s = .ok d) :
    match d.env.get? b!"__json" with
    | none => d.name = []
    | some j => attrsName (jn j) = .ok d.name := by
  unfold readDerivation at hd
  split at hd
  · cases hd
  rw [Res.bind_eq_ok] at hd
  obtain ⟨d', h1, h2⟩ := hd
  rw [Res.bind_eq_ok] at h2
  obtain ⟨_, _, h3⟩ := h2
  cases Res.ok.inj h3
  unfold parseDerivation at h1
  split at h1
  · cases h1
  split at h1
  · cases h1
  rw [Res.bind_eq_ok] at h1
  obtain ⟨d0, h4, h5⟩ := h1
  have hname : d0.name = [] := by
    refine arrayEach_inv (fun d : Derivation => d.name = []) drvField ?_ (s := emptyDrv) rfl h4
    intro s v i s' hs h
    unfold drvField at h
    split at h
    · rw [Res.bind_eq_ok] at h; obtain ⟨_, _, h⟩ := h; cases Res.ok.inj h; exact hs
    split at h
    · rw [Res.bind_eq_ok] at h; obtain ⟨_, _, h⟩ := h; cases Res.ok.inj h; exact hs
    split at h
    · rw [Res.bind_eq_ok] at h; obtain ⟨_, _, h⟩ := h; cases Res.ok.inj h; exact hs
    split at h
    · rw [Res.bind_eq_ok] at h; obtain ⟨_, _, h⟩ := h; cases Res.ok.inj h; exact hs
    split at h
    · rw [Res.bind_eq_ok] at h; obtain ⟨_, _, h⟩ := h; cases Res.ok.inj h; exact hs
    split at h
    · rw [Res.bind_eq_ok] at h; obtain ⟨_, _, h⟩ := h; cases Res.ok.inj h; exact hs
    split at h
    · rw [Res.bind_eq_ok] at h; obtain ⟨_, _, h⟩ := h; cases Res.ok.inj h; exact hs
    · cases h
  split at h5
  · rename_i he
    cases Res.ok.inj h5
    rw [he]
    exact hname
  · rename_i j he
    rw [Res.bind_eq_ok] at h5
    obtain ⟨n, h6, h7⟩ := h5
    cases Res.ok.inj h7
    show match d0.env.get? b!"__json" with
      | none => _
      | some j => _
    rw [he]
    exact h6

/-- C86 for files: if two files in the format, whatever their strings, are accepted by `ReadDerivation` and the paths of the results are
the same, then the results are the same, or there is a collision of the hash function. -/
theorem C86_files (H : Bytes → Bytes) (hH : ∀ x, (H x).length = 32) (jn : Bytes → Res (Option Bytes)) (f f' : DrvText) (hf : f.Closed)
    (hf' : f'.Closed) (d d' : Derivation) (hd : readDerivation jn ⟨f.text, .eof⟩ = .ok d)
    (hd' : readDerivation jn ⟨f'.text, .eof⟩ = .ok d') (h0 : d.getName ≠ []) (h0' : d'.getName ≠ []) (hn : NameChars d.getName)
    (hn' : NameChars d'.getName) (h : drvPath H d = drvPath H d') :
    d = d' ∨
    (∃ t t', Prints d t ∧ Prints d' t' ∧ t.text ≠ t'.text ∧ H t.text = H t'.text) ∨
    (∃ t t' refs refs', Prints d t ∧ Prints d' t' ∧ refs.Perm (d.inputDerivations.keys ++ d.inputSources) ∧
      refs'.Perm (d'.inputDerivations.keys ++ d'.inputSources) ∧
      let x := fingerprint (join (b!"text" :: refs) b!":") (hexEncode (H t.text)) (d.getName ++ b!".drv")
      let x' := fingerprint (join (b!"text" :: refs') b!":") (hexEncode (H t'.text)) (d'.getName ++ b!".drv")
      x ≠ x' ∧ ∃ g, Folded (H x) g ∧ Folded (H x') g) := by
  refine (C86_injective_partial H hH d d' (read_maps hd) (read_maps hd') (read_quotable jn hf hd) (read_quotable jn hf' hd') h0 h0' hn hn' h).imp ?_ id
  intro hs
  obtain ⟨i1, i2, i3⟩ := C60_any_input jn _ d hd
  obtain ⟨j1, j2, j3⟩ := C60_any_input jn _ d' hd'
  have e1 := perm_increasing hs.outputs i1 j1
  have e2 := perm_increasing hs.inputDerivations i2 j2
  have e3 := perm_increasing hs.env i3 j3
  have e4 := hs.inputSources
  have e5 := hs.platform
  have e6 := hs.builder
  have e7 := hs.arguments
  simp only at e1 e2 e3 e4 e5 e6 e7
  have e8 : d.name = d'.name := by
    have a1 := read_name jn hd
    have a2 := read_name jn hd'
    rw [← e3] at a2
    cases he : d.env.get? b!"__json" with
    | none => rw [he] at a1 a2; exact a1.trans a2.symm
    | some j =>
      rw [he] at a1 a2
      exact Res.ok.inj (a1.symm.trans a2)
  cases d
  cases d'
  simp_all

/-- Two different files, with an escape sequence in the builder, that are read as the same derivation: a newline in a value of the environment is
written in two ways. -/
def newlineRaw : DrvText := { escapedBuilder with env := [(b!"k", b!"a\nb"), (b!"name", b!"x")] }
def newlineEscaped : DrvText := { escapedBuilder with env := [(b!"k", b!"a\\nb"), (b!"name", b!"x")] }

theorem newline_closed : newlineRaw.Closed ∧ newlineEscaped.Closed := by
  have p : ∀ s : Bytes, (∀ c ∈ s, c ≠ 34 ∧ c ≠ 92) → Closed s := fun s h => by
    induction s with
    | nil => exact .nil
    | cons c s ih => exact .plain c s (h c List.mem_cons_self).1 (h c List.mem_cons_self).2 (ih fun c hc => h c (List.mem_cons_of_mem _ hc))
  constructor
  all_goals
    constructor
    · intro o ho
      simp only [newlineRaw, newlineEscaped, escapedBuilder, List.mem_singleton] at ho
      subst ho
      exact ⟨p _ (by decide), p _ (by decide), p _ (by decide), p _ (by decide)⟩
    · intro o ho; cases ho
    · intro o ho; cases ho
    · exact p _ (by decide)
    · first | exact .esc _ _ (p _ (by decide)) | exact .plain _ _ (by decide) (by decide) (.esc _ _ (p _ (by decide)))
    · intro o ho; cases ho
    · intro o ho
      simp only [newlineRaw, newlineEscaped, List.mem_cons, List.not_mem_nil, or_false] at ho
      rcases ho with rfl | rfl
      · first
        | exact ⟨p _ (by decide), p _ (by decide)⟩
        | exact ⟨p _ (by decide), .plain _ _ (by decide) (by decide) (.esc _ _ (p _ (by decide)))⟩
      · exact ⟨p _ (by decide), p _ (by decide)⟩

example : newlineRaw.text ≠ newlineEscaped.text ∧ newlineRaw.Closed ∧ newlineEscaped.Closed ∧
    ∃ d, readDerivation (fun _ => .panic) ⟨newlineRaw.text, .eof⟩ = .ok d ∧
      readDerivation (fun _ => .panic) ⟨newlineEscaped.text, .eof⟩ = .ok d ∧ d.getName ≠ [] ∧ NameChars d.getName :=
  ⟨by decide +kernel, newline_closed.1, newline_closed.2, newlineRaw.drv, by decide +kernel, by decide +kernel, by decide +kernel, by decide +kernel⟩

/-! ## The exact condition -/

theorem cut_at {c : UInt8} {a a' b b' : Bytes} (ha : c ∉ a) (ha' : c ∉ a') (h : a ++ c :: b = a' ++ c :: b') : a = a' ∧ b = b' := by
  induction a generalizing a' with
  | nil =>
    cases a' with
    | nil => exact ⟨rfl, by simpa using h⟩
    | cons x a' =>
      simp only [List.nil_append, List.cons_append, List.cons.injEq] at h
      exact absurd (by rw [h.1]; exact List.mem_cons_self) ha'
  | cons y a ih =>
    cases a' with
    | nil =>
      simp only [List.nil_append, List.cons_append, List.cons.injEq] at h
      exact absurd (by rw [← h.1]; exact List.mem_cons_self) ha
    | cons x a' =>
      simp only [List.cons_append, List.cons.injEq] at h
      obtain ⟨e1, e2⟩ := ih (fun m => ha (List.mem_cons_of_mem _ m)) (fun m => ha' (List.mem_cons_of_mem _ m)) h.2
      exact ⟨by rw [h.1, e1], e2⟩

theorem cut_at_last {c : UInt8} {a a' b b' : Bytes} (hb : c ∉ b) (hb' : c ∉ b') (h : a ++ c :: b = a' ++ c :: b') : a = a' ∧ b = b' := by
  have := congrArg List.reverse h
  simp only [List.reverse_append, List.reverse_cons, List.append_assoc, List.cons_append, List.nil_append] at this
  obtain ⟨e1, e2⟩ := cut_at (by simpa using hb) (by simpa using hb') this
  exact ⟨List.reverse_inj.1 e2, List.reverse_inj.1 e1⟩

theorem nameChars_colon {n : Bytes} (h : NameChars n) : (58 : UInt8) ∉ n := fun m => absurd (h _ m) (by decide)

theorem accepted_shape {s : Bytes} (h : Accepted s) : ∃ c x, s = b!"/nix/store" ++ c :: x ∧ (58 : UInt8) ∉ x := by
  obtain ⟨c, h, d, n, rfl, hh, hn⟩ := h
  refine ⟨c, h ++ d :: n, by simp, ?_⟩
  intro hm
  rcases List.mem_append.1 hm with hm | hm
  · exact absurd (hh.2 _ hm) (by decide)
  · exact nameChars_colon hn hm

theorem refs_inj {l l' : List Bytes} (h : ∀ r ∈ l, Accepted r) (h' : ∀ r ∈ l', Accepted r)
    (e : l.flatMap (fun r => r ++ b!":") = l'.flatMap (fun r => r ++ b!":")) : l = l' := by
  induction l generalizing l' with
  | nil =>
    cases l' with
    | nil => rfl
    | cons r l' => simp at e
  | cons r l ih =>
    cases l' with
    | nil => simp at e
    | cons r' l' =>
      obtain ⟨c, x, rfl, hx⟩ := accepted_shape (h r List.mem_cons_self)
      obtain ⟨c', x', rfl, hx'⟩ := accepted_shape (h' r' List.mem_cons_self)
      simp only [List.flatMap_cons, List.append_assoc, List.cons_append] at e
      simp only [List.nil_append, List.cons.injEq, true_and] at e
      obtain ⟨rfl, e2⟩ := e
      obtain ⟨rfl, e3⟩ := cut_at hx hx' e2
      rw [ih (fun r hr => h r (List.mem_cons_of_mem _ hr)) (fun r hr => h' r (List.mem_cons_of_mem _ hr)) e3]

/-- C86, exactly. For valid derivations with names that can occur in store paths: the paths are the same exactly if the names are and the
texts that are hashed have the same folded hash; those texts are the same exactly if the names and the references are and what `WriteDerivation`
writes has the same hash. -/
theorem C86_exact (H : Bytes → Bytes) (hH : ∀ x, (H x).length = 32) (d d' : Derivation) (hm : Maps d) (hm' : Maps d')
    (hv : d.validate = .ok ()) (hv' : d'.validate = .ok ()) (h0 : d.getName ≠ []) (h0' : d'.getName ≠ []) (hn : NameChars d.getName)
    (hn' : NameChars d'.getName) :
    ∃ t t' refs refs', Prints d t ∧ Prints d' t' ∧ refs.Perm (d.inputDerivations.keys ++ d.inputSources) ∧
      refs'.Perm (d'.inputDerivations.keys ++ d'.inputSources) ∧
      let x := fingerprint (join (b!"text" :: refs) b!":") (hexEncode (H t.text)) (d.getName ++ b!".drv")
      let x' := fingerprint (join (b!"text" :: refs') b!":") (hexEncode (H t'.text)) (d'.getName ++ b!".drv")
      (drvPath H d = drvPath H d' ↔ d.getName = d'.getName ∧ ∃ g, Folded (H x) g ∧ Folded (H x') g) ∧
      (x = x' ↔ d.getName = d'.getName ∧ (d.inputDerivations.keys ++ d.inputSources).Perm (d'.inputDerivations.keys ++ d'.inputSources) ∧
        H t.text = H t'.text) := by
  obtain ⟨t, refs, p, h1, h2, hs, h3, h4, _⟩ := C65_drv_path H d hm h0 hn
  obtain ⟨t', refs', p', h1', h2', hs', h3', h4', _⟩ := C65_drv_path H d' hm' h0' hn'
  refine ⟨t, t', refs, refs', h1, h1', h2, h2', ⟨?_, ?_⟩, ?_, ?_⟩
  · intro h
    rw [h3, h3'] at h
    cases Res.ok.inj h
    obtain ⟨en, hg⟩ := isNixPath_inj h4 h4'
    exact ⟨List.append_cancel_right en, hg⟩
  · rintro ⟨en, g, hg, hg'⟩
    obtain ⟨k, hk, e⟩ := h4
    obtain ⟨k', hk', e'⟩ := h4'
    rw [folded_unique hk hg, en] at e
    rw [folded_unique hk' hg'] at e'
    rw [h3, h3', e, e']
  · intro hx
    have ha : ∀ {d : Derivation} {refs : List Bytes}, d.validate = .ok () → refs.Perm (d.inputDerivations.keys ++ d.inputSources) →
        ∀ r ∈ refs, Accepted r := by
      intro d refs hv hp r hr
      have hw := ((validate_iff' d).1 hv).1
      rcases List.mem_append.1 (hp.mem_iff.1 hr) with hr | hr
      · obtain ⟨i, hi, rfl⟩ := List.mem_map.1 hr
        exact (validate_iff _).1 (hw.inputDerivations i hi).1
      · exact (validate_iff _).1 (hw.inputSources.1 r hr)
    unfold fingerprint at hx
    have hre : ∀ (a h n : Bytes), a ++ b!":sha256:" ++ h ++ b!":/nix/store:" ++ n = (a ++ b!":sha256:" ++ h ++ b!":/nix/store") ++ 58 :: n := by
      intro a h n; simp
    rw [hre, hre] at hx
    obtain ⟨e3, e4⟩ := cut_at_last (nameChars_colon (nameChars_append hn (b := b!".drv") (by decide)))
      (nameChars_colon (nameChars_append hn' (b := b!".drv") (by decide))) hx
    have e5 := List.append_cancel_right e3
    obtain ⟨e6, e7⟩ := List.append_inj' e5 (by rw [hexEncode_length, hexEncode_length, hH, hH])
    have e8 := List.append_cancel_right e6
    refine ⟨List.append_cancel_right e4, ?_, hexEncode_inj e7⟩
    have e9 : refs = refs' := by
      apply refs_inj (ha hv h2) (ha hv' h2')
      have := congrArg (· ++ b!":") e8
      simp only [join_text] at this
      exact List.append_cancel_left this
    rw [e9] at h2
    exact h2.symm.trans h2'
  · rintro ⟨en, hp, he⟩
    have : refs = refs' := by
      refine List.Perm.eq_of_pairwise (le := (· ≤ ·)) ?_ hs hs' (h2.trans (hp.trans h2'.symm))
      intro a b _ _ h1 h2
      exact List.le_antisymm h1 h2
    show fingerprint _ _ _ = fingerprint _ _ _
    rw [this, en, he]

example : Maps sampleDrv ∧ sampleDrv.validate = .ok () ∧ sampleDrv.getName ≠ [] ∧ NameChars sampleDrv.getName ∧
    Maps oneArgument ∧ oneArgument.validate = .ok () ∧ oneArgument.getName ≠ [] ∧ NameChars oneArgument.getName :=
  ⟨sampleDrv_maps, sampleDrv_valid, by decide, by decide, C86_refuted.1, C86_refuted.2.2.1, by decide, by decide⟩

/-- C61 for every text that `ReadDerivation` accepts (also the texts beyond the grammar, C99): if what was read can be written between quotes, then
`WriteDerivation` gives the bytes back exactly if they are a text of the grammar in which platform and builder contain no character that
needs escaping and each environment value is the escaped form of some value. -/
theorem C61_any_partial (jn : Bytes → Res (Option Bytes)) (b : Bytes) (d : Derivation) (hd : readDerivation jn ⟨b, .eof⟩ = .ok d)
    (hq : Quotable d) :
    d.write ⟨[], none⟩ = (.ok (), ⟨b, none⟩) ↔ ∃ t : DrvText, t.Closed ∧ b = t.text ∧
      (∀ e ∈ escapes, e.1 ∉ t.platform) ∧ (∀ e ∈ escapes, e.1 ∉ t.builder) ∧ ∀ e ∈ t.env, ∃ v, e.2 = escaped v := by
  constructor
  · intro hw
    have hm := read_maps hd
    obtain ⟨cs, h1, h2⟩ := write_chunks d
    have ht : (printed d false d.inputDerivations).text = b := by
      unfold Derivation.write at hw
      rw [h1] at hw
      have hw' : writeChunks cs ⟨[], none⟩ = (.ok (), ⟨b, none⟩) := hw
      rw [writeChunks_none, h2] at hw'
      simpa using hw'
    have hc := printed_closed hm hq d.inputDerivations hq.inputDrvs hm.inputDerivations false
    refine ⟨_, hc, ht.symm, ?_⟩
    rw [← ht] at hd hw
    exact (C61_rewrite_partial jn _ hc d hd).1 hw
  · rintro ⟨t, hc, rfl, h⟩
    exact (C61_rewrite_partial jn t hc d hd).2 h

/-- Of the texts that are accepted without being in the grammar (C99_lax) none is given back. -/
example : readDerivation (fun _ => .panic) ⟨b!"Derive([(\"out\",\"/nix/store/" ++ dHash ++ b!"-a\",\"\",\"\")],??,!!,\"x\",\"y\",[],[(\"name\",\"a\")])", .eof⟩ = .ok laxDrv ∧
    Quotable laxDrv ∧ (laxDrv.write ⟨[], none⟩).2.out ≠ b!"Derive([(\"out\",\"/nix/store/" ++ dHash ++ b!"-a\",\"\",\"\")],??,!!,\"x\",\"y\",[],[(\"name\",\"a\")])" := by
  refine ⟨(C99_reads _ _ _).2 (C99_lax _ (by simp)), ?_, by decide +kernel⟩
  refine ⟨?_, by simp [laxDrv], by simp [laxDrv], by simp [laxDrv], ?_⟩
  · intro o ho
    simp only [laxDrv, List.mem_singleton] at ho
    subst ho
    exact ⟨closed_of_plain (by decide), closed_of_plain (by decide +kernel), .nil, .nil⟩
  · intro e he
    simp only [laxDrv, List.mem_singleton] at he
    subst he
    exact closed_of_plain (by decide)

end Verif.Props
