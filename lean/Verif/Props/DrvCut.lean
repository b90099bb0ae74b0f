import Verif.Lemmas.DrvCut
import Verif.Props.DrvGrammar
import Verif.Props.Store

/-!
# C153: A truncated .drv file is never read as a derivation
-/

namespace Verif.Props
open Verif.GoLib Verif.Wire Verif.Derivation Verif.Store

theorem text_items {t : DrvText} (h : t.Closed) : ∀ x ∈ [
    bracketed (t.outputs.map fun o => tuple [quoted o.1, quoted o.2.1, quoted o.2.2.1, quoted o.2.2.2]),
    bracketed (t.inputDrvs.map fun i => tuple [quoted i.1, bracketed (i.2.map quoted)]),
    bracketed (t.inputSrcs.map quoted), quoted t.platform, quoted t.builder,
    bracketed (t.args.map quoted), bracketed (t.env.map fun e => tuple [quoted e.1, quoted e.2])], Skip x := by
  have lift : ∀ {α : Type} {l : List α} {f : α → List Bytes}, (∀ a ∈ l, ∀ x ∈ f a, Skip x) → Skip (bracketed (l.map fun a => tuple (f a))) := by
    intro α l f h
    refine skip_bracketed fun x hx => ?_
    obtain ⟨a, ha, rfl⟩ := List.mem_map.1 hx
    exact skip_tuple fun x hx => h a ha x hx
  have strs : ∀ {l : List Bytes}, (∀ s ∈ l, Closed s) → Skip (bracketed (l.map quoted)) :=
    fun h => skip_bracketed fun x hx => (items_quoted h x hx).1
  intro x hx
  simp only [List.mem_cons, List.not_mem_nil, or_false] at hx
  rcases hx with rfl | rfl | rfl | rfl | rfl | rfl | rfl
  · refine lift (f := fun o : Bytes × Bytes × Bytes × Bytes => [quoted o.1, quoted o.2.1, quoted o.2.2.1, quoted o.2.2.2]) fun o ho x hx => ?_
    obtain ⟨h1, h2, h3, h4⟩ := h.outputs o ho
    simp only [List.mem_cons, List.not_mem_nil, or_false] at hx
    rcases hx with rfl | rfl | rfl | rfl
    · exact skip_quoted h1
    · exact skip_quoted h2
    · exact skip_quoted h3
    · exact skip_quoted h4
  · refine lift (f := fun i : Bytes × List Bytes => [quoted i.1, bracketed (i.2.map quoted)]) fun o ho x hx => ?_
    obtain ⟨h1, h2⟩ := h.inputDrvs o ho
    simp only [List.mem_cons, List.not_mem_nil, or_false] at hx
    rcases hx with rfl | rfl
    · exact skip_quoted h1
    · exact strs h2
  · exact strs h.inputSrcs
  · exact skip_quoted h.platform
  · exact skip_quoted h.builder
  · exact strs h.args
  · refine lift (f := fun e : Bytes × Bytes => [quoted e.1, quoted e.2]) fun o ho x hx => ?_
    obtain ⟨h1, h2⟩ := h.env o ho
    simp only [List.mem_cons, List.not_mem_nil, or_false] at hx
    rcases hx with rfl | rfl
    · exact skip_quoted h1
    · exact skip_quoted h2

/-- What is parsed of a truncated file has no environment. -/
theorem cut_env {t : DrvText} (ht : t.Closed) {v suf : Bytes} (hs : suf ≠ []) (e : t.text = b!"Derive" ++ v ++ suf) {d : Derivation}
    (h : arrayEach v emptyDrv drvField = .ok d) : d.env = [] := by
  obtain ⟨items, hl, hc⟩ := (arrayEach_iff _ _ _ _).1 h
  by_cases h6 : 0 + items.length ≤ 6
  · rw [drvField_env items _ _ _ hc h6]; rfl
  have h7 : items.length = 7 := by
    rcases drvField_count items _ _ _ hc with rfl | h
    · simp at h6
    · omega
  have hk := text_items ht
  unfold DrvText.text at e
  rw [List.append_assoc] at e
  have e2 := List.append_cancel_left e
  clear e
  generalize hE : t.env.map (fun e => tuple [quoted e.1, quoted e.2]) = E at hk e2
  generalize bracketed (t.outputs.map fun o => tuple [quoted o.1, quoted o.2.1, quoted o.2.2.1, quoted o.2.2.2]) = a0 at hk e2
  generalize bracketed (t.inputDrvs.map fun i => tuple [quoted i.1, bracketed (i.2.map quoted)]) = a1 at hk e2
  generalize bracketed (t.inputSrcs.map quoted) = a2 at hk e2
  generalize quoted t.platform = a3 at hk e2
  generalize quoted t.builder = a4 at hk e2
  generalize bracketed (t.args.map quoted) = a5 at hk e2
  obtain ⟨last, rest, n, rfl, hcut, hp, hr⟩ := listing_cut (o := 40) (c := 41) (.inr rfl) (init := [a0, a1, a2, a3, a4, a5]) (last := bracketed E) hk hl
    (by simpa using h7) hs e2
  simp only [List.cons_append, List.nil_append, callEach_cons_ok] at hc
  obtain ⟨d1, _, d2, _, d3, _, d4, _, d5, _, d6, _, d7, hc, hd⟩ := hc
  cases Res.ok.inj hd
  simp only [drvField, Nat.reduceAdd, Nat.reduceEqDiff, if_false, if_true, Res.bind_eq_ok] at hc
  obtain ⟨m, g, g'⟩ := hc
  cases Res.ok.inj g'
  show m.1 = []
  obtain ⟨its, hl', hc'⟩ := (arrayEach_iff _ _ _ _).1 g
  by_cases hits : its = []
  · subst hits
    cases hc'
    rfl
  exfalso
  have hb : ∃ o c w, Brackets o c ∧ last = [o] ++ w ++ [c] := by
    cases hl' with
    | two a b => exact absurd rfl hits
    | all hb _ _ _ => exact ⟨_, _, _, hb, rfl⟩
    | @dropped o c _ p tail n hb _ _ _ => exact ⟨o, c, its.flatMap (fun x => x ++ b!",") ++ p ++ tail, hb, by simp⟩
  obtain ⟨o, c, w, hb, rfl⟩ := hb
  have hw0 : Clean (b!"[" ++ join E b!",") := by
    subst hE
    refine Clean.append (by unfold Clean; decide) (clean_join fun x hx => ?_)
    obtain ⟨a, ha, rfl⟩ := List.mem_map.1 hx
    obtain ⟨h1, h2⟩ := ht.env a ha
    refine clean_tuple fun y hy => ?_
    simp only [List.mem_cons, List.not_mem_nil, or_false] at hy
    rcases hy with rfl | rfl
    · exact clean_quoted h1
    · exact clean_quoted h2
  unfold bracketed at hcut
  have ho : o = 91 := by
    have := congrArg List.head? hcut
    simpa using this.symm
  subst ho
  have hc93 : c = 93 := by
    rcases hb with h | h
    · exact h.2
    · exact absurd h.1 (by decide)
  subst hc93
  have hr' : rest = rest.dropLast ++ [rest.getLast hr] := (List.dropLast_concat_getLast hr).symm
  rw [hr', ← List.append_assoc] at hcut
  exact clean_cut hw0 hp (List.append_inj' hcut rfl).1

/-- C153: no strict beginning of the text of a derivation is read as a derivation, whichever way the stream ends: an error is returned
(no panic either, not even with `__json`). -/
theorem C153_truncated (jsonName : Bytes → Res (Option Bytes)) (t : DrvText) (ht : t.Closed) (b rest : Bytes) (h : t.text = b ++ rest) (hr : rest ≠ []) (term : Err) :
    ∃ e, readDerivation jsonName ⟨b, term⟩ = .err e := by
  unfold readDerivation
  by_cases hterm : term = .eof
  case neg => exact ⟨term, if_pos hterm⟩
  rw [if_neg (by simpa using hterm)]
  unfold parseDerivation
  show ∃ e, ((if b.length < 8 then _ else _) >>= _) = _
  by_cases hl : b.length < 8
  · rw [if_pos hl]; exact ⟨_, rfl⟩
  rw [if_neg hl]
  have hb : b = b!"Derive" ++ b.drop 6 := by
    have : b.take 6 = b!"Derive" := by
      have h2 := congrArg (List.take 6) h
      rw [List.take_append_of_le_length (by omega)] at h2
      rw [← h2]; rfl
    rw [← this]; exact (List.take_append_drop 6 b).symm
  have ht6 : b.take 6 = b!"Derive" := by rw [hb]; rfl
  rw [if_neg (by rw [ht6]; simp)]
  cases ha : arrayEach (b.drop 6) emptyDrv drvField with
  | panic => exact absurd ha (fields_ne_panic _)
  | err e => exact ⟨e, rfl⟩
  | ok d =>
    have he := cut_env ht hr (by rw [h]; rw [← hb]) ha
    rw [Res.bind_ok, he]
    show ∃ e, (d.validate >>= fun _ => Res.ok d) = _
    cases hv : d.validate with
    | err e => exact ⟨e, rfl⟩
    | panic => exact absurd hv (validate_ne_panic d)
    | ok u =>
      have := ((validate_iff' d).1 hv).2
      rw [he] at this
      simp [GoMap.keys, nameEnv] at this

/-- A small derivation, with brackets in its strings. -/
def cutText : DrvText := ⟨[(b!"out", b!"/nix/store/" ++ dHash ++ b!"-a", [], [])], [], [], b!"x", b!"y", [b!"a)]"], [(b!"name", b!"a)]")]⟩

/-- A case that meets the hypotheses: the file without its last byte (which ends with the bracket that closes the environment). -/
example : ∃ t : DrvText, t.Closed ∧ t.env ≠ [] ∧ ∃ b, t.text = b ++ b!")" ∧ (∃ d, readDerivation (fun _ => .panic) ⟨t.text, .eof⟩ = .ok d) ∧
    ∃ e, readDerivation (fun _ => .panic) ⟨b, .eof⟩ = .err e := by
  refine ⟨cutText, ?_, by simp [cutText], ?_⟩
  · have hz : ∀ s : Bytes, (∀ c ∈ s, c ≠ 34 ∧ c ≠ 92) → Closed s := by
      intro s
      induction s with
      | nil => intro _; exact .nil
      | cons c s ih => intro h; exact .plain c s (h c (by simp)).1 (h c (by simp)).2 (ih fun x hx => h x (by simp [hx]))
    constructor <;> simp only [cutText, List.mem_cons, List.not_mem_nil, or_false, forall_eq, false_implies, implies_true]
    · exact ⟨hz _ (by decide), hz _ (by decide), .nil, .nil⟩
    · exact hz _ (by decide)
    · exact hz _ (by decide)
    · exact hz _ (by decide)
    · exact ⟨hz _ (by decide), hz _ (by decide)⟩
  · refine ⟨cutText.text.dropLast, by decide +kernel, ⟨⟨[], [(b!"out", ⟨b!"/nix/store/" ++ dHash ++ b!"-a", [], []⟩)], [], [], b!"x", b!"y", [b!"a)]"], [(b!"name", b!"a)]")]⟩, ?_⟩, ?_⟩
    · decide +kernel
    · exact ⟨.msg "array not closed", by decide +kernel⟩

/-- C153 is about files in the format of Nix: among the other texts that the parser accepts (C99_lax) there is one with a strict beginning that it accepts, too. -/
theorem C153_lax : ∃ b rest : Bytes, rest ≠ [] ∧ readDerivation (fun _ => .panic) ⟨b, .eof⟩ = .ok laxDrv ∧ readDerivation (fun _ => .panic) ⟨b ++ rest, .eof⟩ = .ok laxDrv :=
  ⟨b!"Derive([(\"out\",\"/nix/store/" ++ dHash ++ b!"-a\",\"\",\"\")],[],[],\"x\",\"y\",[],[(\"name\",\"a\")],\"a)", b!"b)", by simp, by decide +kernel, by decide +kernel⟩

/-- C153: what `WriteDerivation` has written when it fails is not read as a derivation. -/
theorem C153_failed_write (jsonName : Bytes → Res (Option Bytes)) (d : Derivation) (hm : Maps d) (hq : Quotable d) (k : Nat)
    (h : (d.write ⟨[], some k⟩).1 ≠ .ok ()) : ∃ e, readDerivation jsonName ⟨(d.write ⟨[], some k⟩).2.out, .eof⟩ = .err e := by
  obtain ⟨cs, h1, h2⟩ := write_chunks d
  obtain ⟨b, hb, hk⟩ := C83_sink_failure d
  have hbt : b = cs.flatten := by
    unfold Derivation.write at hb
    rw [h1] at hb
    have hb : writeChunks cs ⟨[], none⟩ = (.ok (), ⟨b, none⟩) := hb
    rw [writeChunks_none] at hb
    have := congrArg (fun x => x.2.out) hb
    simpa using this.symm
  have hk := hk k
  split at hk
  · rw [hk] at h; exact absurd rfl h
  rename_i hlen
  rw [hk]
  have e : b = b.take k ++ b.drop k := (List.take_append_drop k b).symm
  refine C153_truncated jsonName _ (printed_closed hm hq _ hq.inputDrvs hm.inputDerivations false) _ (b.drop k) ?_ ?_ .eof
  · rw [← e, hbt, h2]
  · intro e'
    have := congrArg List.length e'
    simp at this
    omega

/-- The hypotheses can be met: a writer that fails after 20 bytes. -/
example : Maps sampleDrv ∧ Quotable sampleDrv ∧ (sampleDrv.write ⟨[], some 20⟩).1 ≠ .ok () := ⟨sampleDrv_maps, sampleDrv_raw.quotable, by decide +kernel⟩

/-- C153: neither is a truncated file delivered by a store: the directory, the server and the database return an error. -/
theorem C153_stores (jsonName : Bytes → Res (Option Bytes)) (t : DrvText) (ht : t.Closed) (b rest : Bytes) (h : t.text = b ++ rest) (hr : rest ≠ []) (p : Bytes) :
    (∀ os fs term, os.openFile (FSStore.getFilepath fs p) = .ok ⟨b, term⟩ → ∃ e, FSStore.get jsonName os fs p = .err e) ∧
    (∀ request hs u status term, hs.constructRequest p = .ok u → request b!"GET" u = .ok ⟨status, ⟨b, term⟩⟩ → ∃ e, HTTPStore.get jsonName request hs p = .err e) ∧
    (∀ db : Badger, db.get? (b!"drv:" ++ p) = some b → ∃ e, db.getDrv jsonName p = .err e) := by
  refine ⟨?_, ?_, ?_⟩
  · intro os fs term ho
    obtain ⟨e, he⟩ := C153_truncated jsonName t ht b rest h hr term
    unfold FSStore.get
    rw [ho, Res.bind_ok, he]
    exact ⟨_, rfl⟩
  · intro request hs u status term hu hq
    obtain ⟨e, he⟩ := C153_truncated jsonName t ht b rest h hr .eof
    unfold HTTPStore.get
    rw [hu, Res.bind_ok, hq, Res.bind_ok]
    simp only
    rw [he]
    split
    · exact ⟨_, rfl⟩
    split
    · exact ⟨_, rfl⟩
    · exact ⟨_, rfl⟩
  · intro db hg
    unfold Badger.getDrv
    rw [hg]
    exact C153_truncated jsonName t ht b rest h hr .eof

end Verif.Props
