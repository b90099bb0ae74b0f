import Verif.Lemmas.DrvValidate

/-! # Reading and writing derivations -/

namespace Verif.Derivation
open Verif.GoLib Verif.Wire

theorem writeChunks_none (cs : List Bytes) (o : Bytes) :
    writeChunks cs ⟨o, none⟩ = (.ok (), ⟨o ++ cs.flatten, none⟩) := by
  induction cs generalizing o with
  | nil => simp [writeChunks]
  | cons c cs ih =>
    have h : writeAll c ⟨o, none⟩ = (.ok (), ⟨o ++ c, none⟩) := rfl
    rw [writeChunks, M.bind_ok h, ih]
    simp

theorem writeChunks_some (cs : List Bytes) (o : Bytes) (k : Nat) :
    writeChunks cs ⟨o, some k⟩ =
      if cs.flatten.length ≤ k then (.ok (), ⟨o ++ cs.flatten, some (k - cs.flatten.length)⟩)
      else (.err .io, ⟨o ++ cs.flatten.take k, some 0⟩) := by
  induction cs generalizing o k with
  | nil => simp [writeChunks]
  | cons c cs ih =>
    rw [writeChunks]
    by_cases hc : c.length ≤ k
    · have : writeAll c ⟨o, some k⟩ = (.ok (), ⟨o ++ c, some (k - c.length)⟩) := by
        unfold writeAll Sink.write
        simp [hc]
      rw [M.bind_ok this, ih]
      simp only [List.flatten_cons, List.length_append]
      by_cases h2 : cs.flatten.length ≤ k - c.length
      · rw [if_pos h2, if_pos (by omega)]
        simp only [List.append_assoc, Nat.sub_sub]
      · rw [if_neg h2, if_neg (by omega)]
        rw [List.take_append, List.take_of_length_le hc]
        simp
    · have : writeAll c ⟨o, some k⟩ = (.err .io, ⟨o ++ c.take k, some 0⟩) := by
        unfold writeAll Sink.write
        simp [hc]
      rw [M.bind_err this, if_neg (by simp; omega)]
      rw [List.flatten_cons, List.take_append]
      have : k - c.length = 0 := by omega
      simp [this]

theorem write_chunks (d : Derivation) : ∃ cs, writeDerivation d false [] = .ok cs ∧
    cs.flatten = (printed d false d.inputDerivations).text := by
  have := aterm_nil d false
  unfold aterm at this
  rw [Res.bind_eq_ok] at this
  obtain ⟨cs, h1, h2⟩ := this
  exact ⟨cs, h1, by simpa using h2⟩

theorem sortedEntries_self {α : Type} (dflt : α) {m : GoMap α} (h : m.keys.Pairwise (· < ·)) : sortedEntries dflt m = m := by
  have hn := pairwise_lt_nodup h
  have hp := sortedEntries_perm dflt hn
  have hl := sortedEntries_lt dflt hn
  unfold GoMap.keys at h
  rw [List.pairwise_map] at hl h
  exact hp.eq_of_pairwise (fun a b _ _ h1 h2 => absurd (List.lt_trans h1 h2) (List.lt_irrefl _)) hl h

theorem increasing_of {l : List Bytes} (h : l.Pairwise (· < ·)) (hne : ∀ k ∈ l, k ≠ []) : Increasing l := by
  unfold Increasing
  rw [List.pairwise_cons]
  refine ⟨?_, h⟩
  intro k hk
  cases k with
  | nil => exact absurd rfl (hne [] hk)
  | cons a k => exact List.nil_lt_cons a k

theorem text_length (t : DrvText) : ¬ t.text.length < 8 := by
  simp [DrvText.text, tuple]

theorem text_take (t : DrvText) : t.text.take 6 = b!"Derive" := rfl

/-- The derivation with the name from `__json`, if any. -/
def withName (jsonName : Bytes → Res (Option Bytes)) (d : Derivation) : Res Derivation :=
  match d.env.get? b!"__json" with
  | none => .ok d
  | some j => do
    let n ← attrsName (jsonName j)
    .ok { d with name := n }

theorem parseDerivation_text (jsonName : Bytes → Res (Option Bytes)) {t : DrvText} (h : t.Closed) (d : Derivation) :
    parseDerivation jsonName t.text = .ok d ↔ t.Ordered ∧ withName jsonName t.drv = .ok d := by
  unfold parseDerivation
  rw [if_neg (text_length t), if_neg (by rw [text_take]; simp)]
  rw [Res.bind_eq_ok]
  constructor
  · rintro ⟨d', h1, h2⟩
    obtain ⟨ho, rfl⟩ := (parse_text h d').1 h1
    exact ⟨ho, h2⟩
  · rintro ⟨ho, h2⟩
    exact ⟨t.drv, (parse_text h _).2 ⟨ho, rfl⟩, h2⟩

theorem storepath_ne_nil {p : Bytes} (h : Storepath.validate p = .ok ()) : p ≠ [] := by
  rintro rfl
  revert h; decide

theorem printed_closed {d : Derivation} (hm : Maps d) (hr : Quotable d) (m : GoMap (List Bytes))
    (hi : ∀ i ∈ m, Closed i.1 ∧ ∀ s ∈ i.2, Closed s) (hk : m.keys.Nodup) (strip : Bool) : (printed d strip m).Closed where
  outputs := by
    intro o ho
    simp only [printed] at ho
    obtain ⟨x, hx, rfl⟩ := List.mem_map.1 ho
    have := hr.outputs x ((sortedEntries_perm _ hm.outputs).mem_iff.1 hx)
    refine ⟨this.1, ?_, this.2.2.1, this.2.2.2⟩
    show Closed (if strip = true then [] else x.2.path)
    cases strip
    · exact this.2.1
    · exact .nil
  inputDrvs := fun i h => hi i ((sortedEntries_perm _ hk).mem_iff.1 h)
  inputSrcs := hr.inputSrcs
  platform := closed_escaped _
  builder := closed_escaped _
  args := hr.args
  env := by
    intro e he
    simp only [printed] at he
    obtain ⟨x, hx, rfl⟩ := List.mem_map.1 he
    have := hr.env x ((sortedEntries_perm _ hm.env).mem_iff.1 hx)
    exact ⟨this, closed_escaped _⟩

theorem prints_ordered {d : Derivation} {t : DrvText} (hp : Prints d t) (hw : WellFormed d) : t.Ordered := by
  refine ⟨increasing_of hp.outputs_order ?_, increasing_of hp.inputDrvs_order ?_, increasing_of hp.env_order ?_⟩
  · intro k hk
    obtain ⟨o, ho, rfl⟩ := List.mem_map.1 hk
    exact (hw.outputs _ (hp.outputs.mem_iff.1 (List.mem_map.2 ⟨o, ho, rfl⟩))).1
  · intro k hk
    obtain ⟨o, ho, rfl⟩ := List.mem_map.1 hk
    exact storepath_ne_nil (hw.inputDerivations _ (hp.inputDrvs.mem_iff.1 ho)).1
  · intro k hk
    obtain ⟨o, ho, rfl⟩ := List.mem_map.1 hk
    obtain ⟨e, he, heq⟩ := List.mem_map.1 (hp.env.mem_iff.1 ho)
    have := hw.env e he
    rw [← heq]; exact this

theorem prints_drv {d : Derivation} {t : DrvText} (hp : Prints d t) (hr : RawClosed d) :
    Same { d with name := [] } t.drv where
  name := rfl
  outputs := hp.outputs.symm
  inputSources := hp.inputSrcs.symm
  inputDerivations := hp.inputDrvs.symm
  platform := by show d.platform = t.platform; rw [hp.platform, escaped_plain hr.platform]
  builder := by show d.builder = t.builder; rw [hp.builder, escaped_plain hr.builder]
  arguments := hp.args.symm
  env := by
    show d.env.Perm (t.env.map fun e => (e.1, unescape e.2))
    have := (hp.env.map fun e : Bytes × Bytes => (e.1, unescape e.2)).symm
    rw [List.map_map] at this
    have h2 : ((fun e : Bytes × Bytes => (e.1, unescape e.2)) ∘ fun e => (e.1, escaped e.2)) = id := by
      funext e; simp [unescape_escaped]
    rw [h2, List.map_id] at this
    exact this

/-- Two derivations with the same text between the quotes. -/
theorem prints_same {d d' : Derivation} {t : DrvText} (hp : Prints d t) (hp' : Prints d' t) (hn : d.name = d'.name) : Same d d' := by
  have hinj : ∀ {a b : Bytes}, escaped a = escaped b → a = b := fun {a b} h => by
    rw [← unescape_escaped a, h, unescape_escaped]
  refine ⟨hn, hp.outputs.symm.trans hp'.outputs, hp.inputSrcs.symm.trans hp'.inputSrcs, hp.inputDrvs.symm.trans hp'.inputDrvs,
    hinj (hp.platform.symm.trans hp'.platform), hinj (hp.builder.symm.trans hp'.builder), hp.args.symm.trans hp'.args, ?_⟩
  have := (hp.env.symm.trans hp'.env).map fun e : Bytes × Bytes => (e.1, unescape e.2)
  rw [List.map_map, List.map_map] at this
  have h2 : ((fun e : Bytes × Bytes => (e.1, unescape e.2)) ∘ fun e => (e.1, escaped e.2)) = id := by
    funext e; simp [unescape_escaped]
  rw [h2, List.map_id, List.map_id] at this
  exact this

/-- The verdict on the name does not depend on the order, except in one case. -/
theorem nameEnv_perm {name : Bytes} {l l' : List Bytes} (hp : l.Perm l')
    (h : ¬ (b!"name" ∈ l ∧ b!"__json" ∈ l ∧ name = [])) : nameEnv name false l = nameEnv name false l' := by
  rw [Bool.eq_iff_iff]
  by_cases hn : name = []
  · subst hn
    by_cases hj : b!"__json" ∈ l
    · have hnn : b!"name" ∉ l := fun e => h ⟨e, hj, rfl⟩
      rw [nameEnv_noname hnn, nameEnv_noname (fun e => hnn (hp.mem_iff.2 e))]
    · rw [nameEnv_nojson l hj, nameEnv_nojson l' (fun e => hj (hp.mem_iff.2 e)), hp.mem_iff]
  · rw [nameEnv_ne hn, nameEnv_ne hn, hp.mem_iff, hp.mem_iff]

theorem validate_same {d d' : Derivation} (h : Same d d')
    (hc : ¬ (b!"name" ∈ d.env.keys ∧ b!"__json" ∈ d.env.keys ∧ d.name = [])) :
    d.validate = .ok () ↔ d'.validate = .ok () := by
  rw [validate_iff', validate_iff', nameEnv_perm (keys_perm h.env) hc, h.name]
  constructor
  · rintro ⟨h1, h2⟩; exact ⟨h1.same h, h2⟩
  · rintro ⟨h1, h2⟩; exact ⟨h1.same h.symm, h2⟩

/-! ## Unique readability -/

theorem quoted_inj {a b : Bytes} (h : quoted a = quoted b) : a = b := by
  have h1 := unquoteSlice_quoted a
  rw [h, unquoteSlice_quoted] at h1
  exact (Res.ok.inj h1).symm

theorem bracketed_inj {l l' : List Bytes} (h : bracketed l = bracketed l') (h1 : ∀ x ∈ l, Skip x ∧ x ≠ [])
    (h2 : ∀ x ∈ l', Skip x ∧ x ≠ []) : l = l' := by
  have e1 := arrayItems_bracketed (fun x hx => (h1 x hx).1) (fun x hx => (h1 x hx).2)
  rw [h, arrayItems_bracketed (fun x hx => (h2 x hx).1) (fun x hx => (h2 x hx).2)] at e1
  exact (Res.ok.inj e1).symm

theorem tuple_inj {l l' : List Bytes} (h : tuple l = tuple l') (h1 : ∀ x ∈ l, Skip x ∧ x ≠ [])
    (h2 : ∀ x ∈ l', Skip x ∧ x ≠ []) : l = l' := by
  have e1 := arrayItems_tuple (fun x hx => (h1 x hx).1) (fun x hx => (h1 x hx).2)
  rw [h, arrayItems_tuple (fun x hx => (h2 x hx).1) (fun x hx => (h2 x hx).2)] at e1
  exact (Res.ok.inj e1).symm

theorem map_inj_on {α β : Type} {f : α → β} {l l' : List α} (h : l.map f = l'.map f)
    (hf : ∀ a ∈ l, ∀ b ∈ l', f a = f b → a = b) : l = l' := by
  induction l generalizing l' with
  | nil => cases l' with
    | nil => rfl
    | cons b l' => simp at h
  | cons a l ih =>
    cases l' with
    | nil => simp at h
    | cons b l' =>
      simp only [List.map_cons, List.cons.injEq] at h
      rw [hf a (by simp) b (by simp) h.1, ih h.2 (fun x hx y hy => hf x (by simp [hx]) y (by simp [hy]))]

theorem items_quoted {l : List Bytes} (h : ∀ s ∈ l, Closed s) : ∀ x ∈ l.map quoted, Skip x ∧ x ≠ [] := by
  intro x hx
  obtain ⟨s, hs, rfl⟩ := List.mem_map.1 hx
  exact ⟨skip_quoted (h s hs), quoted_ne_nil _⟩

theorem list_quoted_inj {l l' : List Bytes} (h : bracketed (l.map quoted) = bracketed (l'.map quoted))
    (h1 : ∀ s ∈ l, Closed s) (h2 : ∀ s ∈ l', Closed s) : l = l' :=
  map_inj_on (bracketed_inj h (items_quoted h1) (items_quoted h2)) fun _ _ _ _ e => quoted_inj e

theorem text_inj {t t' : DrvText} (h : t.Closed) (h' : t'.Closed) (he : t.text = t'.text) : t = t' := by
  have hb := @skip_bracketed
  have io : ∀ {t : DrvText}, t.Closed → ∀ o ∈ t.outputs, ∀ x ∈ [quoted o.1, quoted o.2.1, quoted o.2.2.1, quoted o.2.2.2],
      Skip x ∧ x ≠ [] := by
    intro t h o ho x hx
    have := h.outputs o ho
    simp at hx
    rcases hx with rfl | rfl | rfl | rfl
    · exact ⟨skip_quoted this.1, quoted_ne_nil _⟩
    · exact ⟨skip_quoted this.2.1, quoted_ne_nil _⟩
    · exact ⟨skip_quoted this.2.2.1, quoted_ne_nil _⟩
    · exact ⟨skip_quoted this.2.2.2, quoted_ne_nil _⟩
  have ii : ∀ {t : DrvText}, t.Closed → ∀ i ∈ t.inputDrvs, ∀ x ∈ [quoted i.1, bracketed (i.2.map quoted)],
      Skip x ∧ x ≠ [] := by
    intro t h o ho x hx
    have := h.inputDrvs o ho
    simp at hx
    rcases hx with rfl | rfl
    · exact ⟨skip_quoted this.1, quoted_ne_nil _⟩
    · exact ⟨skip_bracketed fun x hx => (items_quoted this.2 x hx).1, bracketed_ne_nil _⟩
  have ie : ∀ {t : DrvText}, t.Closed → ∀ e ∈ t.env, ∀ x ∈ [quoted e.1, quoted e.2], Skip x ∧ x ≠ [] := by
    intro t h o ho x hx
    have := h.env o ho
    simp at hx
    rcases hx with rfl | rfl
    · exact ⟨skip_quoted this.1, quoted_ne_nil _⟩
    · exact ⟨skip_quoted this.2, quoted_ne_nil _⟩
  have lift : ∀ {α : Type} {l : List α} {f : α → List Bytes}, (∀ a ∈ l, ∀ x ∈ f a, Skip x ∧ x ≠ []) →
      ∀ x ∈ l.map (fun a => tuple (f a)), Skip x ∧ x ≠ [] := by
    intro α l f h x hx
    obtain ⟨a, ha, rfl⟩ := List.mem_map.1 hx
    exact ⟨skip_tuple fun x hx => (h a ha x hx).1, tuple_ne_nil _⟩
  have fields : ∀ {t : DrvText}, t.Closed → ∀ x ∈ [
    bracketed (t.outputs.map fun o => tuple [quoted o.1, quoted o.2.1, quoted o.2.2.1, quoted o.2.2.2]),
    bracketed (t.inputDrvs.map fun i => tuple [quoted i.1, bracketed (i.2.map quoted)]),
    bracketed (t.inputSrcs.map quoted), quoted t.platform, quoted t.builder,
    bracketed (t.args.map quoted), bracketed (t.env.map fun e => tuple [quoted e.1, quoted e.2])], Skip x ∧ x ≠ [] := by
    intro t h x hx
    simp only [List.mem_cons, List.not_mem_nil, or_false] at hx
    rcases hx with rfl | rfl | rfl | rfl | rfl | rfl | rfl
    · exact ⟨skip_bracketed fun x hx => (lift (io h) x hx).1, bracketed_ne_nil _⟩
    · exact ⟨skip_bracketed fun x hx => (lift (ii h) x hx).1, bracketed_ne_nil _⟩
    · exact ⟨skip_bracketed fun x hx => (items_quoted h.inputSrcs x hx).1, bracketed_ne_nil _⟩
    · exact ⟨skip_quoted h.platform, quoted_ne_nil _⟩
    · exact ⟨skip_quoted h.builder, quoted_ne_nil _⟩
    · exact ⟨skip_bracketed fun x hx => (items_quoted h.args x hx).1, bracketed_ne_nil _⟩
    · exact ⟨skip_bracketed fun x hx => (lift (ie h) x hx).1, bracketed_ne_nil _⟩
  unfold DrvText.text at he
  have he := tuple_inj (List.append_cancel_left he) (fields h) (fields h')
  simp only [List.cons.injEq, and_true] at he
  obtain ⟨e1, e2, e3, e4, e5, e6, e7⟩ := he
  have e1 := map_inj_on (bracketed_inj e1 (lift (io h)) (lift (io h'))) (by
    rintro ⟨a, b, c, d⟩ ha ⟨a', b', c', d'⟩ ha' e
    have := tuple_inj e (io h _ ha) (io h' _ ha')
    simp only [List.cons.injEq, and_true] at this
    rw [quoted_inj this.1, quoted_inj this.2.1, quoted_inj this.2.2.1, quoted_inj this.2.2.2])
  have e2 := map_inj_on (bracketed_inj e2 (lift (ii h)) (lift (ii h'))) (by
    rintro ⟨a, b⟩ ha ⟨a', b'⟩ ha' e
    have := tuple_inj e (ii h _ ha) (ii h' _ ha')
    simp only [List.cons.injEq, and_true] at this
    rw [quoted_inj this.1, list_quoted_inj this.2 (h.inputDrvs _ ha).2 (h'.inputDrvs _ ha').2])
  have e3 := list_quoted_inj e3 h.inputSrcs h'.inputSrcs
  have e6 := list_quoted_inj e6 h.args h'.args
  have e7 := map_inj_on (bracketed_inj e7 (lift (ie h)) (lift (ie h'))) (by
    rintro ⟨a, b⟩ ha ⟨a', b'⟩ ha' e
    have := tuple_inj e (ie h _ ha) (ie h' _ ha')
    simp only [List.cons.injEq, and_true] at this
    rw [quoted_inj this.1, quoted_inj this.2])
  obtain ⟨o, i, s, p, b, a, e⟩ := t
  obtain ⟨o', i', s', p', b', a', e'⟩ := t'
  simp only [DrvText.mk.injEq]
  exact ⟨e1, e2, e3, quoted_inj e4, quoted_inj e5, e6, e7⟩

end Verif.Derivation
