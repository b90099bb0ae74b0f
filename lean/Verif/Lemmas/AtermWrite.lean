import Verif.Lemmas.Aterm

/-! # Writing ATerm text -/

namespace Verif.Derivation
open Verif.GoLib

/-- the entries of a map in the order of the keys -/
def sortedEntries {α : Type} (dflt : α) (m : GoMap α) : List (Bytes × α) :=
  (sortStrings m.keys).map fun k => (k, (m.get? k).getD dflt)

theorem sortedEntries_keys {α : Type} (dflt : α) (m : GoMap α) :
    (sortedEntries dflt m).map (·.1) = sortStrings m.keys := by
  unfold sortedEntries
  rw [List.map_map]
  exact List.map_id' _

theorem sortedEntries_perm {α : Type} (dflt : α) {m : GoMap α} (h : m.keys.Nodup) : (sortedEntries dflt m).Perm m := by
  have h1 : (sortedEntries dflt m).Perm (m.keys.map fun k => (k, (m.get? k).getD dflt)) := (sortStrings_perm _).map _
  have h2 : (m.keys.map fun k => (k, (m.get? k).getD dflt)) = m := by
    unfold GoMap.keys
    rw [List.map_map]
    conv => rhs; rw [← List.map_id m]
    apply List.map_congr_left
    intro p hp
    obtain ⟨k, v⟩ := p
    simp [GoMap.get?_of_mem h hp]
  rw [h2] at h1
  exact h1

theorem sortedEntries_lt {α : Type} (dflt : α) {m : GoMap α} (h : m.keys.Nodup) :
    ((sortedEntries dflt m).map (·.1)).Pairwise (· < ·) := by
  rw [sortedEntries_keys]
  exact sorted_nodup_lt (sortStrings_sorted _) (sortStrings_nodup h)

theorem keys_perm {α : Type} {m m' : GoMap α} (h : m.Perm m') : m.keys.Perm m'.keys := h.map _

theorem sortedEntries_congr {α : Type} (dflt : α) {m m' : GoMap α} (hn : m.keys.Nodup) (h : m.Perm m') :
    sortedEntries dflt m = sortedEntries dflt m' := by
  unfold sortedEntries
  rw [sortStrings_congr (keys_perm h)]
  apply List.map_congr_left
  intro k _
  rw [GoMap.get?_perm hn h]

/-- What `writeDerivation` writes, as a text. -/
def printed (d : Derivation) (strip : Bool) (inputs : GoMap (List Bytes)) : DrvText where
  outputs := (sortedEntries ⟨[], [], []⟩ d.outputs).map fun o =>
    (o.1, if strip then [] else o.2.path, o.2.hashAlgorithm, o.2.hash)
  inputDrvs := sortedEntries [] inputs
  inputSrcs := d.inputSources
  platform := escaped d.platform
  builder := escaped d.builder
  args := d.arguments
  env := (sortedEntries [] d.env).map fun e =>
    (e.1, escaped (if strip ∧ (d.outputs.get? e.1).isSome then [] else e.2))

/-- comma unless first -/
def sep (first : Bool) (l : List Bytes) : Bytes := if first ∨ l = [] then join l b!"," else b!"," ++ join l b!","

theorem sep_true (l : List Bytes) : sep true l = join l b!"," := by simp [sep]

theorem sep_cons (first : Bool) (a : Bytes) (l : List Bytes) :
    sep first (a :: l) = (if first then [] else b!",") ++ a ++ sep false l := by
  unfold sep
  cases l with
  | nil => cases first <;> simp [join]
  | cons b l => cases first <;> simp [join]

theorem elemWrites_flatten (quote first : Bool) (l : List Bytes) :
    (elemWrites quote first l).flatten = sep first (if quote then l.map quoted else l) := by
  induction l generalizing first with
  | nil => cases quote <;> cases first <;> simp [elemWrites, sep, join]
  | cons a l ih =>
    rw [elemWrites, List.flatten_append, ih]
    cases quote
    · simp only [Bool.false_eq_true, if_false, sep_cons]
      cases first <;> simp
    · simp only [if_true, List.map_cons, sep_cons]
      cases first <;> simp [quoted]

theorem writeArrayElems_quoted (o c : Bytes) (l : List Bytes) :
    (writeArrayElems true o c l).flatten = o ++ join (l.map quoted) b!"," ++ c := by
  unfold writeArrayElems
  simp [elemWrites_flatten, sep_true]

theorem writeArrayElems_plain (o c : Bytes) (l : List Bytes) :
    (writeArrayElems false o c l).flatten = o ++ join l b!"," ++ c := by
  unfold writeArrayElems
  simp [elemWrites_flatten, sep_true]

theorem outputWrites_flatten (d : Derivation) (strip first : Bool) (names : List Bytes) :
    (outputWrites d strip first names).flatten = sep first (names.map fun n =>
      tuple [quoted n, quoted (if strip then [] else ((d.outputs.get? n).getD ⟨[], [], []⟩).path),
        quoted ((d.outputs.get? n).getD ⟨[], [], []⟩).hashAlgorithm, quoted ((d.outputs.get? n).getD ⟨[], [], []⟩).hash]) := by
  induction names generalizing first with
  | nil => cases first <;> simp [outputWrites, sep, join]
  | cons n names ih =>
    rw [outputWrites]
    simp only [List.flatten_append, ih, writeArrayElems_quoted, List.map_cons, sep_cons]
    cases first <;> simp [tuple]

theorem inputDrvWrites_flatten (m : GoMap (List Bytes)) (first : Bool) (paths : List Bytes) :
    (inputDrvWrites m first paths).flatten = sep first (paths.map fun p =>
      tuple [quoted p, bracketed (((m.get? p).getD []).map quoted)]) := by
  induction paths generalizing first with
  | nil => cases first <;> simp [inputDrvWrites, sep, join]
  | cons n names ih =>
    rw [inputDrvWrites]
    simp only [List.flatten_append, ih, writeArrayElems_quoted, List.map_cons, sep_cons]
    cases first <;> simp [tuple, bracketed, quoted, join]

theorem envWrites_flatten (d : Derivation) (strip first : Bool) (keys : List Bytes) :
    (envWrites d strip first keys).flatten = sep first (keys.map fun k =>
      tuple [quoted k, quoted (escaped (if strip ∧ (d.outputs.get? k).isSome then [] else (d.env.get? k).getD []))]) := by
  induction keys generalizing first with
  | nil => cases first <;> simp [envWrites, sep, join]
  | cons n names ih =>
    rw [envWrites]
    simp only [List.flatten_append, ih, writeArrayElems_plain, List.map_cons, sep_cons, escapeString_eq]
    cases first <;> simp [tuple, join, quoted]

theorem aterm_eq (d : Derivation) (strip : Bool) (repl : GoMap Bytes) :
    aterm d strip repl = (writtenInputs d repl >>= fun m => .ok (printed d strip m).text) := by
  unfold aterm writeDerivation
  cases h : writtenInputs d repl with
  | err e => rfl
  | panic => rfl
  | ok m =>
    simp only [Res.bind_ok]
    refine congrArg Res.ok ?_
    simp only [List.flatten_append, outputWrites_flatten, inputDrvWrites_flatten, envWrites_flatten,
      writeArrayElems_quoted, sep_true, escapeString_eq]
    unfold DrvText.text printed sortedEntries
    simp only [List.map_map, Function.comp_def, tuple, bracketed, join]
    generalize join (List.map _ (sortStrings d.outputs.keys)) _ = A
    generalize join (List.map _ (sortStrings m.keys)) _ = B
    generalize join (List.map _ d.inputSources) _ = C
    generalize join (List.map _ d.arguments) _ = D
    generalize join (List.map _ (sortStrings d.env.keys)) _ = E
    generalize quoted _ = F
    generalize quoted _ = G
    simp only [List.flatten_cons, List.flatten_nil, List.append_assoc, List.cons_append, List.nil_append, List.append_nil]

theorem writtenInputs_nil (d : Derivation) : writtenInputs d [] = .ok d.inputDerivations := rfl

theorem aterm_nil (d : Derivation) (strip : Bool) :
    aterm d strip [] = .ok (printed d strip d.inputDerivations).text := by
  rw [aterm_eq, writtenInputs_nil]; rfl

theorem printed_prints {d : Derivation} (h : Maps d) : Prints d (printed d false d.inputDerivations) where
  outputs := by
    simp only [printed, List.map_map, Function.comp_def]
    have : (fun x : Bytes × Output => (x.1, ({ path := x.2.path, hashAlgorithm := x.2.hashAlgorithm, hash := x.2.hash } : Output))) = id := rfl
    simp only [Bool.false_eq_true, if_false, this, List.map_id]
    exact sortedEntries_perm _ h.outputs
  outputs_order := by
    simp only [printed, List.map_map, Function.comp_def]
    exact sortedEntries_lt _ h.outputs
  inputDrvs := sortedEntries_perm _ h.inputDerivations
  inputDrvs_order := sortedEntries_lt _ h.inputDerivations
  inputSrcs := rfl
  platform := rfl
  builder := rfl
  args := rfl
  env := by
    simp only [printed]
    simp only [Bool.false_eq_true, false_and, if_false]
    exact (sortedEntries_perm _ h.env).map _
  env_order := by
    simp only [printed, List.map_map, Function.comp_def]
    exact sortedEntries_lt _ h.env

/-- A text with the contents of `d` is unique. -/
theorem prints_unique {d : Derivation} {t t' : DrvText} (h : Prints d t) (h' : Prints d t') : t = t' := by
  have key : ∀ {β : Type} {l l' : List (Bytes × β)}, l.Perm l' → (l.map (·.1)).Pairwise (· < ·) →
      (l'.map (·.1)).Pairwise (· < ·) → l = l' := by
    intro β l l' hp hl hl'
    rw [List.pairwise_map] at hl hl'
    exact hp.eq_of_pairwise (fun a b _ _ h1 h2 => absurd (List.lt_trans h1 h2) (List.lt_irrefl _)) hl hl'
  obtain ⟨o, i, s, p, b, a, e⟩ := t
  obtain ⟨o', i', s', p', b', a', e'⟩ := t'
  have ho : o = o' := by
    have := key (h.outputs.trans h'.outputs.symm) (by rw [List.map_map]; exact h.outputs_order) (by rw [List.map_map]; exact h'.outputs_order)
    have inj : Function.Injective (fun o : Bytes × Bytes × Bytes × Bytes => (o.1, (⟨o.2.1, o.2.2.1, o.2.2.2⟩ : Output))) := by
      rintro ⟨a, b, c, d⟩ ⟨a', b', c', d'⟩ he
      simp at he
      simp [he.1, he.2.1, he.2.2.1, he.2.2.2]
    exact (List.map_inj_right (fun x y e => inj e)).1 this
  have hi : i = i' := key (h.inputDrvs.trans h'.inputDrvs.symm) h.inputDrvs_order h'.inputDrvs_order
  have he : e = e' := key (h.env.trans h'.env.symm) h.env_order h'.env_order
  have hs : s = s' := h.inputSrcs.trans h'.inputSrcs.symm
  have hp : p = p' := h.platform.trans h'.platform.symm
  have hb : b = b' := h.builder.trans h'.builder.symm
  have ha : a = a' := h.args.trans h'.args.symm
  subst ho hi he hs hp hb ha
  rfl

theorem Same.maps {d d' : Derivation} (h : Same d d') (hm : Maps d) : Maps d' :=
  ⟨(keys_perm h.outputs).nodup_iff.1 hm.outputs, (keys_perm h.inputDerivations).nodup_iff.1 hm.inputDerivations,
    (keys_perm h.env).nodup_iff.1 hm.env⟩

theorem Same.symm {d d' : Derivation} (h : Same d d') : Same d' d :=
  ⟨h.name.symm, h.outputs.symm, h.inputSources.symm, h.inputDerivations.symm, h.platform.symm, h.builder.symm,
    h.arguments.symm, h.env.symm⟩

theorem Same.refl (d : Derivation) : Same d d := ⟨rfl, .refl _, rfl, .refl _, rfl, rfl, rfl, .refl _⟩

theorem Same.trans {a b c : Derivation} (h : Same a b) (h' : Same b c) : Same a c :=
  ⟨h.name.trans h'.name, h.outputs.trans h'.outputs, h.inputSources.trans h'.inputSources,
    h.inputDerivations.trans h'.inputDerivations, h.platform.trans h'.platform, h.builder.trans h'.builder,
    h.arguments.trans h'.arguments, h.env.trans h'.env⟩

theorem Same.getName {d d' : Derivation} (h : Same d d') (hm : Maps d) : d.getName = d'.getName := by
  unfold Derivation.getName
  rw [GoMap.get?_perm hm.env h.env, GoMap.get?_perm hm.env h.env, h.name]

theorem printed_congr {d d' : Derivation} (h : Same d d') (hm : Maps d) (strip : Bool) {m m' : GoMap (List Bytes)}
    (hmm : m.Perm m') (hn : m.keys.Nodup) : printed d strip m = printed d' strip m' := by
  unfold printed
  rw [sortedEntries_congr _ hm.outputs h.outputs, sortedEntries_congr _ hn hmm, sortedEntries_congr _ hm.env h.env,
    h.inputSources, h.platform, h.builder, h.arguments]
  congr 1
  apply List.map_congr_left
  intro e _
  rw [GoMap.get?_perm hm.outputs h.outputs]

end Verif.Derivation
