import Verif.Model.Show
import Verif.Spec.Show
import Verif.Lemmas.JsonParse
import Verif.Props.Derivation

/-!
# C108, C109: `gonix drv show`
-/

namespace Verif.Props
open Verif.GoLib Verif.GoJson Verif.Derivation Verif.Spec Verif.Cmd

/-! ### the model builds the object of the specification -/

theorem jsonStrings_eq (l : List Bytes) : Json.arr (jsonStrings l) = strings l := by
  unfold strings
  refine congrArg Json.arr ?_
  induction l with
  | nil => rfl
  | cons s l ih => rw [jsonStrings, List.foldr_cons, ih]

theorem jsonOutput_eq : jsonOutput = outputObject := by
  funext o
  unfold jsonOutput outputObject object
  split <;> split <;> rfl

theorem filterMap_congr' {α β : Type} {f g : α → Option β} {l : List α} (h : ∀ x ∈ l, f x = g x) :
    l.filterMap f = l.filterMap g := by
  induction l with
  | nil => rfl
  | cons a l ih =>
    rw [List.filterMap_cons, List.filterMap_cons, h a List.mem_cons_self, ih fun x hx => h x (List.mem_cons_of_mem _ hx)]

/-- the entries in the order of the keys -/
def entriesOf {α : Type} (m : GoMap α) (ks : List Bytes) : List (Bytes × α) :=
  ks.filterMap fun k => (m.get? k).map fun a => (k, a)

theorem jsonEntries_eq {α : Type} (enc : α → Json) (m : GoMap α) (ks : List Bytes) :
    Json.obj (jsonEntries enc m ks) = object ((entriesOf m ks).map fun e => (e.1, enc e.2)) := by
  unfold object
  refine congrArg Json.obj ?_
  induction ks with
  | nil => rfl
  | cons k ks ih =>
    rw [jsonEntries, entriesOf, List.filterMap_cons]
    cases m.get? k with
    | none => simpa [entriesOf] using ih
    | some a =>
      simp only [Option.map_some, List.map_cons, List.foldr_cons]
      rw [ih]
      rfl

theorem entriesOf_perm {α : Type} {m : GoMap α} (h : m.keys.Nodup) : (entriesOf m (sortStrings m.keys)).Perm m := by
  have h1 : (entriesOf m (sortStrings m.keys)).Perm (entriesOf m m.keys) := (sortStrings_perm _).filterMap _
  have h2 : entriesOf m m.keys = m := by
    unfold entriesOf GoMap.keys
    rw [List.filterMap_map]
    conv => rhs; rw [← List.filterMap_some (l := m)]
    apply filterMap_congr'
    intro p hp
    obtain ⟨k, v⟩ := p
    simp [GoMap.get?_of_mem h hp]
  rwa [h2] at h1

theorem entriesOf_sub {α : Type} (m : GoMap α) (ks : List Bytes) : ((entriesOf m ks).map (·.1)).Sublist ks := by
  induction ks with
  | nil => exact .slnil
  | cons k ks ih =>
    rw [entriesOf, List.filterMap_cons]
    cases m.get? k with
    | none => exact ih.cons k
    | some a => exact ih.cons_cons k

theorem jsonMap_object {α : Type} (enc : α → Json) {m : GoMap α} (h : m.keys.Nodup) : MapObject enc m (jsonMap enc m) :=
  ⟨entriesOf m (sortStrings m.keys), entriesOf_perm h,
    List.Pairwise.sublist (entriesOf_sub _ _) (sorted_nodup_lt (sortStrings_sorted _) (sortStrings_nodup h)),
    jsonEntries_eq enc m _⟩

theorem jsonDrv_object {d : Derivation} (h : Maps d) : DrvObject d (jsonDrv d) := by
  refine ⟨jsonMap jsonOutput d.outputs, jsonMap (fun l => .arr (jsonStrings l)) d.inputDerivations, jsonMap .str d.env,
    ?_, ?_, jsonMap_object _ h.env, ?_⟩
  · rw [← jsonOutput_eq]
    exact jsonMap_object _ h.outputs
  · have e : (fun l => Json.arr (jsonStrings l)) = strings := funext jsonStrings_eq
    rw [e]
    exact jsonMap_object _ h.inputDerivations
  · unfold jsonDrv object
    rw [jsonStrings_eq, jsonStrings_eq]
    rfl

theorem jsonMap_congr {α : Type} (enc : α → Json) {m m' : GoMap α} (hn : m.keys.Nodup) (h : m.Perm m') :
    jsonMap enc m = jsonMap enc m' := by
  unfold jsonMap
  rw [jsonEntries_eq, jsonEntries_eq, sortStrings_congr (keys_perm h)]
  refine congrArg (fun l => object (List.map _ l)) ?_
  unfold entriesOf
  apply filterMap_congr'
  intro k _
  rw [GoMap.get?_perm hn h]

/-! ### the object has one value for a derivation, and the other way round -/

theorem object_inj {l l' : List (Bytes × Json)} (h : object l = object l') : l = l' := by
  unfold object at h
  injection h with h
  induction l generalizing l' with
  | nil =>
    cases l' with
    | nil => rfl
    | cons a l' => simp at h
  | cons a l ih =>
    cases l' with
    | nil => simp at h
    | cons a' l' =>
      simp only [List.foldr_cons, Members.cons.injEq] at h
      rw [ih h.2.2]
      exact congrArg (· :: l') (Prod.ext h.1 h.2.1)

theorem strings_inj {l l' : List Bytes} (h : strings l = strings l') : l = l' := by
  unfold strings at h
  injection h with h
  induction l generalizing l' with
  | nil =>
    cases l' with
    | nil => rfl
    | cons a l' => simp at h
  | cons a l ih =>
    cases l' with
    | nil => simp at h
    | cons a' l' =>
      simp only [List.foldr_cons, Jsons.cons.injEq, Json.str.injEq] at h
      rw [ih h.2, h.1]

theorem outputObject_inj {o o' : Output} (h : outputObject o = outputObject o') : o = o' := by
  obtain ⟨p, a, x⟩ := o
  obtain ⟨p', a', x'⟩ := o'
  have h := object_inj h
  by_cases ha : a = [] <;> by_cases ha' : a' = [] <;> by_cases hx : x = [] <;> by_cases hx' : x' = [] <;>
    simp [ha, ha', hx, hx'] at h ⊢ <;> simp_all

theorem mapObject_inj {α : Type} {value : α → Json} (hv : ∀ a b, value a = value b → a = b) {m m' : GoMap α} {v : Json}
    (h : MapObject value m v) (h' : MapObject value m' v) : m.Perm m' := by
  obtain ⟨l, hp, _, rfl⟩ := h
  obtain ⟨l', hp', _, he⟩ := h'
  have key : ∀ l l' : List (Bytes × α), (l.map fun e => (e.1, value e.2)) = (l'.map fun e => (e.1, value e.2)) → l = l' := by
    intro l
    induction l with
    | nil =>
      intro l' h
      cases l' with
      | nil => rfl
      | cons a l' => simp at h
    | cons a l ih =>
      intro l' h
      cases l' with
      | nil => simp at h
      | cons a' l' =>
        simp only [List.map_cons, List.cons.injEq, Prod.mk.injEq] at h
        rw [ih l' h.2]
        exact congrArg (· :: l') (Prod.ext h.1.1 (hv _ _ h.1.2))
  have := key _ _ (object_inj he)
  subst this
  exact hp.symm.trans hp'

theorem drvObject_inj {d d' : Derivation} {v : Json} (h : DrvObject d v) (h' : DrvObject d' v) :
    Same { d with name := d'.name } d' := by
  obtain ⟨o, i, e, ho, hi, he, rfl⟩ := h
  obtain ⟨o', i', e', ho', hi', he', hv⟩ := h'
  have := object_inj hv
  simp only [List.cons.injEq, Prod.mk.injEq, true_and, and_true, Json.str.injEq] at this
  obtain ⟨rfl, hs, rfl, hp, hb, ha, rfl⟩ := this
  exact ⟨rfl, mapObject_inj (fun _ _ => outputObject_inj) ho ho', strings_inj hs, mapObject_inj (fun _ _ => strings_inj) hi hi',
    hp, hb, strings_inj ha, mapObject_inj (fun _ _ h => by injection h) he he'⟩

/-! ### no numbers, depth, UTF-8 -/

theorem jnumss_strings (l : List Bytes) : JNumss (jsonStrings l) := by
  induction l with
  | nil => trivial
  | cons s l ih => rw [jsonStrings, JNumss]; exact ⟨by simp [JNums], ih⟩

theorem jnumsm_entries {α : Type} {enc : α → Json} (h : ∀ a, JNums (enc a)) (m : GoMap α) (ks : List Bytes) :
    JNumsm (jsonEntries enc m ks) := by
  induction ks with
  | nil => trivial
  | cons k ks ih =>
    rw [jsonEntries]
    split
    · rw [JNumsm]; exact ⟨h _, ih⟩
    · exact ih

theorem jnums_output (o : Output) : JNums (jsonOutput o) := by
  unfold jsonOutput
  split <;> split <;> simp [JNums, JNumsm]

theorem jnums_drv (d : Derivation) : JNums (jsonDrv d) := by
  unfold jsonDrv jsonMap
  simp only [JNums, JNumsm, jnumss_strings, true_and, and_true]
  exact ⟨jnumsm_entries jnums_output _ _, jnumsm_entries (fun l => by rw [JNums]; exact jnumss_strings l) _ _,
    jnumsm_entries (fun l => by simp [JNums]) _ _⟩

mutual
theorem jdepth_mapStr (g : Bytes → Bytes) : ∀ v, jdepth (mapStr g v) = jdepth v
  | .null => rfl
  | .bool _ => rfl
  | .num _ => rfl
  | .str _ => rfl
  | .arr l => by rw [mapStr, jdepth, jdepth, jdepths_mapStr g l]
  | .obj l => by rw [mapStr, jdepth, jdepth, jdepthm_mapStr g l]
theorem jdepths_mapStr (g : Bytes → Bytes) : ∀ l, jdepths (mapStrs g l) = jdepths l
  | .nil => rfl
  | .cons v l => by rw [mapStrs, jdepths, jdepths, jdepth_mapStr g v, jdepths_mapStr g l]
theorem jdepthm_mapStr (g : Bytes → Bytes) : ∀ l, jdepthm (mapStrm g l) = jdepthm l
  | .nil => rfl
  | .cons k v l => by rw [mapStrm, jdepthm, jdepthm, jdepth_mapStr g v, jdepthm_mapStr g l]
end

theorem jdepths_strings (l : List Bytes) : jdepths (jsonStrings l) = 0 := by
  induction l with
  | nil => rfl
  | cons s l ih => rw [jsonStrings, jdepths, ih]; simp [jdepth]

theorem jdepthm_entries {α : Type} {enc : α → Json} {n : Nat} (h : ∀ a, jdepth (enc a) ≤ n) (m : GoMap α) (ks : List Bytes) :
    jdepthm (jsonEntries enc m ks) ≤ n := by
  induction ks with
  | nil => exact Nat.zero_le _
  | cons k ks ih =>
    rw [jsonEntries]
    split
    · rename_i a _
      rw [jdepthm]
      have := h a
      omega
    · exact ih

theorem jdepth_drv (d : Derivation) : jdepth (jsonDrv d) ≤ 3 := by
  have h1 : jdepthm (jsonEntries jsonOutput d.outputs (sortStrings d.outputs.keys)) ≤ 1 := by
    apply jdepthm_entries
    intro o
    unfold jsonOutput
    split <;> split <;> simp [jdepth, jdepthm]
  have h2 : jdepthm (jsonEntries (fun l => Json.arr (jsonStrings l)) d.inputDerivations (sortStrings d.inputDerivations.keys)) ≤ 1 := by
    apply jdepthm_entries
    intro l
    rw [jdepth, jdepths_strings]
    exact Nat.le_refl _
  have h3 : jdepthm (jsonEntries Json.str d.env (sortStrings d.env.keys)) ≤ 1 := by
    apply jdepthm_entries
    intro l
    rw [jdepth]
    · omega
    · simp
    · simp
  unfold jsonDrv jsonMap
  simp only [jdepth, jdepthm, jdepths_strings]
  omega

theorem isUtf8_ascii {s : Bytes} (h : s.all (fun c => decide (c.toNat < 0x80)) = true) : IsUtf8 s := by
  refine ⟨s.map UInt8.toNat, ?_, ?_⟩
  · intro c hc
    rw [List.mem_map] at hc
    obtain ⟨b, hb, rfl⟩ := hc
    have := of_decide_eq_true (List.all_eq_true.1 h b hb)
    exact .inl (by omega)
  · induction s with
    | nil => rfl
    | cons b s ih =>
      rw [List.all_cons, Bool.and_eq_true] at h
      have hb := of_decide_eq_true h.1
      rw [List.map_cons, List.flatMap_cons, ← ih h.2]
      unfold utf8
      rw [if_pos hb]
      simp

theorem jvalids_strings {l : List Bytes} (h : ∀ s ∈ l, IsUtf8 s) : JValids (jsonStrings l) := by
  induction l with
  | nil => trivial
  | cons s l ih =>
    rw [jsonStrings, JValids, JValid]
    exact ⟨h s List.mem_cons_self, ih fun x hx => h x (List.mem_cons_of_mem _ hx)⟩

theorem jvalidm_entries {α : Type} {enc : α → Json} {m : GoMap α} (h : ∀ e ∈ m, IsUtf8 e.1 ∧ JValid (enc e.2)) (ks : List Bytes) :
    JValidm (jsonEntries enc m ks) := by
  induction ks with
  | nil => trivial
  | cons k ks ih =>
    rw [jsonEntries]
    split
    · rename_i a ha
      have := h (k, a) (GoMap.get?_mem ha)
      rw [JValidm]
      exact ⟨this.1, this.2, ih⟩
    · exact ih

theorem jvalid_drv {d : Derivation} (h : DrvUtf8 d) : JValid (jsonDrv d) := by
  unfold jsonDrv jsonMap
  simp only [JValid, JValidm, and_true]
  refine ⟨isUtf8_ascii (by decide), jvalidm_entries (fun o ho => ⟨(h.outputs o ho).1, ?_⟩) _, isUtf8_ascii (by decide),
    jvalids_strings h.inputSources, isUtf8_ascii (by decide), jvalidm_entries (fun i hi => ⟨(h.inputDerivations i hi).1, ?_⟩) _,
    isUtf8_ascii (by decide), h.platform, isUtf8_ascii (by decide), h.builder, isUtf8_ascii (by decide),
    jvalids_strings h.arguments, isUtf8_ascii (by decide), jvalidm_entries (fun e he => ⟨(h.env e he).1, ?_⟩) _⟩
  · obtain ⟨_, hp, ha, hh⟩ := h.outputs o ho
    have k1 : IsUtf8 b!"path" := isUtf8_ascii (by decide)
    have k2 : IsUtf8 b!"hashAlgo" := isUtf8_ascii (by decide)
    have k3 : IsUtf8 b!"hash" := isUtf8_ascii (by decide)
    unfold jsonOutput
    split <;> split <;> simp only [JValid, JValidm, and_true]
    · exact ⟨k1, hp⟩
    · exact ⟨k1, hp, k3, hh⟩
    · exact ⟨k1, hp, k2, ha⟩
    · exact ⟨k1, hp, k2, ha, k3, hh⟩
  · rw [JValid]; exact jvalids_strings (h.inputDerivations i hi).2
  · rw [JValid]; exact (h.env e he).2

/-! ## C108 -/

/-- `gonix drv show` in the formats `json` and `json-pretty`: for every derivation, whatever bytes it contains,
the output is a JSON text (RFC 8259) and a newline; both formats print the same value, which is the object of the
derivation, with U+FFFD in place of bytes that are no UTF-8. -/
theorem C108_json (short : Bool) (d : Derivation) (hm : Maps d) :
    ∃ t t' v g, showDrv short b!"json" (.ok d) = .ok (t ++ b!"\n") ∧
      showDrv short b!"json-pretty" (.ok d) = .ok (t' ++ b!"\n") ∧
      DrvObject d v ∧ (∀ s, Repaired s (g s)) ∧ JText true t (mapStr g v) ∧ JText true t' (mapStr g v) :=
  ⟨_, _, jsonDrv d, repair, rfl, rfl, jsonDrv_object hm, repair_spec, text_sound short _ (jnums_drv d),
    pretty_sound short _ 0 (jnums_drv d)⟩

/-- For derivations of UTF-8 strings the value is the object itself. -/
theorem C108_utf8 (short : Bool) (d : Derivation) (hm : Maps d) (hu : DrvUtf8 d) :
    ∃ t t' v, showDrv short b!"json" (.ok d) = .ok (t ++ b!"\n") ∧
      showDrv short b!"json-pretty" (.ok d) = .ok (t' ++ b!"\n") ∧
      DrvObject d v ∧ JText true t v ∧ JText true t' v := by
  obtain h := text_sound short _ (jnums_drv d)
  obtain h' := pretty_sound short _ 0 (jnums_drv d)
  rw [mapStr_valid _ (jvalid_drv hu)] at h h'
  exact ⟨_, _, jsonDrv d, rfl, rfl, jsonDrv_object hm, h, h'⟩

/-- A decoder (the model of `json.Unmarshal`) gets the object back from both formats. -/
theorem C108_decode (short : Bool) (d : Derivation) (hm : Maps d) (hu : DrvUtf8 d) (format out : Bytes)
    (hf : format = b!"json" ∨ format = b!"json-pretty") (h : showDrv short format (.ok d) = .ok out) :
    ∃ v, DrvObject d v ∧ unmarshal out = some v := by
  refine ⟨jsonDrv d, jsonDrv_object hm, unmarshal_iff.2 ?_⟩
  have hd : jdepth (jsonDrv d) ≤ maxNestingDepth := Nat.le_trans (jdepth_drv d) (by decide)
  have hw : Ws b!"\n" := by unfold Ws; decide
  rcases hf with rfl | rfl
  · have e : out = (jsonDrv d).text short ++ b!"\n" := (Res.ok.inj h).symm
    have ht := text_sound short _ (jnums_drv d)
    rw [mapStr_valid _ (jvalid_drv hu)] at ht
    exact ⟨[], _, b!"\n", by rw [e]; rfl, ws_nil, jtext_weaken _ ht, hw, hd⟩
  · have e : out = (jsonDrv d).pretty short 0 ++ b!"\n" := (Res.ok.inj h).symm
    have ht := pretty_sound short _ 0 (jnums_drv d)
    rw [mapStr_valid _ (jvalid_drv hu)] at ht
    exact ⟨[], _, b!"\n", by rw [e]; rfl, ws_nil, jtext_weaken _ ht, hw, hd⟩

/-- The output does not depend on the order in which Go visits the maps; errors of the store are returned, other
formats are errors. -/
theorem C108_order (short : Bool) (format : Bytes) (d d' : Derivation) (hm : Maps d) (h : Same d d')
    (hf : format = b!"json" ∨ format = b!"json-pretty") :
    showDrv short format (.ok d) = showDrv short format (.ok d') := by
  have e : jsonDrv d = jsonDrv d' := by
    unfold jsonDrv
    rw [jsonMap_congr _ hm.outputs h.outputs, jsonMap_congr _ hm.inputDerivations h.inputDerivations,
      jsonMap_congr _ hm.env h.env, h.inputSources, h.platform, h.builder, h.arguments]
  rcases hf with rfl | rfl
  · show Res.ok ((jsonDrv d).text short ++ b!"\n") = Res.ok ((jsonDrv d').text short ++ b!"\n")
    rw [e]
  · show Res.ok ((jsonDrv d).pretty short 0 ++ b!"\n") = Res.ok ((jsonDrv d').pretty short 0 ++ b!"\n")
    rw [e]

theorem C108_errors (short : Bool) (format : Bytes) :
    (∀ e, showDrv short format (.err e) = .err e) ∧
    (∀ d, format ∉ [b!"json", b!"json-pretty", b!"aterm"] → (showDrv short format (.ok d)).isOk = false) ∧
    (∀ d, showDrv short b!"aterm" (.ok d) = aterm d false []) := by
  refine ⟨fun _ => rfl, fun d h => ?_, fun _ => rfl⟩
  simp only [List.mem_cons, List.not_mem_nil, or_false, not_or] at h
  simp only [showDrv]
  rw [if_neg h.1, if_neg h.2.1, if_neg h.2.2]
  rfl

theorem sampleDrv_utf8 : Maps sampleDrv ∧ DrvUtf8 sampleDrv := by
  refine ⟨⟨by decide +kernel, by decide +kernel, by decide +kernel⟩, ?_⟩
  constructor
  · intro o ho
    have : ∀ o ∈ sampleDrv.outputs, (o.1 ++ o.2.path ++ o.2.hashAlgorithm ++ o.2.hash).all (fun c => decide (c.toNat < 0x80)) = true := by
      decide +kernel
    have := this o ho
    simp only [List.all_append, Bool.and_eq_true] at this
    exact ⟨isUtf8_ascii this.1.1.1, isUtf8_ascii this.1.1.2, isUtf8_ascii this.1.2, isUtf8_ascii this.2⟩
  · intro s hs
    have : ∀ o ∈ sampleDrv.inputSources, o.all (fun c => decide (c.toNat < 0x80)) = true := by decide +kernel
    exact isUtf8_ascii (this s hs)
  · intro o ho
    have : ∀ o ∈ sampleDrv.inputDerivations, o.1.all (fun c => decide (c.toNat < 0x80)) = true ∧
        ∀ s ∈ o.2, s.all (fun c => decide (c.toNat < 0x80)) = true := by decide +kernel
    exact ⟨isUtf8_ascii (this o ho).1, fun s hs => isUtf8_ascii ((this o ho).2 s hs)⟩
  · exact isUtf8_ascii (by decide +kernel)
  · exact isUtf8_ascii (by decide +kernel)
  · intro s hs
    have : ∀ o ∈ sampleDrv.arguments, o.all (fun c => decide (c.toNat < 0x80)) = true := by decide +kernel
    exact isUtf8_ascii (this s hs)
  · intro o ho
    have : ∀ o ∈ sampleDrv.env, o.1.all (fun c => decide (c.toNat < 0x80)) = true ∧
        o.2.all (fun c => decide (c.toNat < 0x80)) = true := by decide +kernel
    exact ⟨isUtf8_ascii (this o ho).1, isUtf8_ascii (this o ho).2⟩

/-- the output itself, on a small derivation -/
example : showDrv true b!"json" (.ok ⟨[], [(b!"out", ⟨b!"/nix/store/x", [], []⟩)], [], [(b!"b", [b!"out"]), (b!"a", [b!"o<"])],
      b!"s", b!"/bin/sh", [b!"-c", b!"a\tb\""], [(b!"z", []), (b!"name", b!"n")]⟩) =
    .ok (b!"{\"outputs\":{\"out\":{\"path\":\"/nix/store/x\"}},\"inputSrcs\":[],\"inputDrvs\":{\"a\":[\"o\\u003c\"],\"b\":[\"out\"]}," ++
      b!"\"system\":\"s\",\"builder\":\"/bin/sh\",\"args\":[\"-c\",\"a\\tb\\\"\"],\"env\":{\"name\":\"n\",\"z\":\"\"}}\n") := by
  decide +kernel

/-! ## C109 -/

/-- Derivations of UTF-8 strings whose outputs are equal are equal (but for the name, which is not shown), in
either format. -/
theorem C109_injective_partial (short : Bool) (format : Bytes) (d d' : Derivation) (hm : Maps d) (hm' : Maps d')
    (hu : DrvUtf8 d) (hu' : DrvUtf8 d') (hf : format = b!"json" ∨ format = b!"json-pretty")
    (h : showDrv short format (.ok d) = showDrv short format (.ok d')) : Same { d with name := d'.name } d' := by
  cases ho : showDrv short format (.ok d) with
  | ok out =>
    obtain ⟨v, hv, hp⟩ := C108_decode short d hm hu format out hf ho
    obtain ⟨v', hv', hp'⟩ := C108_decode short d' hm' hu' format out hf (h ▸ ho)
    rw [hp] at hp'
    cases hp'
    exact drvObject_inj hv hv'
  | err e => rcases hf with rfl | rfl <;> simp [showDrv] at ho
  | panic => rcases hf with rfl | rfl <;> simp [showDrv] at ho

/-- Not so for other strings: two valid derivations with different builders are shown as the same. -/
theorem C109_refuted : ∃ d d' : Derivation, Maps d ∧ Maps d' ∧ d.validate = .ok () ∧ d'.validate = .ok () ∧
    d.builder ≠ d'.builder ∧ (∀ short format, format = b!"json" ∨ format = b!"json-pretty" →
      showDrv short format (.ok d) = showDrv short format (.ok d')) := by
  refine ⟨{ sampleDrv with builder := [0xFF] }, { sampleDrv with builder := [0xFE] }, ⟨by decide +kernel, by decide +kernel, by decide +kernel⟩,
    ⟨by decide +kernel, by decide +kernel, by decide +kernel⟩, by decide +kernel, by decide +kernel, by decide +kernel, ?_⟩
  intro short format hf
  rcases hf with rfl | rfl
  · cases short <;> decide +kernel
  · cases short <;> decide +kernel

/-- And a key can occur twice in the object that is printed. -/
theorem C109_refuted_keys : ∃ d : Derivation, Maps d ∧ d.validate = .ok () ∧
    showDrv true b!"json" (.ok d) =
      .ok (b!"{\"outputs\":{\"out\":{\"path\":\"\",\"hashAlgo\":\"sha256\",\"hash\":\"00\"}},\"inputSrcs\":[],\"inputDrvs\":{}," ++
      b!"\"system\":\"s\",\"builder\":\"b\",\"args\":[],\"env\":{\"name\":\"x\",\"\\ufffd\":\"1\",\"\\ufffd\":\"2\"}}\n") :=
  ⟨⟨[], [(b!"out", ⟨[], b!"sha256", b!"00"⟩)], [], [], b!"s", b!"b", [], [(b!"name", b!"x"), ([0xFE], b!"1"), ([0xFF], b!"2")]⟩,
    ⟨by decide +kernel, by decide +kernel, by decide +kernel⟩, by decide +kernel, by decide +kernel⟩

end Verif.Props
