import Verif.Spec.DrvJson
import Verif.Props.ShowExact
import Verif.Props.ShowRead
import Verif.Props.DrvPaths
import Verif.Props.DrvExact

/-!
# C140, C141: derivations read from JSON
-/

namespace Verif.Props
open Verif.GoLib Verif.GoJson Verif.Derivation Verif.Spec Verif.Cmd

/-! ### decoding what was encoded -/

theorem stringItems_strings (g : Bytes → Bytes) (l : List Bytes) :
    stringItems [] (mapStrs g (jsonStrings l)) = .ok (l.map g, []) := by
  induction l with
  | nil => rfl
  | cons s l ih =>
    rw [jsonStrings, mapStrs, stringItems, mapStr]
    show (stringItems [] (mapStrs g (jsonStrings l)) >>= _) = _
    rw [ih]
    rfl

theorem stringsValue_strings (g : Bytes → Bytes) (l : List Bytes) :
    stringsValue ⟨[], []⟩ (mapStr g (.arr (jsonStrings l))) = .ok ⟨l.map g, []⟩ := by
  cases l with
  | nil => rfl
  | cons s l =>
    have := stringItems_strings g (s :: l)
    rw [jsonStrings, mapStrs] at this
    rw [jsonStrings, mapStr, mapStrs, stringsValue]
    · show (stringItems [] _ >>= _) = _
      rw [this]
      rfl
    · intro h; cases h

/-- the entries, put into a map one by one -/
def putAll {α : Type} (m : GoMap α) (l : List (Bytes × α)) : GoMap α := l.foldl (fun m e => m.insert e.1 e.2) m

theorem mapMembers_object {α β : Type} {dec : Json → Res α} {enc : β → Json} {f : β → α} (h : ∀ b, dec (enc b) = .ok (f b))
    (g : Bytes → Bytes) (m : GoMap α) (l : List (Bytes × β)) :
    mapMembers dec m ((l.map fun e => (g e.1, enc e.2)).foldr (fun m ms => Members.cons m.1 m.2 ms) .nil) =
      .ok (putAll m (l.map fun e => (g e.1, f e.2))) := by
  induction l generalizing m with
  | nil => rfl
  | cons e l ih =>
    rw [List.map_cons, List.foldr_cons, mapMembers, h, Res.bind_ok, ih]
    rfl

theorem mapValue_map {α β : Type} {dec : Json → Res α} {enc : β → Json} {g : Bytes → Bytes} {f : β → α}
    (h : ∀ b, dec (mapStr g (enc b)) = .ok (f b)) (m : GoMap β) :
    mapValue dec [] (mapStr g (jsonMap enc m)) =
      .ok (putAll [] ((entriesOf m (sortStrings m.keys)).map fun e => (g e.1, f e.2))) := by
  unfold jsonMap
  rw [jsonEntries_eq, mapStr_object, List.map_map]
  exact mapMembers_object h g [] _

theorem putAll_nodup {α : Type} {m : GoMap α} (h : m.keys.Nodup) (l : List (Bytes × α)) : (putAll m l).keys.Nodup := by
  induction l generalizing m with
  | nil => exact h
  | cons e l ih => exact ih (GoMap.keys_insert_nodup _ _ _ h)

theorem putAll_get {α β : Type} (g : Bytes → Bytes) (f : α → β) (m : GoMap β) (l : List (Bytes × α))
    (hs : (l.map (·.1)).Pairwise (· < ·)) (k' : Bytes) (a' : β) :
    (putAll m (l.map fun e => (g e.1, f e.2))).get? k' = some a' ↔
      (∃ k a, (k, a) ∈ l ∧ k' = g k ∧ a' = f a ∧ ∀ k₂ a₂, (k₂, a₂) ∈ l → g k₂ = g k → k₂ ≤ k) ∨
      ((∀ e ∈ l, g e.1 ≠ k') ∧ m.get? k' = some a') := by
  induction l generalizing m with
  | nil => simp [putAll]
  | cons e l ih =>
    obtain ⟨k0, a0⟩ := e
    rw [List.map_cons, List.pairwise_cons] at hs
    have hlt : ∀ k a, (k, a) ∈ l → k0 < k := fun k a h => hs.1 k (List.mem_map.2 ⟨_, h, rfl⟩)
    rw [List.map_cons]
    show (putAll (m.insert (g k0) (f a0)) (l.map fun e => (g e.1, f e.2))).get? k' = some a' ↔ _
    rw [ih _ hs.2, GoMap.get?_insert]
    constructor
    · rintro (⟨k, a, hm, rfl, rfl, hmax⟩ | ⟨hn, hg⟩)
      · refine .inl ⟨k, a, List.mem_cons_of_mem _ hm, rfl, rfl, ?_⟩
        intro k₂ a₂ h2 he
        rcases List.mem_cons.1 h2 with h | h
        · cases h
          exact List.le_of_lt (hlt _ _ hm)
        · exact hmax k₂ a₂ h he
      · by_cases hk : g k0 = k'
        · rw [if_pos hk] at hg
          cases hg
          refine .inl ⟨k0, a0, List.mem_cons_self, hk.symm, rfl, ?_⟩
          intro k₂ a₂ h2 he
          rcases List.mem_cons.1 h2 with h | h
          · cases h; exact List.le_refl _
          · exact absurd (he.trans hk) (hn _ h)
        · rw [if_neg hk] at hg
          refine .inr ⟨?_, hg⟩
          intro e he
          rcases List.mem_cons.1 he with h | h
          · cases h; exact hk
          · exact hn e h
    · rintro (⟨k, a, hm, rfl, rfl, hmax⟩ | ⟨hn, hg⟩)
      · rcases List.mem_cons.1 hm with h | h
        · cases h
          refine .inr ⟨?_, by rw [if_pos rfl]⟩
          intro e he hge
          have h1 := hmax e.1 e.2 (List.mem_cons_of_mem _ he) hge
          have h2 := hlt e.1 e.2 he
          exact absurd h2 (List.not_lt.2 h1)
        · exact .inl ⟨k, a, h, rfl, rfl, fun k₂ a₂ h2 => hmax k₂ a₂ (List.mem_cons_of_mem _ h2)⟩
      · refine .inr ⟨fun e he => hn e (List.mem_cons_of_mem _ he), ?_⟩
        rw [if_neg (hn _ List.mem_cons_self)]
        exact hg

theorem putAll_readAs {α : Type} (g : Bytes → Bytes) (f : α → α) {m : GoMap α} (hn : m.keys.Nodup) :
    MapReadAs g f m (putAll [] ((entriesOf m (sortStrings m.keys)).map fun e => (g e.1, f e.2))) := by
  have hnd : (putAll [] ((entriesOf m (sortStrings m.keys)).map fun e => (g e.1, f e.2))).keys.Nodup :=
    putAll_nodup (by simp [GoMap.keys]) _
  have hp := entriesOf_perm hn
  have hs : ((entriesOf m (sortStrings m.keys)).map (·.1)).Pairwise (· < ·) :=
    List.Pairwise.sublist (entriesOf_sub _ _) (sorted_nodup_lt (sortStrings_sorted _) (sortStrings_nodup hn))
  refine ⟨hnd, fun k' a' => ?_⟩
  have h := putAll_get g f [] _ hs k' a'
  constructor
  · intro hm
    rcases h.1 (GoMap.get?_of_mem hnd hm) with ⟨k, a, hk, e1, e2, hmax⟩ | ⟨_, h'⟩
    · exact ⟨k, a, hp.mem_iff.1 hk, e1, e2, fun k₂ a₂ h2 => hmax k₂ a₂ (hp.mem_iff.2 h2)⟩
    · simp [GoMap.get?] at h'
  · rintro ⟨k, a, hk, e1, e2, hmax⟩
    exact GoMap.get?_mem (h.2 (.inl ⟨k, a, hp.mem_iff.2 hk, e1, e2, fun k₂ a₂ h2 => hmax k₂ a₂ (hp.mem_iff.1 h2)⟩))

theorem putAll_map {α β : Type} (f : α → β) (m : GoMap α) (l : List (Bytes × α)) :
    putAll (m.map fun e => (e.1, f e.2)) (l.map fun e => (e.1, f e.2)) = (putAll m l).map fun e => (e.1, f e.2) := by
  induction l generalizing m with
  | nil => rfl
  | cons e l ih =>
    have : GoMap.insert (m.map fun e => (e.1, f e.2)) e.1 (f e.2) = (m.insert e.1 e.2).map fun e => (e.1, f e.2) := by
      induction m with
      | nil => rfl
      | cons p m ihm =>
        obtain ⟨a, x⟩ := p
        rw [List.map_cons]
        unfold GoMap.insert
        by_cases hk : a = e.1
        · rw [if_pos hk, if_pos hk]; rfl
        · rw [if_neg hk, if_neg hk, List.map_cons, ihm]
    rw [List.map_cons]
    show putAll (GoMap.insert (m.map fun e => (e.1, f e.2)) e.1 (f e.2)) _ = _
    rw [this, ih]
    rfl

/-- keys that are not changed -/
def Keeps (g : Bytes → Bytes) : Prop := ∀ s, s.all (fun c => decide (c.toNat < 0x80)) = true → g s = s

theorem repair_keeps : Keeps repair := fun _ h => repair_self (isUtf8_ascii h)

theorem outputValue_output {g : Bytes → Bytes} (hg : Keeps g) (o : Output) :
    outputValue (mapStr g (jsonOutput o)) = .ok (some ⟨g o.path, g o.hashAlgorithm, g o.hash⟩) := by
  have n : g [] = [] := hg [] rfl
  have k1 : g b!"path" = b!"path" := hg _ (by decide)
  have k2 : g b!"hashAlgo" = b!"hashAlgo" := hg _ (by decide)
  have k3 : g b!"hash" = b!"hash" := hg _ (by decide)
  have a1 : sameField b!"path" b!"path" = true := by decide
  have a2 : sameField b!"path" b!"hashAlgo" = false := by decide
  have a3 : sameField b!"path" b!"hash" = false := by decide
  have a4 : sameField b!"hashAlgo" b!"hashAlgo" = true := by decide
  have a5 : sameField b!"hashAlgo" b!"hash" = false := by decide
  have a6 : sameField b!"hash" b!"hash" = true := by decide
  obtain ⟨p, a, x⟩ := o
  unfold jsonOutput
  by_cases ha : a = [] <;> by_cases hx : x = [] <;>
    simp [ha, hx, mapStr, mapStrm, outputValue, outputMembers, k1, k2, k3, a1, a2, a3, a4, a5, a6, n, stringValue]

theorem unmarshalDrv_members {g : Bytes → Bytes} (hg : Keeps g) (d : Derivation) (hm : Maps d) (l : Members)
    (hl : mapStr g (jsonDrv d) = .obj l) :
    ∃ d', drvMembers zeroDrv [] [] l = .ok d'.raw ∧ DrvReadAs g d d' := by
  refine ⟨⟨[], putAll [] ((entriesOf d.outputs (sortStrings d.outputs.keys)).map fun e =>
      (g e.1, (⟨g e.2.path, g e.2.hashAlgorithm, g e.2.hash⟩ : Output))), d.inputSources.map g,
    putAll [] ((entriesOf d.inputDerivations (sortStrings d.inputDerivations.keys)).map fun e => (g e.1, e.2.map g)),
    g d.platform, g d.builder, d.arguments.map g,
    putAll [] ((entriesOf d.env (sortStrings d.env.keys)).map fun e => (g e.1, g e.2))⟩, ?_,
    rfl, putAll_readAs g _ hm.outputs, rfl, putAll_readAs g _ hm.inputDerivations, rfl, rfl, rfl, putAll_readAs g g hm.env⟩
  have ho := mapValue_map (dec := outputValue) (fun o => outputValue_output hg o) d.outputs
  have hi := mapValue_map (dec := namesValue) (enc := fun l => .arr (jsonStrings l)) (g := g) (f := fun l => l.map g)
    (fun l => by unfold namesValue; rw [stringsValue_strings]; rfl) d.inputDerivations
  have he := mapValue_map (dec := stringValue []) (enc := .str) (g := g) (f := g) (fun s => by rw [mapStr]; rfl) d.env
  have e : (entriesOf d.outputs (sortStrings d.outputs.keys)).map (fun e => (g e.1, some (⟨g e.2.path, g e.2.hashAlgorithm, g e.2.hash⟩ : Output))) =
      ((entriesOf d.outputs (sortStrings d.outputs.keys)).map fun e => (g e.1, (⟨g e.2.path, g e.2.hashAlgorithm, g e.2.hash⟩ : Output))).map
        fun e => (e.1, some e.2) := by
    rw [List.map_map]; rfl
  rw [e, show ([] : GoMap (Option Output)) = ([] : GoMap Output).map fun e => (e.1, some e.2) from rfl, putAll_map] at ho
  unfold jsonDrv at hl
  rw [mapStr, Json.obj.injEq] at hl
  subst hl
  simp only [mapStrm]
  rw [hg b!"outputs" (by decide), hg b!"inputSrcs" (by decide), hg b!"inputDrvs" (by decide), hg b!"system" (by decide),
    hg b!"builder" (by decide), hg b!"args" (by decide), hg b!"env" (by decide)]
  rw [drvMembers, if_pos (by decide)]
  show (mapValue outputValue [] _ >>= _) = _
  rw [show mapValue outputValue [] (mapStr g (jsonMap jsonOutput d.outputs)) = _ from ho, Res.bind_ok]
  rw [drvMembers, if_neg (by decide), if_pos (by decide)]
  show (stringsValue ⟨[], []⟩ _ >>= _) = _
  rw [stringsValue_strings, Res.bind_ok]
  rw [drvMembers, if_neg (by decide), if_neg (by decide), if_pos (by decide)]
  show (mapValue namesValue [] _ >>= _) = _
  rw [hi, Res.bind_ok]
  rw [drvMembers, if_neg (by decide), if_neg (by decide), if_neg (by decide), if_pos (by decide), mapStr]
  show drvMembers _ _ _ _ = _
  rw [drvMembers, if_neg (by decide), if_neg (by decide), if_neg (by decide), if_neg (by decide), if_pos (by decide), mapStr]
  show drvMembers _ _ _ _ = _
  rw [drvMembers, if_neg (by decide), if_neg (by decide), if_neg (by decide), if_neg (by decide), if_neg (by decide), if_pos (by decide)]
  show (stringsValue ⟨[], []⟩ _ >>= _) = _
  rw [stringsValue_strings, Res.bind_ok]
  rw [drvMembers, if_neg (by decide), if_neg (by decide), if_neg (by decide), if_neg (by decide), if_neg (by decide), if_neg (by decide),
    if_pos (by decide)]
  show (mapValue (stringValue []) [] _ >>= _) = _
  rw [he, Res.bind_ok]
  rfl

/-- both formats are read as the value -/
theorem unmarshal_show (short : Bool) (format : Bytes) (d : Derivation) (hf : format = b!"json" ∨ format = b!"json-pretty") (out : Bytes)
    (h : showDrv short format (.ok d) = .ok out) : unmarshal out = some (mapStr repair (jsonDrv d)) := by
  have hd : jdepth (mapStr repair (jsonDrv d)) ≤ maxNestingDepth := by
    rw [jdepth_mapStr]
    exact Nat.le_trans (jdepth_drv d) (by decide)
  have hw : Ws b!"\n" := by unfold Ws; decide
  refine unmarshal_iff.2 ?_
  rcases hf with rfl | rfl
  · have e : out = (jsonDrv d).text short ++ b!"\n" := (Res.ok.inj h).symm
    exact ⟨[], _, b!"\n", by rw [e]; rfl, ws_nil, jtext_weaken _ (text_sound short _ (jnums_drv d)), hw, hd⟩
  · have e : out = (jsonDrv d).pretty short 0 ++ b!"\n" := (Res.ok.inj h).symm
    exact ⟨[], _, b!"\n", by rw [e]; rfl, ws_nil, jtext_weaken _ (pretty_sound short _ 0 (jnums_drv d)), hw, hd⟩

/-! ## C140 -/

/-- What is read back from either JSON format, for every derivation, whatever bytes it contains: the derivation without its
unexported name, with U+FFFD for bytes that are no UTF-8 (and of entries whose keys become the same, the last). -/
theorem C140_read (short : Bool) (format : Bytes) (d : Derivation) (hm : Maps d) (hf : format = b!"json" ∨ format = b!"json-pretty")
    (out : Bytes) (h : showDrv short format (.ok d) = .ok out) :
    ∃ d' g, unmarshalDrv out = .ok d'.raw ∧ (∀ s, Repaired s (g s)) ∧ DrvReadAs g d d' := by
  obtain ⟨l, hl⟩ : ∃ l, mapStr repair (jsonDrv d) = .obj l := ⟨_, by unfold jsonDrv; rw [mapStr]⟩
  obtain ⟨d', h1, h2⟩ := unmarshalDrv_members repair_keeps d hm l hl
  refine ⟨d', repair, ?_, repair_spec, h2⟩
  unfold unmarshalDrv
  rw [unmarshal_show short format d hf out h, hl]
  exact h1

theorem readAs_perm {α : Type} {g : Bytes → Bytes} {f : α → α} {m m' : GoMap α} (hn : m.keys.Nodup) (h : MapReadAs g f m m')
    (hk : ∀ e ∈ m, g e.1 = e.1 ∧ f e.2 = e.2) : m.Perm m' := by
  have nd : ∀ {m : GoMap α}, m.keys.Nodup → List.Nodup m := fun h => by
    unfold GoMap.keys at h
    exact (List.pairwise_map.1 h).imp fun h e => h (congrArg Prod.fst e)
  rw [List.perm_ext_iff_of_nodup (nd hn) (nd h.nodup)]
  rintro ⟨k', a'⟩
  rw [h.entries]
  constructor
  · intro hm
    refine ⟨k', a', hm, (hk _ hm).1.symm, (hk _ hm).2.symm, fun k₂ a₂ h2 he => ?_⟩
    rw [(hk _ h2).1, (hk _ hm).1] at he
    have he : k₂ = k' := he
    rw [he]
    exact List.le_refl _
  · rintro ⟨k, a, hm, rfl, rfl, _⟩
    rw [(hk _ hm).1, (hk _ hm).2]
    exact hm

theorem map_keep {g : Bytes → Bytes} {l : List Bytes} (h : ∀ s ∈ l, g s = s) : l.map g = l := by
  induction l with
  | nil => rfl
  | cons s l ih => rw [List.map_cons, h s List.mem_cons_self, ih fun x hx => h x (List.mem_cons_of_mem _ hx)]

theorem readAs_same {g : Bytes → Bytes} (hg : ∀ s, Repaired s (g s)) {d d' : Derivation} (hm : Maps d) (hu : DrvUtf8 d)
    (h : DrvReadAs g d d') : Same { d with name := [] } d' := by
  have k : ∀ {s}, IsUtf8 s → g s = s := fun {s} hs => repaired_unique (hg s) (repaired_self hs)
  refine ⟨h.name.symm, readAs_perm hm.outputs h.outputs fun e he => ?_, ?_, readAs_perm hm.inputDerivations h.inputDerivations fun e he => ?_,
    ?_, ?_, ?_, readAs_perm hm.env h.env fun e he => ?_⟩
  · obtain ⟨h1, h2, h3, h4⟩ := hu.outputs e he
    exact ⟨k h1, by rw [k h2, k h3, k h4]⟩
  · rw [h.inputSources, map_keep fun s hs => k (hu.inputSources s hs)]
  · exact ⟨k (hu.inputDerivations e he).1, map_keep fun s hs => k ((hu.inputDerivations e he).2 s hs)⟩
  · rw [h.platform, k hu.platform]
  · rw [h.builder, k hu.builder]
  · rw [h.arguments, map_keep fun s hs => k (hu.arguments s hs)]
  · exact ⟨k (hu.env e he).1, k (hu.env e he).2⟩

theorem raw_inj {d d' : Derivation} (h : d.raw = d'.raw) : d = d' := by
  obtain ⟨n, o, s, i, p, b, a, e⟩ := d
  obtain ⟨n', o', s', i', p', b', a', e'⟩ := d'
  unfold Derivation.raw at h
  simp only [RawDrv.mk.injEq] at h
  obtain ⟨h1, h2, h3, h4, h5, h6, h7, h8⟩ := h
  have : o = o' := by
    refine (List.map_inj_right ?_).1 h2
    rintro ⟨k, x⟩ ⟨k', x'⟩ h
    simp only [Prod.mk.injEq, Option.some.injEq] at h
    rw [h.1, h.2]
  rw [h1, this, h3, h4, h5, h6, h7, h8]

theorem readAs_utf8 {g : Bytes → Bytes} (hg : ∀ s, Repaired s (g s)) {d d' : Derivation} (h : DrvReadAs g d d') : DrvUtf8 d' := by
  have u : ∀ s, IsUtf8 (g s) := fun s => repaired_utf8 (hg s)
  have ul : ∀ {l : List Bytes}, ∀ s ∈ l.map g, IsUtf8 s := by
    intro l s hs
    obtain ⟨x, _, rfl⟩ := List.mem_map.1 hs
    exact u x
  refine ⟨?_, ?_, ?_, ?_, ?_, ?_, ?_⟩
  · rintro ⟨k', o'⟩ ho
    obtain ⟨k, o, _, rfl, rfl, _⟩ := (h.outputs.entries k' o').1 ho
    exact ⟨u _, u _, u _, u _⟩
  · rw [h.inputSources]; exact ul
  · rintro ⟨k', l'⟩ hi
    obtain ⟨k, l, _, rfl, rfl, _⟩ := (h.inputDerivations.entries k' l').1 hi
    exact ⟨u _, ul⟩
  · rw [h.platform]; exact u _
  · rw [h.builder]; exact u _
  · rw [h.arguments]; exact ul
  · rintro ⟨k', v'⟩ he
    obtain ⟨k, v, _, rfl, rfl, _⟩ := (h.env.entries k' v').1 he
    exact ⟨u _, u _⟩

/-- Exactly the derivations of UTF-8 strings without an unexported name are read back as they were. -/
theorem C140_exact (short : Bool) (format : Bytes) (d : Derivation) (hm : Maps d) (hf : format = b!"json" ∨ format = b!"json-pretty")
    (out : Bytes) (h : showDrv short format (.ok d) = .ok out) :
    (∃ d', unmarshalDrv out = .ok d'.raw ∧ Same d d') ↔ DrvUtf8 d ∧ d.name = [] := by
  obtain ⟨d', g, h1, hg, h2⟩ := C140_read short format d hm hf out h
  constructor
  · rintro ⟨d'', h1', hs⟩
    rw [h1] at h1'
    obtain rfl := raw_inj (Res.ok.inj h1')
    have hu := readAs_utf8 hg h2
    refine ⟨⟨fun o ho => hu.outputs o (hs.outputs.mem_iff.1 ho), ?_, fun i hi => hu.inputDerivations i (hs.inputDerivations.mem_iff.1 hi),
      ?_, ?_, ?_, fun e he => hu.env e (hs.env.mem_iff.1 he)⟩, ?_⟩
    · rw [hs.inputSources]; exact hu.inputSources
    · rw [hs.platform]; exact hu.platform
    · rw [hs.builder]; exact hu.builder
    · rw [hs.arguments]; exact hu.arguments
    · rw [hs.name]; exact h2.name
  · rintro ⟨hu, hn⟩
    refine ⟨d', h1, ?_⟩
    have := readAs_same hg hm hu h2
    rw [← hn] at this
    exact this

theorem outputWrites_name (d : Derivation) (n : Bytes) (strip : Bool) : ∀ (l : List Bytes) (first : Bool),
    outputWrites { d with name := n } strip first l = outputWrites d strip first l
  | [], _ => rfl
  | k :: l, first => by simp only [outputWrites]; rw [outputWrites_name d n strip l false]

theorem envWrites_name (d : Derivation) (n : Bytes) (strip : Bool) : ∀ (l : List Bytes) (first : Bool),
    envWrites { d with name := n } strip first l = envWrites d strip first l
  | [], _ => rfl
  | k :: l, first => by simp only [envWrites]; rw [envWrites_name d n strip l false]

theorem writeDerivation_name (d : Derivation) (n : Bytes) (strip : Bool) (repl : GoMap Bytes) :
    writeDerivation { d with name := n } strip repl = writeDerivation d strip repl := by
  unfold writeDerivation
  simp only [outputWrites_name, envWrites_name]
  rfl

theorem write_name (d : Derivation) (n : Bytes) : Derivation.write { d with name := n } = d.write := by
  unfold Derivation.write
  rw [writeDerivation_name]

/-- What holds of derivations of UTF-8 strings: all exported fields are read back, and if there is no environment variable `__json`,
then the derivation read back is valid, is written and has its path like the one that was written. (Missing: the name of derivations
with structured attributes, and strings that are no UTF-8.) -/
theorem C140_roundtrip_partial (short : Bool) (format : Bytes) (d : Derivation) (hm : Maps d) (hu : DrvUtf8 d)
    (hf : format = b!"json" ∨ format = b!"json-pretty") (out : Bytes) (h : showDrv short format (.ok d) = .ok out) :
    ∃ d', unmarshalDrv out = .ok d'.raw ∧ Same { d with name := [] } d' ∧
      (∀ w, (d.write w).1 = (d'.write w).1 ∧ (d.write w).2.out = (d'.write w).2.out) ∧
      (b!"__json" ∉ d.env.keys → (d.validate = .ok () ↔ d'.validate = .ok ()) ∧ ∀ H, drvPath H d = drvPath H d') := by
  obtain ⟨d', g, h1, hg, h2⟩ := C140_read short format d hm hf out h
  have hs := readAs_same hg hm hu h2
  have hm0 : Maps { d with name := [] } := ⟨hm.outputs, hm.inputDerivations, hm.env⟩
  refine ⟨d', h1, hs, fun w => ?_, fun hj => ⟨?_, fun H => ?_⟩⟩
  · have := C57_order { d with name := [] } d' hm0 hs w
    rw [write_name] at this
    exact this
  · have hv := (C62_verdict_partial { d with name := [] } d' hs (fun hc => hj hc.2.1)).1
    rw [← hv, C62_validate_partial d (fun hc => hj hc.2.1), C62_validate_partial { d with name := [] } (fun hc => hj hc.2.1)]
    have hw : WellFormed d ↔ WellFormed { d with name := [] } :=
      ⟨fun ⟨a, b, c, d, e, f, g⟩ => ⟨a, b, c, d, e, f, g⟩, fun ⟨a, b, c, d, e, f, g⟩ => ⟨a, b, c, d, e, f, g⟩⟩
    rw [hw]
    simp [hj]
  · rw [← C65_order H _ _ hm0 hs]
    have hn : d.getName = Derivation.getName { d with name := [] } := by
      have : (d.env.get? b!"__json").isSome = false := by
        cases hx : (d.env.get? b!"__json").isSome with
        | false => rfl
        | true => exact absurd ((GoMap.get?_isSome _ _).1 hx) hj
      unfold Derivation.getName
      simp [this]
    have ha : aterm { d with name := [] } false [] = aterm d false [] := by
      unfold aterm
      rw [writeDerivation_name]
    have ht : ∀ t, drvPathText H { d with name := [] } t = drvPathText H d t := by
      intro t
      unfold drvPathText
      rw [hn]
    unfold drvPath
    rw [ha, hn]
    simp only [ht]

/-- Of the valid derivations of UTF-8 strings, exactly those with an environment variable `__json` may be refused when they were read back
(whatever the order in which Go visits the maps). -/
theorem C140_valid (short : Bool) (format : Bytes) (d : Derivation) (hm : Maps d) (hu : DrvUtf8 d) (hv : d.validate = .ok ())
    (hf : format = b!"json" ∨ format = b!"json-pretty") (out : Bytes) (h : showDrv short format (.ok d) = .ok out) :
    ∃ d', unmarshalDrv out = .ok d'.raw ∧ ((∀ d'', Same d' d'' → d''.validate = .ok ()) ↔ b!"__json" ∉ d.env.keys) := by
  obtain ⟨d', h1, hs, _, h4⟩ := C140_roundtrip_partial short format d hm hu hf out h
  refine ⟨d', h1, fun ha hj => ?_, fun hj d'' hs' => ?_⟩
  · have hm0 : Maps { d with name := [] } := ⟨hm.outputs, hm.inputDerivations, hm.env⟩
    have hj' : b!"__json" ∈ d'.env.keys := (keys_perm hs.env).mem_iff.1 hj
    have hm' : Maps d' := ⟨(keys_perm hs.outputs).nodup_iff.1 hm.outputs, (keys_perm hs.inputDerivations).nodup_iff.1 hm.inputDerivations,
      (keys_perm hs.env).nodup_iff.1 hm.env⟩
    have hv' := ha d' (Same.refl d')
    have hn : d'.name = [] := hs.name.symm
    by_cases hk : b!"name" ∈ d'.env.keys
    · obtain ⟨d'', hs', hv''⟩ := ((C62_exact d' hm').2 ⟨((validate_iff' d').1 hv').1, hk, hj', hn⟩).2
      exact hv'' (ha d'' hs')
    · have := ((C62_validate_partial d' (fun hc => hk hc.1)).1 hv').2
      rcases this with ⟨_, h⟩ | ⟨h, _⟩
      · exact h hn
      · exact hk h
  · have hj' : b!"__json" ∉ d'.env.keys := fun hx => hj ((keys_perm hs.env).mem_iff.2 hx)
    exact (C62_verdict_partial d' d'' hs' (fun hc => hj' hc.2.1)).1.1 ((h4 hj).1.1 hv)

/-- a derivation with structured attributes -/
def attrsDrv : Derivation := { sampleDrv with name := b!"x", env := [(b!"__json", b!"{\"name\":\"x\"}")] }

/-- A valid derivation of UTF-8 strings with structured attributes is refused when it was read back, and has no path. -/
theorem C140_refuted : Maps attrsDrv ∧ attrsDrv.validate = .ok () ∧
    ∃ out d', showDrv true b!"json" (.ok attrsDrv) = .ok out ∧ unmarshalDrv out = .ok d'.raw ∧
      (∀ d'', Same d' d'' → d''.validate ≠ .ok ()) ∧ ∀ H, drvPath H d' = .panic := by
  have hm : Maps attrsDrv := ⟨by decide +kernel, by decide +kernel, by decide +kernel⟩
  obtain ⟨d', g, h1, hg, h2⟩ := C140_read true b!"json" attrsDrv hm (.inl rfl) _ rfl
  refine ⟨hm, by decide +kernel, _, d', rfl, h1, ?_, ?_⟩
  · intro d'' hs hv
    have hn : d''.name = [] := by rw [← hs.name]; exact h2.name
    have hk : ∀ k ∈ d''.env.keys, k = b!"__json" := by
      intro k hk
      obtain ⟨e, he, rfl⟩ := List.mem_map.1 hk
      obtain ⟨k0, a0, hm0, e1, e2, _⟩ := (h2.env.entries e.1 e.2).1 (hs.env.mem_iff.2 he)
      have : k0 = b!"__json" := by
        simp only [attrsDrv, List.mem_singleton, Prod.mk.injEq] at hm0
        exact hm0.1
      rw [e1, this]
      exact repaired_unique (hg _) (repaired_self (isUtf8_ascii (by decide)))
    have hx := ((C62_validate_partial d'' (fun hc => absurd (hk _ hc.1) (by decide))).1 hv).2
    rcases hx with ⟨_, h⟩ | ⟨h, _⟩
    · exact h hn
    · exact absurd (hk _ h) (by decide)
  · intro H
    have hj : (d'.env.get? b!"__json").isSome = true := by
      have e0 : g b!"__json" = b!"__json" := repaired_unique (hg _) (repaired_self (isUtf8_ascii (by decide)))
      refine (GoMap.get?_isSome _ _).2 (List.mem_map.2 ⟨(b!"__json", g b!"{\"name\":\"x\"}"), ?_, rfl⟩)
      refine (h2.env.entries _ _).2 ⟨b!"__json", b!"{\"name\":\"x\"}", by simp [attrsDrv], e0.symm, rfl, ?_⟩
      intro k₂ a₂ hk₂ _
      simp only [attrsDrv, List.mem_singleton, Prod.mk.injEq] at hk₂
      rw [hk₂.1]
      exact List.le_refl _
    have hn : d'.getName = [] := by
      unfold Derivation.getName
      rw [if_pos hj]
      exact h2.name
    unfold drvPath
    rw [aterm_nil, Res.bind_ok, if_pos hn]

/-- the hypotheses are met: a derivation with and one without structured attributes -/
example : Maps sampleDrv ∧ sampleDrv.validate = .ok () ∧ b!"__json" ∉ sampleDrv.env.keys ∧ b!"__json" ∈ attrsDrv.env.keys :=
  ⟨sampleDrv_maps, sampleDrv_valid, by decide +kernel, by decide +kernel⟩

/-! ## C141 -/

theorem validateRawOutputs_raw (n : Nat) (m : GoMap Output) :
    validateRawOutputs n (m.map fun o => (o.1, some o.2)) = validateOutputs n m := by
  induction m with
  | nil => rfl
  | cons e m ih =>
    rw [List.map_cons, validateRawOutputs, validateOutputs]
    simp only [ih]
    rfl

theorem validate_raw (d : Derivation) : d.raw.validate = d.validate := by
  unfold RawDrv.validate Derivation.validate Derivation.raw
  simp only [validateRawOutputs_raw, List.length_map, List.map_eq_nil_iff]

theorem validateRawOutputs_panic {n : Nat} {m : GoMap (Option Output)} (h : validateRawOutputs n m = .panic) :
    ∃ k, k ≠ [] ∧ (k, none) ∈ m := by
  induction m with
  | nil => cases h
  | cons e m ih =>
    obtain ⟨k, o⟩ := e
    unfold validateRawOutputs at h
    by_cases hk : k = []
    · rw [if_pos hk] at h; cases h
    rw [if_neg hk] at h
    cases o with
    | none => exact ⟨k, hk, List.mem_cons_self⟩
    | some o =>
      simp only at h
      split at h
      · split at h
        · cases h
        · split at h <;> cases h
      · split at h
        · cases h
        · rename_i hp
          exact absurd hp (Storepath.validate_ne_panic _)
        · obtain ⟨k', h1, h2⟩ := ih h
          exact ⟨k', h1, List.mem_cons_of_mem _ h2⟩

theorem validateRawOutputs_ok {n : Nat} {m : GoMap (Option Output)} (h : validateRawOutputs n m = .ok ()) (hn : n = m.length ∨ 1 < n) :
    ∀ e ∈ m, e.2 ≠ none := by
  induction m with
  | nil => simp
  | cons e m ih =>
    obtain ⟨k, o⟩ := e
    unfold validateRawOutputs at h
    by_cases hk : k = []
    · rw [if_pos hk] at h; cases h
    rw [if_neg hk] at h
    cases o with
    | none => cases h
    | some o =>
      simp only at h
      split at h
      · split at h
        · cases h
        · rename_i _ h1
          have : n = 1 := Decidable.not_not.1 h1
          have : m = [] := by
            rcases hn with hn | hn
            · rw [List.length_cons] at hn
              exact List.length_eq_zero_iff.1 (by omega)
            · omega
          subst this
          simp
      · split at h
        · cases h
        · cases h
        · intro e he
          rcases List.mem_cons.1 he with rfl | he
          · simp
          · refine ih h ?_ e he
            rw [List.length_cons] at hn
            cases m with
            | nil => cases he
            | cons x m =>
              simp only [List.length_cons] at hn
              exact .inr (by omega)

theorem validate_panic (r : RawDrv) : r.validate = .panic ↔ validateRawOutputs r.outputs.length r.outputs = .panic := by
  have key : ∀ (a : Res Unit), a ≠ .panic →
    (if r.outputs = [] then Res.err (.msg "at least one output must be defined") else (a >>= fun _ =>
    validateInputDerivations r.inputDerivations >>= fun _ =>
    validateInputSources none r.inputSources >>= fun _ =>
    if r.platform = [] then .err (.msg "required attribute 'platform' missing")
    else if r.builder = [] then .err (.msg "required attribute 'builder' missing")
    else validateEnv r.name false r.env.keys >>= fun hasNameEnv =>
      if !hasNameEnv then .err (.msg "env 'name' not found") else .ok () : Res Unit)) ≠ .panic := by
    intro a ha
    split
    · simp
    refine res_bind_ne_panic ha fun _ _ => ?_
    refine res_bind_ne_panic (validateInputDerivations_ne_panic _) fun _ _ => ?_
    refine res_bind_ne_panic (validateInputSources_ne_panic _ _) fun _ _ => ?_
    split
    · simp
    split
    · simp
    refine res_bind_ne_panic (validateEnv_ne_panic _ _ _) fun r _ => ?_
    split <;> simp
  constructor
  · intro h
    exact Decidable.byContradiction fun hc => key _ hc h
  · intro h
    unfold RawDrv.validate
    rw [h, if_neg]
    · rfl
    · intro h0
      rw [h0] at h
      cases h

/-- `Validate` of a derivation read from a JSON text may panic (depending on the order in which Go visits the outputs) exactly
if an output with a name is `null`. -/
theorem C141_exact (s : Bytes) (r : RawDrv) (_ : unmarshalDrv s = .ok r) :
    (∃ r', RawSame r r' ∧ r'.validate = .panic) ↔ ∃ k, k ≠ [] ∧ (k, none) ∈ r.outputs := by
  constructor
  · rintro ⟨r', hs, h⟩
    obtain ⟨k, hk, hm⟩ := validateRawOutputs_panic ((validate_panic r').1 h)
    exact ⟨k, hk, hs.outputs.mem_iff.2 hm⟩
  · rintro ⟨k, hk, hm⟩
    obtain ⟨a, b, e⟩ := List.append_of_mem hm
    refine ⟨{ r with outputs := (k, none) :: (a ++ b) }, ⟨rfl, ?_, rfl, .refl _, rfl, rfl, rfl, .refl _⟩, ?_⟩
    · rw [e]; exact List.perm_middle
    · rw [validate_panic, validateRawOutputs, if_neg hk]

/-- A JSON text that is read without an error, and then `Validate` panics in every order. -/
theorem C141_refuted : ∃ s r, unmarshalDrv s = .ok r ∧ ∀ r', RawSame r r' → r'.validate = .panic := by
  refine ⟨b!"{\"outputs\":{\"out\":null}}", { zeroDrv with outputs := [(b!"out", none)] }, by decide +kernel, ?_⟩
  intro r' h
  have : r'.outputs = [(b!"out", none)] := List.perm_singleton.1 h.outputs.symm
  rw [validate_panic, this]
  decide

/-- What was read and is valid has no nil outputs, and is valid as a derivation without them. -/
theorem C141_valid_partial (r : RawDrv) (h : r.validate = .ok ()) : ∃ d : Derivation, r = d.raw ∧ d.validate = .ok () := by
  have hk : ∀ e ∈ r.outputs, e.2 ≠ none := by
    refine validateRawOutputs_ok (n := r.outputs.length) ?_ (.inl rfl)
    unfold RawDrv.validate at h
    split at h
    · cases h
    · obtain ⟨_, h, _⟩ := Res.bind_eq_ok.1 h
      exact h
  obtain ⟨n, o, s, i, p, b, a, e⟩ := r
  have : ∃ m : GoMap Output, o = m.map fun o => (o.1, some o.2) := by
    clear h
    simp only at hk
    induction o with
    | nil => exact ⟨[], rfl⟩
    | cons e o ih =>
      obtain ⟨m, rfl⟩ := ih fun e he => hk e (List.mem_cons_of_mem _ he)
      obtain ⟨k, x⟩ := e
      cases x with
      | none => exact absurd rfl (hk _ List.mem_cons_self)
      | some x => exact ⟨(k, x) :: m, rfl⟩
  obtain ⟨m, rfl⟩ := this
  refine ⟨⟨n, m, s, i, p, b, a, e⟩, rfl, ?_⟩
  rw [← validate_raw]
  exact h

example : (unmarshalDrv (b!"{\"outputs\":{\"out\":{\"hashAlgo\":\"sha256\"}},\"system\":\"s\",\"builder\":\"b\",\"env\":{\"name\":\"x\"}," ++
    b!"\"Args\":[\"a\",\"b\"],\"args\":[null],\"other\":1}") >>= fun r => r.validate >>= fun _ => .ok r.arguments) = .ok [b!"a"] := by
  decide +kernel

end Verif.Props
