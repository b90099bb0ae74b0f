import Verif.Props.Show
import Verif.Lemmas.JsonAlike

/-!
# C109, exactly: which derivations `gonix drv show` prints alike
-/

namespace Verif.Props
open Verif.GoLib Verif.GoJson Verif.Derivation Verif.Spec Verif.Cmd

theorem alike_nil_iff {s : Bytes} : Alike [] s ↔ s = [] := by
  constructor
  · intro h
    generalize hx : ([] : Bytes) = x at h
    cases h with
    | nil => rfl
    | char hc _ => exact absurd hx.symm (utf8_ne _ _)
    | bad _ _ _ => cases hx
  · rintro rfl; exact .nil

theorem alike_symm {s s' : Bytes} (h : Alike s s') : Alike s' s := by
  induction h with
  | nil => exact .nil
  | char hc _ ih => exact .char hc ih
  | bad h h' _ ih => exact .bad h' h ih

theorem alike_nil {s s' : Bytes} (h : Alike s s') : s = [] ↔ s' = [] :=
  ⟨fun e => by subst e; exact alike_nil_iff.1 h, fun e => by subst e; exact alike_nil_iff.1 (alike_symm h)⟩

theorem str_alike {short : Bool} {s s' : Bytes} : mapStr (chars short) (.str s) = mapStr (chars short) (.str s') ↔ Alike s s' := by
  rw [mapStr, mapStr, Json.str.injEq, chars_iff]

theorem strings_alike {short : Bool} {l l' : List Bytes} :
    mapStr (chars short) (.arr (jsonStrings l)) = mapStr (chars short) (.arr (jsonStrings l')) ↔ Each Alike l l' := by
  rw [mapStr, mapStr, Json.arr.injEq]
  constructor
  · intro h
    induction l generalizing l' with
    | nil =>
      cases l' with
      | nil => exact .nil
      | cons => simp [jsonStrings, mapStrs] at h
    | cons s l ih =>
      cases l' with
      | nil => simp [jsonStrings, mapStrs] at h
      | cons s' l' =>
        simp only [jsonStrings, mapStrs, mapStr, Jsons.cons.injEq, Json.str.injEq, chars_iff] at h
        exact .cons h.1 (ih h.2)
  · intro h
    induction h with
    | nil => rfl
    | cons h _ ih =>
      simp only [jsonStrings, mapStrs, mapStr, Jsons.cons.injEq, Json.str.injEq, chars_iff]
      exact ⟨h, ih⟩

theorem output_alike {short : Bool} {o o' : Output} :
    mapStr (chars short) (jsonOutput o) = mapStr (chars short) (jsonOutput o') ↔ OutputAlike o o' := by
  obtain ⟨p, a, x⟩ := o
  obtain ⟨p', a', x'⟩ := o'
  have k : chars short b!"hash" ≠ chars short b!"hashAlgo" := by cases short <;> decide
  have k' : chars short b!"hashAlgo" ≠ chars short b!"hash" := k.symm
  have n1 : ∀ {s : Bytes}, s ≠ [] → ¬ Alike s [] := fun h h' => h ((alike_nil h').2 rfl)
  have n2 : ∀ {s : Bytes}, s ≠ [] → ¬ Alike [] s := fun h h' => h (alike_nil_iff.1 h')
  by_cases ha : a = [] <;> by_cases ha' : a' = [] <;> by_cases hx : x = [] <;> by_cases hx' : x' = [] <;>
    simp [jsonOutput, OutputAlike, mapStr, mapStrm, chars_iff, ha, ha', hx, hx', k, k', n1, n2, alike_nil_iff, Alike.nil] <;> grind

theorem entries_sorted {α : Type} {l : GoMap α} (hs : (l.map (·.1)).Pairwise (· < ·)) : entriesOf l (sortStrings l.keys) = l := by
  have hn : l.keys.Nodup := hs.imp fun h e => absurd (e ▸ h) (List.lt_irrefl _)
  rw [sortStrings_of_sorted (a := l.keys) (hs.imp fun h => List.le_of_lt h)]
  unfold entriesOf GoMap.keys
  rw [List.filterMap_map]
  conv => rhs; rw [← List.filterMap_some (l := l)]
  apply filterMap_congr'
  intro p hp
  obtain ⟨k, v⟩ := p
  simp [GoMap.get?_of_mem hn hp]

theorem mapStr_object (g : Bytes → Bytes) (l : List (Bytes × Json)) :
    mapStr g (object l) = object (l.map fun e => (g e.1, mapStr g e.2)) := by
  unfold object
  rw [mapStr, Json.obj.injEq]
  induction l with
  | nil => rfl
  | cons a l ih => simp only [List.foldr_cons, List.map_cons, mapStrm, ih]

theorem each_map {α β : Type} {R : α → α → Prop} {f : α → β} (h : ∀ a b, f a = f b ↔ R a b) {l l' : List α} :
    l.map f = l'.map f ↔ Each R l l' := by
  constructor
  · intro e
    induction l generalizing l' with
    | nil =>
      cases l' with
      | nil => exact .nil
      | cons => simp at e
    | cons a l ih =>
      cases l' with
      | nil => simp at e
      | cons b l' =>
        rw [List.map_cons, List.map_cons, List.cons.injEq, h] at e
        exact .cons e.1 (ih e.2)
  · intro e
    induction e with
    | nil => rfl
    | cons r _ ih => rw [List.map_cons, List.map_cons, ih, (h _ _).2 r]

theorem object_map {α : Type} {R : α → α → Prop} {enc : α → Json} {short : Bool}
    (hr : ∀ a b, mapStr (chars short) (enc a) = mapStr (chars short) (enc b) ↔ R a b) {l l' : List (Bytes × α)} :
    mapStr (chars short) (object (l.map fun e => (e.1, enc e.2))) = mapStr (chars short) (object (l'.map fun e => (e.1, enc e.2))) ↔
      Each (fun e e' => Alike e.1 e'.1 ∧ R e.2 e'.2) l l' := by
  rw [mapStr_object, mapStr_object, List.map_map, List.map_map]
  rw [← each_map (f := ((fun e : Bytes × Json => (chars short e.1, mapStr (chars short) e.2)) ∘ fun e : Bytes × α => (e.1, enc e.2)))]
  · exact ⟨object_inj, fun h => by rw [h]⟩
  · intro a b
    simp [hr, chars_iff]

theorem map_alike {α : Type} {R : α → α → Prop} {enc : α → Json} {short : Bool}
    (hr : ∀ a b, mapStr (chars short) (enc a) = mapStr (chars short) (enc b) ↔ R a b) {m m' : GoMap α}
    (hn : m.keys.Nodup) (hn' : m'.keys.Nodup) :
    mapStr (chars short) (jsonMap enc m) = mapStr (chars short) (jsonMap enc m') ↔ MapAlike R m m' := by
  constructor
  · intro h
    unfold jsonMap at h
    rw [jsonEntries_eq, jsonEntries_eq, object_map hr] at h
    exact ⟨_, _, entriesOf_perm hn, List.Pairwise.sublist (entriesOf_sub _ _) (sorted_nodup_lt (sortStrings_sorted _) (sortStrings_nodup hn)),
      entriesOf_perm hn', List.Pairwise.sublist (entriesOf_sub _ _) (sorted_nodup_lt (sortStrings_sorted _) (sortStrings_nodup hn')), h⟩
  · rintro ⟨l, l', hp, hs, hp', hs', he⟩
    rw [jsonMap_congr enc hn hp.symm, jsonMap_congr enc hn' hp'.symm]
    unfold jsonMap
    rw [jsonEntries_eq, jsonEntries_eq, entries_sorted hs, entries_sorted hs', object_map hr]
    exact he

theorem drv_alike {short : Bool} {d d' : Derivation} (hm : Maps d) (hm' : Maps d') :
    mapStr (chars short) (jsonDrv d) = mapStr (chars short) (jsonDrv d') ↔ DrvAlike d d' := by
  unfold jsonDrv
  rw [mapStr, mapStr, Json.obj.injEq]
  simp only [mapStrm, Members.cons.injEq, true_and, and_true]
  rw [map_alike (R := OutputAlike) (fun _ _ => output_alike) hm.outputs hm'.outputs, strings_alike,
    map_alike (R := Each Alike) (fun _ _ => strings_alike) hm.inputDerivations hm'.inputDerivations, str_alike, str_alike, strings_alike,
    map_alike (R := Alike) (fun _ _ => str_alike) hm.env hm'.env]
  exact ⟨fun ⟨a, b, c, d, e, f, g⟩ => ⟨a, b, c, d, e, f, g⟩, fun ⟨a, b, c, d, e, f, g⟩ => ⟨a, b, c, d, e, f, g⟩⟩

/-- For all derivations, whatever bytes they contain: two of them are printed alike, in either JSON format, if and only if they differ only in
the name and in bytes that belong to no character. -/
theorem C109_exact (short : Bool) (format : Bytes) (d d' : Derivation) (hm : Maps d) (hm' : Maps d')
    (hf : format = b!"json" ∨ format = b!"json-pretty") :
    showDrv short format (.ok d) = showDrv short format (.ok d') ↔ DrvAlike d d' := by
  rcases hf with rfl | rfl
  · show Res.ok ((jsonDrv d).text short ++ b!"\n") = Res.ok ((jsonDrv d').text short ++ b!"\n") ↔ _
    rw [Res.ok.injEq, List.append_left_inj, text_iff (jnums_drv d) (jnums_drv d'), drv_alike hm hm']
  · show Res.ok ((jsonDrv d).pretty short 0 ++ b!"\n") = Res.ok ((jsonDrv d').pretty short 0 ++ b!"\n") ↔ _
    rw [Res.ok.injEq, List.append_left_inj, pretty_iff (jnums_drv d) (jnums_drv d'), drv_alike hm hm']

/-- the hypotheses are met by two derivations that are not equal but look alike, and by two that do not look alike -/
example : Maps { sampleDrv with builder := [0xFF, 97] } ∧ Maps { sampleDrv with builder := [0xFE, 97] } ∧
    DrvAlike { sampleDrv with builder := [0xFF, 97] } { sampleDrv with builder := [0xFE, 97] } ∧
    ¬ DrvAlike { sampleDrv with builder := [0xFF, 97] } { sampleDrv with builder := [0xEF, 0xBF, 0xBD, 97] } := by
  have h1 : Maps { sampleDrv with builder := [0xFF, 97] } := ⟨by decide +kernel, by decide +kernel, by decide +kernel⟩
  have h2 : Maps { sampleDrv with builder := [0xFE, 97] } := ⟨by decide +kernel, by decide +kernel, by decide +kernel⟩
  have h3 : Maps { sampleDrv with builder := [0xEF, 0xBF, 0xBD, 97] } := ⟨by decide +kernel, by decide +kernel, by decide +kernel⟩
  refine ⟨h1, h2, (C109_exact true b!"json" _ _ h1 h2 (.inl rfl)).1 (by decide +kernel), fun h => ?_⟩
  exact absurd ((C109_exact true b!"json" _ _ h1 h3 (.inl rfl)).2 h) (by decide +kernel)

end Verif.Props
