import Verif.Spec.DrvText
import Verif.Lemmas.LsText
import Verif.Lemmas.GoMap

/-!
# Lemmas on the decoding of derivations
-/

namespace Verif.Derivation
open Verif.GoLib Verif.GoJson Verif.Spec Verif.NarLs

/-! ### Maps -/

theorem mapSays_get {α : Type} {V : Json → α → Prop} {l : List (Bytes × Json)} {m : GoMap α} (h : MapSays V l m) (k : Bytes) (a : α) :
    m.get? k = some a ↔ ∃ before v after, l = before ++ (k, v) :: after ∧ (∀ v', (k, v') ∉ after) ∧ V v a := by
  rw [← h.entries]
  exact ⟨GoMap.get?_mem, GoMap.get?_of_mem h.once⟩

theorem mapSays_nil {α : Type} (V : Json → α → Prop) : MapSays V [] [] :=
  ⟨by simp [GoMap.keys], by simp⟩

theorem mapSays_insert {α : Type} {V : Json → α → Prop} (hV : ∀ v x y, V v x → V v y → x = y) {l : List (Bytes × Json)} {m : GoMap α}
    (h : MapSays V l m) {k : Bytes} {v : Json} {a : α} (ha : V v a) : MapSays V (l ++ [(k, v)]) (m.insert k a) := by
  have hn := GoMap.keys_insert_nodup m k a h.once
  refine ⟨hn, fun k' a' => ?_⟩
  have e : (k', a') ∈ m.insert k a ↔ (m.insert k a).get? k' = some a' := ⟨GoMap.get?_of_mem hn, GoMap.get?_mem⟩
  rw [e, GoMap.get?_insert]
  constructor
  · intro hg
    split at hg
    · rename_i hk
      cases hg
      subst hk
      exact ⟨l, v, [], rfl, by simp, ha⟩
    · rename_i hk
      obtain ⟨b, v', af, e1, e2, e3⟩ := (mapSays_get h k' a').1 hg
      refine ⟨b, v', af ++ [(k, v)], by simp [e1], ?_, e3⟩
      intro v'' hm
      rw [List.mem_append, List.mem_singleton] at hm
      rcases hm with hm | hm
      · exact e2 _ hm
      · cases hm; exact hk rfl
  · rintro ⟨b, v', af, e1, e2, e3⟩
    rcases List.eq_nil_or_concat af with rfl | ⟨af, x, rfl⟩
    · obtain ⟨_, e⟩ := List.append_inj' e1 rfl
      cases e
      rw [if_pos rfl, hV _ _ _ e3 ha]
    · have e1' : l ++ [(k, v)] = (b ++ (k', v') :: af) ++ [x] := by rw [e1]; simp
      obtain ⟨el, e⟩ := List.append_inj' e1' rfl
      cases e
      have hk : k ≠ k' := by
        rintro rfl
        exact e2 v (by simp)
      rw [if_neg hk]
      refine (mapSays_get h k' a').2 ⟨b, v', af, el, fun v'' hm => e2 v'' ?_, e3⟩
      simp [hm]

theorem mapSays_perm {α : Type} {V : Json → α → Prop} {l : List (Bytes × Json)} {m m' : GoMap α} (h : MapSays V l m)
    (h' : MapSays V l m') : m.Perm m' := by
  have nd : ∀ {m : GoMap α}, m.keys.Nodup → List.Nodup m := fun h => by
    unfold GoMap.keys at h
    exact (List.pairwise_map.1 h).imp fun h e => h (congrArg Prod.fst e)
  rw [List.perm_ext_iff_of_nodup (nd h.once) (nd h'.once)]
  rintro ⟨k, a⟩
  rw [h.entries, h'.entries]

theorem mapSays_of_perm {α : Type} {V : Json → α → Prop} {l : List (Bytes × Json)} {m m' : GoMap α} (h : MapSays V l m)
    (hp : m.Perm m') : MapSays V l m' :=
  ⟨(List.Perm.map _ hp).nodup_iff.1 h.once, fun k a => by rw [← hp.mem_iff, h.entries]⟩

theorem mapOf_unique {field : Bytes} {ms l l' : List (Bytes × Json)} (h : MapOf field ms l) (h' : MapOf field ms l') : l = l' := by
  induction h generalizing l' with
  | nil => generalize he : ([] : List (Bytes × Json)) = z at h'; cases h' <;> simp at he; rfl
  | @other ms l k v h hk ih =>
    generalize he : ms ++ [(k, v)] = z at h'
    cases h' with
    | nil => simp at he
    | other h' _ => obtain ⟨e, _⟩ := List.append_inj' he rfl; subst e; exact ih h'
    | null h' hk' => obtain ⟨e, e'⟩ := List.append_inj' he rfl; cases e'; exact absurd hk' hk
    | obj h' hk' => obtain ⟨e, e'⟩ := List.append_inj' he rfl; cases e'; exact absurd hk' hk
  | @null ms l k h hk ih =>
    generalize he : ms ++ [(k, Json.null)] = z at h'
    cases h' with
    | nil => simp at he
    | other h' hk' => obtain ⟨e, e'⟩ := List.append_inj' he rfl; cases e'; exact absurd hk hk'
    | null h' hk' => rfl
    | obj h' hk' => obtain ⟨e, e'⟩ := List.append_inj' he rfl; cases e'
  | @obj ms l k m h hk ih =>
    generalize he : ms ++ [(k, Json.obj m)] = z at h'
    cases h' with
    | nil => simp at he
    | other h' hk' => obtain ⟨e, e'⟩ := List.append_inj' he rfl; cases e'; exact absurd hk hk'
    | null h' hk' => obtain ⟨e, e'⟩ := List.append_inj' he rfl; cases e'
    | obj h' hk' => obtain ⟨e, e'⟩ := List.append_inj' he rfl; cases e'; subst e; rw [ih h']

/-! ### Lists -/

theorem itemsSay_unique {old new new' : List Bytes} {js : List Json} (h : ItemsSay old js new) (h' : ItemsSay old js new') : new = new' := by
  apply List.ext_getElem?
  intro i
  by_cases hi : i < js.length
  · have e1 : new[i]? = some (new.getD i []) := by
      rw [List.getD_eq_getElem?_getD, List.getElem?_eq_getElem (by rw [h.1]; exact hi)]; rfl
    have e2 : new'[i]? = some (new'.getD i []) := by
      rw [List.getD_eq_getElem?_getD, List.getElem?_eq_getElem (by rw [h'.1]; exact hi)]; rfl
    rw [e1, e2]
    have hg := List.getElem?_eq_getElem hi
    rcases h.2 i _ hg with e | ⟨e, e'⟩ <;> rcases h'.2 i _ hg with f | ⟨f, f'⟩
    · rw [e] at f; rw [Json.str.inj f]
    · rw [e] at f; cases f
    · rw [e] at f; cases f
    · rw [e', f']
  · rw [List.getElem?_eq_none (by rw [h.1]; omega), List.getElem?_eq_none (by rw [h'.1]; omega)]

theorem listOf_unique {field : Bytes} {ms : List (Bytes × Json)} {l r l' r' : List Bytes} (h : ListOf field ms l r)
    (h' : ListOf field ms l' r') : l = l' ∧ r = r' := by
  induction h generalizing l' r' with
  | nil => generalize he : ([] : List (Bytes × Json)) = z at h'; cases h' <;> simp at he; exact ⟨rfl, rfl⟩
  | @other ms l r k v h hk ih =>
    generalize he : ms ++ [(k, v)] = z at h'
    cases h' with
    | nil => simp at he
    | other h' _ => obtain ⟨e, _⟩ := List.append_inj' he rfl; subst e; exact ih h'
    | null h' hk' => obtain ⟨e, e'⟩ := List.append_inj' he rfl; cases e'; exact absurd hk' hk
    | empty h' hk' => obtain ⟨e, e'⟩ := List.append_inj' he rfl; cases e'; exact absurd hk' hk
    | arr h' hk' => obtain ⟨e, e'⟩ := List.append_inj' he rfl; cases e'; exact absurd hk' hk
  | @null ms l r k h hk ih =>
    generalize he : ms ++ [(k, Json.null)] = z at h'
    cases h' with
    | nil => simp at he
    | other h' hk' => obtain ⟨e, e'⟩ := List.append_inj' he rfl; cases e'; exact absurd hk hk'
    | null h' hk' => exact ⟨rfl, rfl⟩
    | empty h' hk' => exact ⟨rfl, rfl⟩
    | arr h' hk' => obtain ⟨e, e'⟩ := List.append_inj' he rfl; cases e'
  | @empty ms l r k h hk ih =>
    generalize he : ms ++ [(k, Json.arr .nil)] = z at h'
    cases h' with
    | nil => simp at he
    | other h' hk' => obtain ⟨e, e'⟩ := List.append_inj' he rfl; cases e'; exact absurd hk hk'
    | null h' hk' => exact ⟨rfl, rfl⟩
    | empty h' hk' => exact ⟨rfl, rfl⟩
    | arr h' hk' hne => obtain ⟨e, e'⟩ := List.append_inj' he rfl; cases e'; exact absurd rfl hne
  | @arr ms l r k js new h hk hne hi ih =>
    generalize he : ms ++ [(k, Json.arr js)] = z at h'
    cases h' with
    | nil => simp at he
    | other h' hk' => obtain ⟨e, e'⟩ := List.append_inj' he rfl; cases e'; exact absurd hk hk'
    | null h' hk' => obtain ⟨e, e'⟩ := List.append_inj' he rfl; cases e'
    | empty h' hk' => obtain ⟨e, e'⟩ := List.append_inj' he rfl; cases e'; exact absurd rfl hne
    | arr h' hk' hne' hi' =>
      obtain ⟨e, e'⟩ := List.append_inj' he rfl
      cases e'
      subst e
      obtain ⟨rfl, rfl⟩ := ih h'
      obtain rfl := itemsSay_unique hi hi'
      exact ⟨rfl, rfl⟩

/-! ### Values -/

theorem stringValue_cases (old : Bytes) (v : Json) :
    (∃ a, stringValue old v = .ok a ∧ StrOrNull v ∧ ((v = .null ∧ a = old) ∨ v = .str a)) ∨
    ((∃ e, stringValue old v = .err e) ∧ ¬ StrOrNull v) := by
  cases v with
  | null => exact .inl ⟨old, rfl, .inl rfl, .inl ⟨rfl, rfl⟩⟩
  | str s => exact .inl ⟨s, rfl, .inr ⟨s, rfl⟩, .inr rfl⟩
  | _ => exact .inr ⟨⟨_, rfl⟩, by simp [StrOrNull]⟩

theorem stringItems_cases : ∀ (js : Jsons) (old : List Bytes),
    ((∀ x ∈ itemList js, StrOrNull x) ∧ ∃ new, stringItems old js = .ok (new, old.drop new.length) ∧ ItemsSay old (itemList js) new) ∨
    ((¬ ∀ x ∈ itemList js, StrOrNull x) ∧ ∃ e, stringItems old js = .err e)
  | .nil, old => .inl ⟨by simp [itemList], [], rfl, by simp [ItemsSay, itemList]⟩
  | .cons v l, old => by
    rw [stringItems, itemList]
    rcases stringValue_cases (old.headD []) v with ⟨a, e1, e2, e3⟩ | ⟨⟨e, e1⟩, e2⟩
    · rw [e1, Res.bind_ok]
      rcases stringItems_cases l old.tail with ⟨g1, new, g2, g3⟩ | ⟨g1, e, g2⟩
      · refine .inl ⟨?_, a :: new, by rw [g2, Res.bind_ok]; cases old <;> simp, ?_, ?_⟩
        · intro x hx
          rcases List.mem_cons.1 hx with rfl | hx
          · exact e2
          · exact g1 x hx
        · simp [g3.1]
        · intro i v' hv
          cases i with
          | zero =>
            simp only [List.getElem?_cons_zero, Option.some.injEq] at hv
            subst hv
            rcases e3 with ⟨h1, h2⟩ | h
            · refine .inr ⟨h1, ?_⟩
              cases old <;> simpa using h2
            · exact .inl (by simpa using h)
          | succ i =>
            simp only [List.getElem?_cons_succ] at hv
            rcases g3.2 i v' hv with h | ⟨h, h'⟩
            · exact .inl (by simpa using h)
            · refine .inr ⟨h, ?_⟩
              cases old <;> simpa using h'
      · refine .inr ⟨fun h => g1 fun x hx => h x (List.mem_cons_of_mem _ hx), e, by rw [g2]; rfl⟩
    · exact .inr ⟨fun h => e2 (h v List.mem_cons_self), e, by rw [e1]; rfl⟩

theorem itemList_nil {js : Jsons} : itemList js = [] ↔ js = .nil := by
  cases js <;> simp [itemList]

theorem stringsValue_cases (old : Strs) (v : Json) :
    (StrsOrNull v ∧ ∃ s, stringsValue old v = .ok s ∧ ∀ field pre k, ListOf field pre old.elems old.spare → KeyFor field k →
      ListOf field (pre ++ [(k, v)]) s.elems s.spare) ∨
    (¬ StrsOrNull v ∧ ∃ e, stringsValue old v = .err e) := by
  cases v with
  | null => exact .inl ⟨.inl rfl, ⟨[], []⟩, rfl, fun field pre k h hk => .null h hk⟩
  | arr js =>
    cases js with
    | nil => exact .inl ⟨.inr ⟨_, rfl, by simp [itemList]⟩, ⟨[], []⟩, rfl, fun field pre k h hk => .empty h hk⟩
    | cons x l =>
      have hs : StrsOrNull (.arr (.cons x l)) ↔ ∀ y ∈ itemList (.cons x l), StrOrNull y := by
        unfold StrsOrNull
        simp
      have e : stringsValue old (.arr (.cons x l)) = (stringItems (old.elems ++ old.spare) (.cons x l) >>= fun p => .ok ⟨p.1, p.2⟩) := by
        rw [stringsValue]
        simp
      rw [hs, e]
      rcases stringItems_cases (.cons x l) (old.elems ++ old.spare) with ⟨g1, new, g2, g3⟩ | ⟨g1, e, g2⟩
      · refine .inl ⟨g1, ⟨new, (old.elems ++ old.spare).drop new.length⟩, by rw [g2]; rfl, ?_⟩
        intro field pre k h hk
        exact .arr h hk (by simp) g3
      · exact .inr ⟨g1, e, by rw [g2]; rfl⟩
  | _ => exact .inr ⟨by simp [StrsOrNull], _, rfl⟩

theorem namesValue_cases (v : Json) : (∃ a, namesValue v = .ok a ∧ NamesSay v a) ∨ ((∃ e, namesValue v = .err e) ∧ ¬ ∃ a, NamesSay v a) := by
  unfold namesValue
  cases v with
  | null => exact .inl ⟨[], rfl, .inl ⟨rfl, rfl⟩⟩
  | arr js =>
    cases js with
    | nil => exact .inl ⟨[], rfl, .inr ⟨_, rfl, by simp [ItemsSay, itemList]⟩⟩
    | cons x l =>
      have e : stringsValue ⟨[], []⟩ (.arr (.cons x l)) = (stringItems [] (.cons x l) >>= fun p => .ok ⟨p.1, p.2⟩) := by
        rw [stringsValue]
        · rfl
        · intro h; cases h
      rw [e]
      rcases stringItems_cases (.cons x l) [] with ⟨g1, new, g2, g3⟩ | ⟨g1, e, g2⟩
      · exact .inl ⟨new, by rw [g2]; rfl, .inr ⟨_, rfl, g3⟩⟩
      · refine .inr ⟨⟨e, by rw [g2]; rfl⟩, ?_⟩
        rintro ⟨a, ⟨h, _⟩ | ⟨js, h, hi⟩⟩
        · cases h
        · cases h
          apply g1
          intro y hy
          obtain ⟨i, hi', he⟩ := List.getElem_of_mem hy
          rcases hi.2 i y (by rw [List.getElem?_eq_getElem hi', he]) with h | h
          · exact .inr ⟨_, h⟩
          · exact .inl h.1
  | _ => exact .inr ⟨⟨_, rfl⟩, by simp [NamesSay]⟩

theorem envValue_cases (v : Json) : (∃ a, stringValue [] v = .ok a ∧ EnvSays v a) ∨ ((∃ e, stringValue [] v = .err e) ∧ ¬ ∃ a, EnvSays v a) := by
  cases v with
  | null => exact .inl ⟨[], rfl, .inr ⟨rfl, rfl⟩⟩
  | str s => exact .inl ⟨s, rfl, .inl rfl⟩
  | _ => exact .inr ⟨⟨_, rfl⟩, by simp [EnvSays]⟩

/-- what a member of an output has to be -/
def OutKind (x : Bytes × Json) : Prop := KeyFor b!"path" x.1 ∨ KeyFor b!"hashAlgo" x.1 ∨ KeyFor b!"hash" x.1 → StrOrNull x.2

/-- the fields of an output -/
def OutFields (ms : List (Bytes × Json)) (o : Output) : Prop :=
  FieldIs b!"path" IsStr [] ms o.path ∧ FieldIs b!"hashAlgo" IsStr [] ms o.hashAlgorithm ∧ FieldIs b!"hash" IsStr [] ms o.hash

theorem key_cases (f : Bytes) (hf : ∀ c ∈ f, c.toNat < 0x80) (k : Bytes) :
    (sameField f k = true ∧ KeyFor f k) ∨ (sameField f k = false ∧ ¬ KeyFor f k) := by
  have h := sameField_iff (field := f) (key := k) hf
  cases hs : sameField f k with
  | true => exact .inl ⟨rfl, h.1 hs⟩
  | false => exact .inr ⟨rfl, fun h' => by rw [h.2 h'] at hs; cases hs⟩

theorem outputMembers_cases : ∀ (l : Members) (o : Output),
    ((∀ x ∈ memberList l, OutKind x) ∧ ∃ o', outputMembers o l = .ok o' ∧ ∀ pre, OutFields pre o → OutFields (pre ++ memberList l) o') ∨
    ((¬ ∀ x ∈ memberList l, OutKind x) ∧ ∃ e, outputMembers o l = .err e)
  | .nil, o => .inl ⟨by simp [memberList], o, rfl, fun pre h => by simpa [memberList] using h⟩
  | .cons k v l, o => by
    have ih := outputMembers_cases l
    rw [memberList]
    have app : ∀ pre : List (Bytes × Json), pre ++ (k, v) :: memberList l = (pre ++ [(k, v)]) ++ memberList l := by simp
    have go : ∀ o1, OutKind (k, v) → outputMembers o (.cons k v l) = outputMembers o1 l →
        (∀ pre, OutFields pre o → OutFields (pre ++ [(k, v)]) o1) →
        ((∀ x ∈ (k, v) :: memberList l, OutKind x) ∧ ∃ o', outputMembers o (.cons k v l) = .ok o' ∧
          ∀ pre, OutFields pre o → OutFields (pre ++ (k, v) :: memberList l) o') ∨
        ((¬ ∀ x ∈ (k, v) :: memberList l, OutKind x) ∧ ∃ e, outputMembers o (.cons k v l) = .err e) := by
      intro o1 hk he hf
      rw [he]
      rcases ih o1 with ⟨g1, o', g2, g3⟩ | ⟨g1, e, g2⟩
      · refine .inl ⟨?_, o', g2, fun pre hp => by rw [app]; exact g3 _ (hf pre hp)⟩
        intro x hx
        rcases List.mem_cons.1 hx with rfl | hx
        · exact hk
        · exact g1 x hx
      · exact .inr ⟨fun h => g1 fun x hx => h x (List.mem_cons_of_mem _ hx), e, g2⟩
    have bad : ¬ OutKind (k, v) → (∃ e, outputMembers o (.cons k v l) = .err e) →
        ((∀ x ∈ (k, v) :: memberList l, OutKind x) ∧ ∃ o', outputMembers o (.cons k v l) = .ok o' ∧
          ∀ pre, OutFields pre o → OutFields (pre ++ (k, v) :: memberList l) o') ∨
        ((¬ ∀ x ∈ (k, v) :: memberList l, OutKind x) ∧ ∃ e, outputMembers o (.cons k v l) = .err e) :=
      fun h1 h2 => .inr ⟨fun h => h1 (h _ List.mem_cons_self), h2⟩
    rcases key_cases b!"path" (by decide) k with ⟨s1, k1⟩ | ⟨s1, k1⟩
    · have n2 : ¬ KeyFor b!"hashAlgo" k := key_ne (by decide) (by decide) (by decide) k1
      have n3 : ¬ KeyFor b!"hash" k := key_ne (by decide) (by decide) (by decide) k1
      rcases stringValue_cases o.path v with ⟨a, e1, e2, e3⟩ | ⟨⟨e, e1⟩, e2⟩
      · exact go { o with path := a } (fun _ => e2) (by rw [outputMembers, if_pos s1, e1]; rfl) fun pre ⟨p1, p2, p3⟩ =>
          ⟨fieldIs_step p1 k1 e3, fieldIs_skip p2 fun h => absurd h n2, fieldIs_skip p3 fun h => absurd h n3⟩
      · exact bad (fun h => e2 (h (.inl k1))) ⟨e, by rw [outputMembers, if_pos s1, e1]; rfl⟩
    rcases key_cases b!"hashAlgo" (by decide) k with ⟨s2, k2⟩ | ⟨s2, k2⟩
    · have n3 : ¬ KeyFor b!"hash" k := key_ne (by decide) (by decide) (by decide) k2
      rcases stringValue_cases o.hashAlgorithm v with ⟨a, e1, e2, e3⟩ | ⟨⟨e, e1⟩, e2⟩
      · exact go { o with hashAlgorithm := a } (fun _ => e2) (by rw [outputMembers, if_neg (by simp [s1]), if_pos s2, e1]; rfl)
          fun pre ⟨p1, p2, p3⟩ =>
          ⟨fieldIs_skip p1 fun h => absurd h k1, fieldIs_step p2 k2 e3, fieldIs_skip p3 fun h => absurd h n3⟩
      · exact bad (fun h => e2 (h (.inr (.inl k2)))) ⟨e, by rw [outputMembers, if_neg (by simp [s1]), if_pos s2, e1]; rfl⟩
    rcases key_cases b!"hash" (by decide) k with ⟨s3, k3⟩ | ⟨s3, k3⟩
    · rcases stringValue_cases o.hash v with ⟨a, e1, e2, e3⟩ | ⟨⟨e, e1⟩, e2⟩
      · exact go { o with hash := a } (fun _ => e2)
          (by rw [outputMembers, if_neg (by simp [s1]), if_neg (by simp [s2]), if_pos s3, e1]; rfl) fun pre ⟨p1, p2, p3⟩ =>
          ⟨fieldIs_skip p1 fun h => absurd h k1, fieldIs_skip p2 fun h => absurd h k2, fieldIs_step p3 k3 e3⟩
      · exact bad (fun h => e2 (h (.inr (.inr k3))))
          ⟨e, by rw [outputMembers, if_neg (by simp [s1]), if_neg (by simp [s2]), if_pos s3, e1]; rfl⟩
    · refine go o ?_ (by rw [outputMembers, if_neg (by simp [s1]), if_neg (by simp [s2]), if_neg (by simp [s3])]) fun pre ⟨p1, p2, p3⟩ =>
        ⟨fieldIs_skip p1 fun h => absurd h k1, fieldIs_skip p2 fun h => absurd h k2, fieldIs_skip p3 fun h => absurd h k3⟩
      rintro (h | h | h)
      · exact absurd h k1
      · exact absurd h k2
      · exact absurd h k3

theorem outputValue_cases (v : Json) : (∃ o, outputValue v = .ok o ∧ OutputSays v o) ∨ ((∃ e, outputValue v = .err e) ∧ ¬ ∃ o, OutputSays v o) := by
  cases v with
  | null => exact .inl ⟨none, rfl, .inl ⟨rfl, rfl⟩⟩
  | obj m =>
    rw [outputValue]
    rcases outputMembers_cases m ⟨[], [], []⟩ with ⟨h1, o, h2, h3⟩ | ⟨h1, e, h2⟩
    · have h4 := h3 [] ⟨.inl ⟨rfl, by simp⟩, .inl ⟨rfl, by simp⟩, .inl ⟨rfl, by simp⟩⟩
      rw [List.nil_append] at h4
      exact .inl ⟨some o, by rw [h2]; rfl, .inr ⟨m, o.path, o.hashAlgorithm, o.hash, rfl, rfl, h1, h4⟩⟩
    · refine .inr ⟨⟨e, by rw [h2]; rfl⟩, ?_⟩
      rintro ⟨o, ⟨h, _⟩ | ⟨m', p, a, x, h, _, hk, _⟩⟩
      · cases h
      · cases h
        exact h1 hk
  | _ => exact .inr ⟨⟨_, rfl⟩, by simp [OutputSays]⟩

theorem outputSays_unique (v : Json) (x y : Option Output) (h : OutputSays v x) (h' : OutputSays v y) : x = y := by
  rcases h with ⟨e, e'⟩ | ⟨m, p, a, x, e, e', _, h1, h2, h3⟩ <;> rcases h' with ⟨f, f'⟩ | ⟨m', p', a', x', f, f', _, g1, g2, g3⟩
  · rw [e', f']
  · rw [e] at f; cases f
  · rw [e] at f; cases f
  · rw [e] at f
    cases f
    rw [e', f', fieldIs_unique isStr_unique isStr_null h1 g1, fieldIs_unique isStr_unique isStr_null h2 g2,
      fieldIs_unique isStr_unique isStr_null h3 g3]

theorem namesSay_unique (v : Json) (x y : List Bytes) (h : NamesSay v x) (h' : NamesSay v y) : x = y := by
  rcases h with ⟨e, e'⟩ | ⟨js, e, h⟩ <;> rcases h' with ⟨f, f'⟩ | ⟨js', f, h'⟩
  · rw [e', f']
  · rw [e] at f; cases f
  · rw [e] at f; cases f
  · rw [e] at f
    cases f
    exact itemsSay_unique h h'

theorem envSays_unique (v : Json) (x y : Bytes) (h : EnvSays v x) (h' : EnvSays v y) : x = y := by
  rcases h with e | ⟨e, e'⟩ <;> rcases h' with f | ⟨f, f'⟩
  · rw [e] at f; exact Json.str.inj f
  · rw [e] at f; cases f
  · rw [e] at f; cases f
  · rw [e', f']

theorem mapMembers_cases {α : Type} {V : Json → α → Prop} (dec : Json → Res α) (hV : ∀ v x y, V v x → V v y → x = y)
    (hd : ∀ v, (∃ a, dec v = .ok a ∧ V v a) ∨ ((∃ e, dec v = .err e) ∧ ¬ ∃ a, V v a)) : ∀ (l : Members) (m : GoMap α),
    ((∀ x ∈ memberList l, ∃ a, V x.2 a) ∧ ∃ m', mapMembers dec m l = .ok m' ∧ ∀ pre, MapSays V pre m → MapSays V (pre ++ memberList l) m') ∨
    ((¬ ∀ x ∈ memberList l, ∃ a, V x.2 a) ∧ ∃ e, mapMembers dec m l = .err e)
  | .nil, m => .inl ⟨by simp [memberList], m, rfl, fun pre h => by simpa [memberList] using h⟩
  | .cons k v l, m => by
    rw [mapMembers, memberList]
    rcases hd v with ⟨a, e1, e2⟩ | ⟨⟨e, e1⟩, e2⟩
    · rw [e1, Res.bind_ok]
      rcases mapMembers_cases dec hV hd l (m.insert k a) with ⟨g1, m', g2, g3⟩ | ⟨g1, e, g2⟩
      · refine .inl ⟨?_, m', g2, ?_⟩
        · intro x hx
          rcases List.mem_cons.1 hx with rfl | hx
          · exact ⟨a, e2⟩
          · exact g1 x hx
        · intro pre hp
          have := g3 _ (mapSays_insert hV hp (k := k) e2)
          simpa using this
      · exact .inr ⟨fun h => g1 fun x hx => h x (List.mem_cons_of_mem _ hx), e, g2⟩
    · exact .inr ⟨fun h => e2 (h _ List.mem_cons_self), e, by rw [e1]; rfl⟩

theorem mapValue_cases {α : Type} {V : Json → α → Prop} (dec : Json → Res α) (hV : ∀ v x y, V v x → V v y → x = y)
    (hd : ∀ v, (∃ a, dec v = .ok a ∧ V v a) ∨ ((∃ e, dec v = .err e) ∧ ¬ ∃ a, V v a)) (m : GoMap α) (v : Json) :
    (MapOrNull V v ∧ ∃ m', mapValue dec m v = .ok m' ∧ ∀ field pre l k, MapOf field pre l → MapSays V l m → KeyFor field k →
      ∃ l', MapOf field (pre ++ [(k, v)]) l' ∧ MapSays V l' m') ∨
    (¬ MapOrNull V v ∧ ∃ e, mapValue dec m v = .err e) := by
  cases v with
  | null => exact .inl ⟨.inl rfl, [], rfl, fun field pre l k h _ hk => ⟨[], .null h hk, mapSays_nil V⟩⟩
  | obj ms =>
    have hs : MapOrNull V (.obj ms) ↔ ∀ x ∈ memberList ms, ∃ a, V x.2 a := by
      unfold MapOrNull
      simp
    rw [hs, mapValue]
    rcases mapMembers_cases dec hV hd ms m with ⟨g1, m', g2, g3⟩ | ⟨g1, e, g2⟩
    · exact .inl ⟨g1, m', g2, fun field pre l k h h' hk => ⟨_, .obj h hk, g3 _ h'⟩⟩
    · exact .inr ⟨g1, e, g2⟩
  | _ => exact .inr ⟨by simp [MapOrNull], _, rfl⟩

/-! ### Derivations -/

/-- what the members so far have said, and the memory behind the two lists -/
structure Sofar (pre : List (Bytes × Json)) (r : RawDrv) (srcs args : List Bytes) : Prop where
  name : r.name = []
  outputs : ∃ l, MapOf b!"outputs" pre l ∧ MapSays OutputSays l r.outputs
  inputSources : ListOf b!"inputSrcs" pre r.inputSources srcs
  inputDerivations : ∃ l, MapOf b!"inputDrvs" pre l ∧ MapSays NamesSay l r.inputDerivations
  platform : FieldIs b!"system" IsStr [] pre r.platform
  builder : FieldIs b!"builder" IsStr [] pre r.builder
  arguments : ListOf b!"args" pre r.arguments args
  env : ∃ l, MapOf b!"env" pre l ∧ MapSays EnvSays l r.env

theorem mapOf_skip {α : Type} {V : Json → α → Prop} {field : Bytes} {pre : List (Bytes × Json)} {m : GoMap α} {k : Bytes} {v : Json}
    (h : ∃ l, MapOf field pre l ∧ MapSays V l m) (hk : ¬ KeyFor field k) : ∃ l, MapOf field (pre ++ [(k, v)]) l ∧ MapSays V l m := by
  obtain ⟨l, h1, h2⟩ := h
  exact ⟨l, .other h1 hk, h2⟩

/-- the key is for none of these fields -/
def NoKey (k : Bytes) (fs : List Bytes) : Prop := ∀ f ∈ fs, ¬ KeyFor f k

/-- the keys of the fields of a derivation -/
def drvKeys : List Bytes := [b!"outputs", b!"inputSrcs", b!"inputDrvs", b!"system", b!"builder", b!"args", b!"env"]

theorem noKey_of {k f : Bytes} (hf : f ∈ drvKeys) (h : KeyFor f k) : NoKey k (drvKeys.filter (· ≠ f)) := by
  intro g hg
  have hd : ∀ f ∈ drvKeys, ∀ g ∈ drvKeys.filter (· ≠ f), (∀ c ∈ f, c.toNat < 0x80) ∧ (∀ c ∈ g, c.toNat < 0x80) ∧ foldName f ≠ foldName g := by
    decide +kernel
  obtain ⟨a, b, c⟩ := hd f hf g hg
  exact key_ne a b c h

theorem drvMembers_cases : ∀ (l : Members) (r : RawDrv) (srcs args : List Bytes),
    ((∀ x ∈ memberList l, KindOk x.1 x.2) ∧ ∃ r', drvMembers r srcs args l = .ok r' ∧ ∀ pre, Sofar pre r srcs args →
      ∃ srcs' args', Sofar (pre ++ memberList l) r' srcs' args') ∨
    ((¬ ∀ x ∈ memberList l, KindOk x.1 x.2) ∧ ∃ e, drvMembers r srcs args l = .err e)
  | .nil, r, srcs, args => .inl ⟨by simp [memberList], r, rfl, fun pre h => ⟨srcs, args, by simpa [memberList] using h⟩⟩
  | .cons k v l, r, srcs, args => by
    have ih := drvMembers_cases l
    rw [memberList]
    have app : ∀ pre : List (Bytes × Json), pre ++ (k, v) :: memberList l = (pre ++ [(k, v)]) ++ memberList l := by simp
    have go : ∀ r1 s1 a1, KindOk k v → drvMembers r srcs args (.cons k v l) = drvMembers r1 s1 a1 l →
        (∀ pre, Sofar pre r srcs args → Sofar (pre ++ [(k, v)]) r1 s1 a1) →
        ((∀ x ∈ (k, v) :: memberList l, KindOk x.1 x.2) ∧ ∃ r', drvMembers r srcs args (.cons k v l) = .ok r' ∧
          ∀ pre, Sofar pre r srcs args → ∃ srcs' args', Sofar (pre ++ (k, v) :: memberList l) r' srcs' args') ∨
        ((¬ ∀ x ∈ (k, v) :: memberList l, KindOk x.1 x.2) ∧ ∃ e, drvMembers r srcs args (.cons k v l) = .err e) := by
      intro r1 s1 a1 hk he hf
      rw [he]
      rcases ih r1 s1 a1 with ⟨g1, o', g2, g3⟩ | ⟨g1, e, g2⟩
      · refine .inl ⟨?_, o', g2, fun pre hp => by rw [app]; exact g3 _ (hf pre hp)⟩
        intro x hx
        rcases List.mem_cons.1 hx with rfl | hx
        · exact hk
        · exact g1 x hx
      · exact .inr ⟨fun h => g1 fun x hx => h x (List.mem_cons_of_mem _ hx), e, g2⟩
    have bad : ¬ KindOk k v → (∃ e, drvMembers r srcs args (.cons k v l) = .err e) →
        ((∀ x ∈ (k, v) :: memberList l, KindOk x.1 x.2) ∧ ∃ r', drvMembers r srcs args (.cons k v l) = .ok r' ∧
          ∀ pre, Sofar pre r srcs args → ∃ srcs' args', Sofar (pre ++ (k, v) :: memberList l) r' srcs' args') ∨
        ((¬ ∀ x ∈ (k, v) :: memberList l, KindOk x.1 x.2) ∧ ∃ e, drvMembers r srcs args (.cons k v l) = .err e) :=
      fun h1 h2 => .inr ⟨fun h => h1 (h _ List.mem_cons_self), h2⟩
    have no : ∀ {f : Bytes} {P : Prop}, ¬ KeyFor f k → KeyFor f k → P := fun h h' => absurd h' h
    rcases key_cases b!"outputs" (by decide) k with ⟨s1, k1⟩ | ⟨s1, k1⟩
    · have hn := noKey_of (by decide) k1
      have n2 := hn b!"inputSrcs" (by decide)
      have n3 := hn b!"inputDrvs" (by decide)
      have n4 := hn b!"system" (by decide)
      have n5 := hn b!"builder" (by decide)
      have n6 := hn b!"args" (by decide)
      have n7 := hn b!"env" (by decide)
      rcases mapValue_cases outputValue outputSays_unique outputValue_cases r.outputs v with ⟨h1, m', h2, h3⟩ | ⟨h1, e, h2⟩
      · exact go { r with outputs := m' } srcs args ⟨fun _ => h1, no n2, no n3, no n4, no n5, no n6, no n7⟩
          (by rw [drvMembers, if_pos s1, h2]; rfl) fun pre p =>
          ⟨p.name, by obtain ⟨x, p1, p2⟩ := p.outputs; exact h3 _ _ _ _ p1 p2 k1, .other p.inputSources n2, mapOf_skip p.inputDerivations n3,
            fieldIs_skip p.platform (no n4), fieldIs_skip p.builder (no n5), .other p.arguments n6, mapOf_skip p.env n7⟩
      · exact bad (fun h => h1 (h.outputs k1)) ⟨e, by rw [drvMembers, if_pos s1, h2]; rfl⟩
    rcases key_cases b!"inputSrcs" (by decide) k with ⟨s2, k2⟩ | ⟨s2, k2⟩
    · have hn := noKey_of (by decide) k2
      have n3 := hn b!"inputDrvs" (by decide)
      have n4 := hn b!"system" (by decide)
      have n5 := hn b!"builder" (by decide)
      have n6 := hn b!"args" (by decide)
      have n7 := hn b!"env" (by decide)
      rcases stringsValue_cases ⟨r.inputSources, srcs⟩ v with ⟨h1, m', h2, h3⟩ | ⟨h1, e, h2⟩
      · exact go { r with inputSources := m'.elems } m'.spare args ⟨no k1, fun _ => h1, no n3, no n4, no n5, no n6, no n7⟩
          (by rw [drvMembers, if_neg (by simp [s1]), if_pos s2, h2]; rfl) fun pre p =>
          ⟨p.name, mapOf_skip p.outputs k1, h3 _ _ _ p.inputSources k2, mapOf_skip p.inputDerivations n3,
            fieldIs_skip p.platform (no n4), fieldIs_skip p.builder (no n5), .other p.arguments n6, mapOf_skip p.env n7⟩
      · exact bad (fun h => h1 (h.inputSources k2)) ⟨e, by rw [drvMembers, if_neg (by simp [s1]), if_pos s2, h2]; rfl⟩
    rcases key_cases b!"inputDrvs" (by decide) k with ⟨s3, k3⟩ | ⟨s3, k3⟩
    · have hn := noKey_of (by decide) k3
      have n4 := hn b!"system" (by decide)
      have n5 := hn b!"builder" (by decide)
      have n6 := hn b!"args" (by decide)
      have n7 := hn b!"env" (by decide)
      rcases mapValue_cases namesValue namesSay_unique namesValue_cases r.inputDerivations v with ⟨h1, m', h2, h3⟩ | ⟨h1, e, h2⟩
      · exact go { r with inputDerivations := m' } srcs args ⟨no k1, no k2, fun _ => h1, no n4, no n5, no n6, no n7⟩
          (by rw [drvMembers, if_neg (by simp [s1]), if_neg (by simp [s2]), if_pos s3, h2]; rfl) fun pre p =>
          ⟨p.name, mapOf_skip p.outputs k1, .other p.inputSources k2,
            by obtain ⟨x, p1, p2⟩ := p.inputDerivations; exact h3 _ _ _ _ p1 p2 k3,
            fieldIs_skip p.platform (no n4), fieldIs_skip p.builder (no n5), .other p.arguments n6, mapOf_skip p.env n7⟩
      · exact bad (fun h => h1 (h.inputDerivations k3))
          ⟨e, by rw [drvMembers, if_neg (by simp [s1]), if_neg (by simp [s2]), if_pos s3, h2]; rfl⟩
    rcases key_cases b!"system" (by decide) k with ⟨s4, k4⟩ | ⟨s4, k4⟩
    · have hn := noKey_of (by decide) k4
      have n5 := hn b!"builder" (by decide)
      have n6 := hn b!"args" (by decide)
      have n7 := hn b!"env" (by decide)
      rcases stringValue_cases r.platform v with ⟨a, e1, e2, e3⟩ | ⟨⟨e, e1⟩, e2⟩
      · exact go { r with platform := a } srcs args ⟨no k1, no k2, no k3, fun _ => e2, no n5, no n6, no n7⟩
          (by rw [drvMembers, if_neg (by simp [s1]), if_neg (by simp [s2]), if_neg (by simp [s3]), if_pos s4, e1]; rfl) fun pre p =>
          ⟨p.name, mapOf_skip p.outputs k1, .other p.inputSources k2, mapOf_skip p.inputDerivations k3,
            fieldIs_step p.platform k4 e3, fieldIs_skip p.builder (no n5), .other p.arguments n6, mapOf_skip p.env n7⟩
      · exact bad (fun h => e2 (h.platform k4))
          ⟨e, by rw [drvMembers, if_neg (by simp [s1]), if_neg (by simp [s2]), if_neg (by simp [s3]), if_pos s4, e1]; rfl⟩
    rcases key_cases b!"builder" (by decide) k with ⟨s5, k5⟩ | ⟨s5, k5⟩
    · have hn := noKey_of (by decide) k5
      have n6 := hn b!"args" (by decide)
      have n7 := hn b!"env" (by decide)
      rcases stringValue_cases r.builder v with ⟨a, e1, e2, e3⟩ | ⟨⟨e, e1⟩, e2⟩
      · exact go { r with builder := a } srcs args ⟨no k1, no k2, no k3, no k4, fun _ => e2, no n6, no n7⟩
          (by rw [drvMembers, if_neg (by simp [s1]), if_neg (by simp [s2]), if_neg (by simp [s3]), if_neg (by simp [s4]), if_pos s5, e1]
              rfl) fun pre p =>
          ⟨p.name, mapOf_skip p.outputs k1, .other p.inputSources k2, mapOf_skip p.inputDerivations k3,
            fieldIs_skip p.platform (no k4), fieldIs_step p.builder k5 e3, .other p.arguments n6, mapOf_skip p.env n7⟩
      · exact bad (fun h => e2 (h.builder k5))
          ⟨e, by rw [drvMembers, if_neg (by simp [s1]), if_neg (by simp [s2]), if_neg (by simp [s3]), if_neg (by simp [s4]), if_pos s5, e1]
                 rfl⟩
    rcases key_cases b!"args" (by decide) k with ⟨s6, k6⟩ | ⟨s6, k6⟩
    · have hn := noKey_of (by decide) k6
      have n7 := hn b!"env" (by decide)
      rcases stringsValue_cases ⟨r.arguments, args⟩ v with ⟨h1, m', h2, h3⟩ | ⟨h1, e, h2⟩
      · exact go { r with arguments := m'.elems } srcs m'.spare ⟨no k1, no k2, no k3, no k4, no k5, fun _ => h1, no n7⟩
          (by rw [drvMembers, if_neg (by simp [s1]), if_neg (by simp [s2]), if_neg (by simp [s3]), if_neg (by simp [s4]),
                if_neg (by simp [s5]), if_pos s6, h2]
              rfl) fun pre p =>
          ⟨p.name, mapOf_skip p.outputs k1, .other p.inputSources k2, mapOf_skip p.inputDerivations k3,
            fieldIs_skip p.platform (no k4), fieldIs_skip p.builder (no k5), h3 _ _ _ p.arguments k6, mapOf_skip p.env n7⟩
      · exact bad (fun h => h1 (h.arguments k6))
          ⟨e, by rw [drvMembers, if_neg (by simp [s1]), if_neg (by simp [s2]), if_neg (by simp [s3]), if_neg (by simp [s4]),
                   if_neg (by simp [s5]), if_pos s6, h2]
                 rfl⟩
    rcases key_cases b!"env" (by decide) k with ⟨s7, k7⟩ | ⟨s7, k7⟩
    · rcases mapValue_cases (stringValue []) envSays_unique envValue_cases r.env v with ⟨h1, m', h2, h3⟩ | ⟨h1, e, h2⟩
      · exact go { r with env := m' } srcs args ⟨no k1, no k2, no k3, no k4, no k5, no k6, fun _ => h1⟩
          (by rw [drvMembers, if_neg (by simp [s1]), if_neg (by simp [s2]), if_neg (by simp [s3]), if_neg (by simp [s4]),
                if_neg (by simp [s5]), if_neg (by simp [s6]), if_pos s7, h2]
              rfl) fun pre p =>
          ⟨p.name, mapOf_skip p.outputs k1, .other p.inputSources k2, mapOf_skip p.inputDerivations k3,
            fieldIs_skip p.platform (no k4), fieldIs_skip p.builder (no k5), .other p.arguments k6,
            by obtain ⟨x, p1, p2⟩ := p.env; exact h3 _ _ _ _ p1 p2 k7⟩
      · exact bad (fun h => h1 (h.env k7))
          ⟨e, by rw [drvMembers, if_neg (by simp [s1]), if_neg (by simp [s2]), if_neg (by simp [s3]), if_neg (by simp [s4]),
                   if_neg (by simp [s5]), if_neg (by simp [s6]), if_pos s7, h2]
                 rfl⟩
    · exact go r srcs args ⟨no k1, no k2, no k3, no k4, no k5, no k6, no k7⟩
        (by rw [drvMembers, if_neg (by simp [s1]), if_neg (by simp [s2]), if_neg (by simp [s3]), if_neg (by simp [s4]),
              if_neg (by simp [s5]), if_neg (by simp [s6]), if_neg (by simp [s7])]) fun pre p =>
        ⟨p.name, mapOf_skip p.outputs k1, .other p.inputSources k2, mapOf_skip p.inputDerivations k3,
          fieldIs_skip p.platform (no k4), fieldIs_skip p.builder (no k5), .other p.arguments k6, mapOf_skip p.env k7⟩

theorem drvFields_same {ms : List (Bytes × Json)} {r r' : RawDrv} (h : DrvFields ms r) (h' : DrvFields ms r') : RawSame r r' := by
  have maps : ∀ {α : Type} {V : Json → α → Prop} {field : Bytes} {m m' : GoMap α},
      (∃ l, MapOf field ms l ∧ MapSays V l m) → (∃ l, MapOf field ms l ∧ MapSays V l m') → m.Perm m' := by
    rintro α V field m m' ⟨l, h1, h2⟩ ⟨l', h1', h2'⟩
    obtain rfl := mapOf_unique h1 h1'
    exact mapSays_perm h2 h2'
  obtain ⟨s1, hs⟩ := h.inputSources
  obtain ⟨s2, hs'⟩ := h'.inputSources
  obtain ⟨a1, ha⟩ := h.arguments
  obtain ⟨a2, ha'⟩ := h'.arguments
  exact ⟨h.name.trans h'.name.symm, maps h.outputs h'.outputs, (listOf_unique hs hs').1, maps h.inputDerivations h'.inputDerivations,
    fieldIs_unique isStr_unique isStr_null h.platform h'.platform, fieldIs_unique isStr_unique isStr_null h.builder h'.builder,
    (listOf_unique ha ha').1, maps h.env h'.env⟩

theorem drvFields_of_same {ms : List (Bytes × Json)} {r r' : RawDrv} (h : DrvFields ms r) (hs : RawSame r r') : DrvFields ms r' := by
  have maps : ∀ {α : Type} {V : Json → α → Prop} {field : Bytes} {m m' : GoMap α},
      (∃ l, MapOf field ms l ∧ MapSays V l m) → m.Perm m' → ∃ l, MapOf field ms l ∧ MapSays V l m' := by
    rintro α V field m m' ⟨l, h1, h2⟩ hp
    exact ⟨l, h1, mapSays_of_perm h2 hp⟩
  refine ⟨hs.name ▸ h.name, maps h.outputs hs.outputs, hs.inputSources ▸ h.inputSources, maps h.inputDerivations hs.inputDerivations,
    hs.platform ▸ h.platform, hs.builder ▸ h.builder, hs.arguments ▸ h.arguments, maps h.env hs.env⟩

theorem sofar_zero : Sofar [] zeroDrv [] [] :=
  ⟨rfl, ⟨[], .nil, mapSays_nil _⟩, .nil, ⟨[], .nil, mapSays_nil _⟩, .inl ⟨rfl, by simp⟩, .inl ⟨rfl, by simp⟩, .nil, ⟨[], .nil, mapSays_nil _⟩⟩

end Verif.Derivation
