import Verif.Model.Attrs
import Verif.Spec.Attrs
import Verif.Lemmas.JsonFold
import Verif.Props.Derivation

/-!
# C110: the name of derivations with structured attributes
-/

namespace Verif.Props
open Verif.GoLib Verif.GoJson Verif.Derivation Verif.Spec Verif.Wire

theorem unmarshal_doc {s : Bytes} {v : Json} : unmarshal s = some v ↔ JDoc s v := by
  rw [unmarshal_iff]
  unfold JDoc
  constructor
  · rintro ⟨w, t, w', e, hw, ht, hw', hd⟩
    exact ⟨w, t, w', e, hw, hw', ht, hd⟩
  · rintro ⟨w, t, w', e, hw, hw', ht, hd⟩
    exact ⟨w, t, w', e, hw, ht, hw', hd⟩

theorem jdoc_unique {s : Bytes} {v v' : Json} (h : JDoc s v) (h' : JDoc s v') : v = v' := by
  rw [← unmarshal_doc] at h h'
  rw [h] at h'
  exact Option.some.inj h'

theorem lower_key : ∀ c d : Fin 256, c.val ∈ [78, 97, 109, 101] →
    (lower (UInt8.ofNat d) = lower (UInt8.ofNat c) ↔
      (UInt8.ofNat d = UInt8.ofNat c ∨ (65 ≤ c.val ∧ c.val ≤ 90 ∧ UInt8.ofNat d = UInt8.ofNat c + 32) ∨
        (97 ≤ c.val ∧ c.val ≤ 122 ∧ UInt8.ofNat d = UInt8.ofNat c - 32))) := by
  decide +kernel

theorem lower_byte {c d : UInt8} (hc : c ∈ b!"Name") : lower d = lower c ↔
    (d = c ∨ (65 ≤ c.toNat ∧ c.toNat ≤ 90 ∧ d = c + 32) ∨ (97 ≤ c.toNat ∧ c.toNat ≤ 122 ∧ d = c - 32)) := by
  have hc' : c.toNat ∈ [78, 97, 109, 101] := by
    revert hc
    simp only [List.mem_cons, List.not_mem_nil, or_false]
    rintro (rfl | rfl | rfl | rfl) <;> decide
  have h := lower_key ⟨c.toNat, c.toNat_lt⟩ ⟨d.toNat, d.toNat_lt⟩ hc'
  simpa using h

theorem keyFor_name {field key : Bytes} (hf : ∀ c ∈ field, c ∈ b!"Name") : KeyFor field key ↔ key.map lower = field.map lower := by
  constructor
  · intro h
    induction h with
    | nil => rfl
    | @cons c t field key hl _ ih =>
      have ih := ih fun x hx => hf x (List.mem_cons_of_mem _ hx)
      have hc := hf c List.mem_cons_self
      have byte : ∀ d : UInt8, lower d = lower c → ([d] ++ key).map lower = (c :: field).map lower := by
        intro d he
        simp only [List.cons_append, List.nil_append, List.map_cons, he, ih]
      have hSK : c ≠ 83 ∧ c ≠ 115 ∧ c ≠ 75 ∧ c ≠ 107 := by
        revert hc
        simp only [List.mem_cons, List.not_mem_nil, or_false]
        rintro (rfl | rfl | rfl | rfl) <;> decide
      rcases hl with rfl | ⟨h1, h2, rfl⟩ | ⟨h1, h2, rfl⟩ | ⟨h1, rfl⟩ | ⟨h1, rfl⟩
      · exact byte c rfl
      · exact byte _ ((lower_byte hc).2 (.inr (.inl ⟨h1, h2, rfl⟩)))
      · exact byte _ ((lower_byte hc).2 (.inr (.inr ⟨h1, h2, rfl⟩)))
      · exact absurd h1 (by rintro (h | h); exact hSK.1 h; exact hSK.2.1 h)
      · exact absurd h1 (by rintro (h | h); exact hSK.2.2.1 h; exact hSK.2.2.2 h)
  · intro h
    induction field generalizing key with
    | nil =>
      cases key with
      | nil => exact .nil
      | cons a k => simp at h
    | cons c f ih =>
      cases key with
      | nil => simp at h
      | cons d k =>
        simp only [List.map_cons, List.cons.injEq] at h
        have := KeyFor.cons (c := c) (t := [d]) ?_ (ih (fun x hx => hf x (List.mem_cons_of_mem _ hx)) h.2)
        · simpa using this
        · rcases (lower_byte (hf c List.mem_cons_self)).1 h.1 with h | h | h
          · exact .inl (by rw [h])
          · exact .inr (.inl ⟨h.1, h.2.1, by rw [h.2.2]⟩)
          · exact .inr (.inr (.inl ⟨h.1, h.2.1, by rw [h.2.2]⟩))

theorem saysName_iff (k : Bytes) : sameField b!"Name" k = true ↔ SaysName k := by
  rw [sameField_iff (by decide), keyFor_name (by decide)]
  have : b!"Name".map lower = b!"name" := by decide
  rw [this]
  rfl

theorem nameMembers_iff (l : Members) : ∀ n0 n : Bytes, nameMembers n0 l = .ok n ↔
    NamesOk (memberList l) ∧ ((n = n0 ∧ ∀ m ∈ memberList l, SaysName m.1 → m.2 = .null) ∨
      ∃ before k after, memberList l = before ++ (k, .str n) :: after ∧ SaysName k ∧ ∀ m ∈ after, SaysName m.1 → m.2 = .null) := by
  match l with
  | .nil =>
    intro n0 n
    simp [nameMembers, memberList, NamesOk]
    exact eq_comm
  | .cons k v l =>
    intro n0 n
    have ih := nameMembers_iff l
    have hk := saysName_iff k
    rw [nameMembers, memberList]
    have skip : (v = .null ∨ ¬ SaysName k) → ((NamesOk (memberList l) ∧ ((n = n0 ∧ ∀ m ∈ memberList l, SaysName m.1 → m.2 = .null) ∨
          ∃ before k after, memberList l = before ++ (k, .str n) :: after ∧ SaysName k ∧ ∀ m ∈ after, SaysName m.1 → m.2 = .null)) ↔
        (NamesOk ((k, v) :: memberList l) ∧ ((n = n0 ∧ ∀ m ∈ (k, v) :: memberList l, SaysName m.1 → m.2 = .null) ∨
          ∃ before k' after, (k, v) :: memberList l = before ++ (k', .str n) :: after ∧ SaysName k' ∧ ∀ m ∈ after, SaysName m.1 → m.2 = .null))) := by
      intro hv
      constructor
      · rintro ⟨h1, h2⟩
        refine ⟨?_, ?_⟩
        · intro m hm hs
          rcases List.mem_cons.1 hm with rfl | hm
          · rcases hv with hv | hv
            · exact .inl hv
            · exact absurd hs hv
          · exact h1 m hm hs
        · rcases h2 with ⟨h2, h3⟩ | ⟨b, k', a, h2, h3, h4⟩
          · refine .inl ⟨h2, ?_⟩
            intro m hm hs
            rcases List.mem_cons.1 hm with rfl | hm
            · rcases hv with hv | hv
              · exact hv
              · exact absurd hs hv
            · exact h3 m hm hs
          · exact .inr ⟨(k, v) :: b, k', a, by rw [h2]; rfl, h3, h4⟩
      · rintro ⟨h1, h2⟩
        refine ⟨fun m hm => h1 m (List.mem_cons_of_mem _ hm), ?_⟩
        rcases h2 with ⟨h2, h3⟩ | ⟨b, k', a, h2, h3, h4⟩
        · exact .inl ⟨h2, fun m hm => h3 m (List.mem_cons_of_mem _ hm)⟩
        · cases b with
          | nil =>
            simp only [List.nil_append, List.cons.injEq, Prod.mk.injEq] at h2
            obtain ⟨⟨rfl, rfl⟩, rfl⟩ := h2
            rcases hv with hv | hv
            · cases hv
            · exact absurd h3 hv
          | cons x b =>
            simp only [List.cons_append, List.cons.injEq] at h2
            exact .inr ⟨b, k', a, h2.2, h3, h4⟩
    cases hs : sameField b!"Name" k with
    | false =>
      rw [if_neg (by simp)]
      rw [ih n0 n]
      exact skip (.inr fun h => by rw [hk.2 h] at hs; cases hs)
    | true =>
      rw [if_pos rfl]
      have hS := hk.1 hs
      have other : (∀ s, v ≠ .str s) → v ≠ .null → ¬ NamesOk ((k, v) :: memberList l) := by
        intro h1 h2 h
        rcases h (k, v) List.mem_cons_self hS with h | ⟨s, h⟩
        · exact h2 h
        · exact h1 s h
      cases v with
      | null => rw [nameValue, Res.bind_ok, ih n0 n]; exact skip (.inl rfl)
      | str s =>
        rw [nameValue, Res.bind_ok, ih s n]
        constructor
        · rintro ⟨h1, h2⟩
          refine ⟨?_, ?_⟩
          · intro m hm hs
            rcases List.mem_cons.1 hm with rfl | hm
            · exact .inr ⟨s, rfl⟩
            · exact h1 m hm hs
          · rcases h2 with ⟨rfl, h3⟩ | ⟨b, k', a, h2, h3, h4⟩
            · exact .inr ⟨[], k, memberList l, rfl, hS, h3⟩
            · exact .inr ⟨(k, .str s) :: b, k', a, by rw [h2]; rfl, h3, h4⟩
        · rintro ⟨h1, h2⟩
          refine ⟨fun m hm => h1 m (List.mem_cons_of_mem _ hm), ?_⟩
          rcases h2 with ⟨h2, h3⟩ | ⟨b, k', a, h2, h3, h4⟩
          · exact absurd (h3 _ List.mem_cons_self hS) (by simp)
          · cases b with
            | nil =>
              simp only [List.nil_append, List.cons.injEq, Prod.mk.injEq, Json.str.injEq] at h2
              obtain ⟨⟨rfl, rfl⟩, rfl⟩ := h2
              exact .inl ⟨rfl, h4⟩
            | cons x b =>
              simp only [List.cons_append, List.cons.injEq] at h2
              exact .inr ⟨b, k', a, h2.2, h3, h4⟩
      | bool b => simp [nameValue, other (by simp) (by simp)]
      | num b => simp [nameValue, other (by simp) (by simp)]
      | arr b => simp [nameValue, other (by simp) (by simp)]
      | obj b => simp [nameValue, other (by simp) (by simp)]

theorem nameMembers_ne_panic (l : Members) : ∀ n0, nameMembers n0 l ≠ .panic := by
  match l with
  | .nil => intro n0; simp [nameMembers]
  | .cons k v l =>
    intro n0
    have ih := nameMembers_ne_panic l
    rw [nameMembers]
    split
    · cases v with
      | null => exact ih _
      | str s => exact ih _
      | _ => simp [nameValue]
    · exact ih _

theorem drvField_keeps_name {d d' : Derivation} {v : Bytes} {i : Nat} (h : drvField d v i = .ok d') : d'.name = d.name := by
  unfold drvField at h
  repeat' split at h
  all_goals first
    | (rw [Res.bind_eq_ok] at h; obtain ⟨_, _, h⟩ := h; cases h; rfl)
    | cases h

theorem name_callEach {l : List Bytes} : ∀ {d d' : Derivation} {i : Nat}, callEach drvField d i l = .ok d' → d'.name = d.name := by
  induction l with
  | nil => intro d d' i h; cases h; rfl
  | cons v l ih =>
    intro d d' i h
    rw [callEach, Res.bind_eq_ok] at h
    obtain ⟨d1, h1, h2⟩ := h
    rw [ih h2, drvField_keeps_name h1]

theorem name_arrayEach {v : Bytes} {d : Derivation} (h : arrayEach v emptyDrv drvField = .ok d) : d.name = [] := by
  unfold arrayEach at h
  rw [Res.bind_eq_ok] at h
  obtain ⟨_, _, h⟩ := h
  exact name_callEach h

/-- The name that is read from the attributes, exactly: the value of `__json` is one JSON object, all members that
say "name" in any case are strings or null, and the last of them that is not null is the name; if it is `null`, the
program panics; all other values are errors. -/
theorem C110_name (j : Bytes) :
    (∀ n, attrsName (jsonName j) = .ok n ↔ ∃ l, JDoc j (.obj l) ∧ NamesOk (memberList l) ∧ LastName (memberList l) n) ∧
    (attrsName (jsonName j) = .panic ↔ JDoc j .null) := by
  unfold jsonName
  cases hu : unmarshal j with
  | none =>
    have no : ∀ v, ¬ JDoc j v := fun v hv => by rw [unmarshal_doc.2 hv] at hu; cases hu
    simp [attrsName, no]
  | some v =>
    have hv := unmarshal_doc.1 hu
    have uniq : ∀ v', JDoc j v' → v' = v := fun v' hv' => jdoc_unique hv' hv
    cases v with
    | null =>
      simp only [attrsName, reduceCtorEq, false_iff, not_exists, hv]
      exact ⟨fun _ l h => by (cases uniq _ h.1), trivial⟩
    | obj l =>
      have hm := nameMembers_iff l []
      have hp := nameMembers_ne_panic l []
      have key : ∀ n, (∃ l', JDoc j (.obj l') ∧ NamesOk (memberList l') ∧ LastName (memberList l') n) ↔ nameMembers [] l = .ok n := by
        intro n
        rw [hm n]
        constructor
        · rintro ⟨l', h1, h2, h3⟩
          cases uniq _ h1
          exact ⟨h2, h3⟩
        · rintro ⟨h2, h3⟩
          exact ⟨l, hv, h2, h3⟩
      have nn : ¬ JDoc j .null := fun h => by cases uniq _ h
      simp only [key, nn, iff_false]
      cases hn : nameMembers [] l with
      | panic => exact absurd hn hp
      | ok n => simp [attrsName]
      | err e => simp [attrsName]
    | bool b =>
      simp only [attrsName, reduceCtorEq, false_iff, not_exists]
      exact ⟨fun _ l h => by (cases uniq _ h.1), fun h => by (cases uniq _ h)⟩
    | num b =>
      simp only [attrsName, reduceCtorEq, false_iff, not_exists]
      exact ⟨fun _ l h => by (cases uniq _ h.1), fun h => by (cases uniq _ h)⟩
    | str b =>
      simp only [attrsName, reduceCtorEq, false_iff, not_exists]
      exact ⟨fun _ l h => by (cases uniq _ h.1), fun h => by (cases uniq _ h)⟩
    | arr b =>
      simp only [attrsName, reduceCtorEq, false_iff, not_exists]
      exact ⟨fun _ l h => by (cases uniq _ h.1), fun h => by (cases uniq _ h)⟩

/-- In particular: if one member says "name", it is the name. -/
theorem C110_plain_partial (j n k : Bytes) (l : Members) (before after : List (Bytes × Json)) (h : JDoc j (.obj l))
    (hl : memberList l = before ++ (k, .str n) :: after) (hk : SaysName k) (ho : ∀ m ∈ before ++ after, ¬ SaysName m.1) :
    attrsName (jsonName j) = .ok n := by
  refine ((C110_name j).1 n).2 ⟨l, h, ?_, .inr ⟨before, k, after, hl, hk, fun m hm hs => absurd hs (ho m (List.mem_append_right _ hm))⟩⟩
  intro m hm hs
  rw [hl, List.mem_append, List.mem_cons] at hm
  rcases hm with hm | rfl | hm
  · exact absurd hs (ho m (List.mem_append_left _ hm))
  · exact .inr ⟨n, rfl⟩
  · exact absurd hs (ho m (List.mem_append_right _ hm))

/-- JSON objects are case sensitive: the member `name` of an object need not be the name that is read. -/
theorem C110_refuted : ∃ (j : Bytes) (l : Members), JDoc j (.obj l) ∧ (memberList l).filter (fun m => m.1 == b!"name") = [(b!"name", .str b!"a")] ∧
    attrsName (jsonName j) = .ok b!"b" :=
  ⟨b!"{\"name\":\"a\",\"NAME\":\"b\"}", .cons b!"name" (.str b!"a") (.cons b!"NAME" (.str b!"b") .nil),
    unmarshal_doc.1 (by decide +kernel), by decide +kernel, by decide +kernel⟩

/-- `ReadDerivation`, on every text: a derivation with `__json` gets the name that `C110_name` describes, others have
an empty one. -/
theorem C110_read (s : Stream) (d : Derivation) (h : readDerivation jsonName s = .ok d) :
    (∀ j, d.env.get? b!"__json" = some j →
      ∃ l, JDoc j (.obj l) ∧ NamesOk (memberList l) ∧ LastName (memberList l) d.name) ∧
    (d.env.get? b!"__json" = none → d.name = []) := by
  unfold readDerivation at h
  split at h
  · cases h
  · rw [Res.bind_eq_ok] at h
    obtain ⟨d', h1, h2⟩ := h
    rw [Res.bind_eq_ok] at h2
    obtain ⟨_, _, h2⟩ := h2
    cases h2
    unfold parseDerivation at h1
    split at h1
    · cases h1
    · split at h1
      · cases h1
      · rw [Res.bind_eq_ok] at h1
        obtain ⟨d0, h0, h1⟩ := h1
        split at h1
        · rename_i hj
          cases h1
          refine ⟨fun j hj' => by rw [hj] at hj'; (cases hj'), fun _ => ?_⟩
          exact name_arrayEach h0
        · rename_i j hj
          rw [Res.bind_eq_ok] at h1
          obtain ⟨n, hn, h1⟩ := h1
          cases h1
          refine ⟨fun j' hj' => ?_, fun hj' => ?_⟩
          · simp only at hj'
            rw [hj] at hj'
            cases hj'
            exact ((C110_name j).1 n).1 hn
          · simp only at hj'
            rw [hj] at hj'
            cases hj'

example : attrsName (jsonName b!" {\"outputs\": [\"out\"], \"name\" : \"x-\\u00e91\", \"env\": {\"name\": 3}}\n") = .ok (b!"x-" ++ [0xC3, 0xA9] ++ b!"1") := by
  decide +kernel

example : attrsName (jsonName b!"null") = .panic ∧ (attrsName (jsonName b!"{\"name\":1}")).isOk = false ∧
    attrsName (jsonName b!"{}") = .ok [] := by decide +kernel

/-- a text with structured attributes that is read -/
example : (match readDerivation jsonName ⟨b!"Derive([(\"out\",\"/nix/store/" ++ dHash ++
      b!"-x\",\"\",\"\")],[],[],\"s\",\"b\",[],[(\"__json\",\"{\\\"name\\\":\\\"x\\\"}\")])", .eof⟩ with
    | .ok d => decide (d.name = b!"x" ∧ d.env.get? b!"__json" = some b!"{\"name\":\"x\"}")
    | _ => false) = true := by decide +kernel

end Verif.Props
