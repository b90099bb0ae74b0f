import Verif.Lemmas.DrvGrammar
import Verif.Props.Derivation

/-!
# What `ReadDerivation` accepts (C99)
-/

namespace Verif.Props
open Verif.GoLib Verif.Derivation Verif.Wire

theorem unquoteSlice_iff (v s : Bytes) : unquoteSlice v = .ok s ↔ v = quoted s := by
  constructor
  · intro h
    unfold unquoteSlice at h
    split at h
    · cases h
    rename_i hl
    split at h
    · cases h
    rename_i hq
    simp only [not_or, Decidable.not_not] at hq
    cases Res.ok.inj h
    match v with
    | [] => simp at hl
    | a :: v =>
      rcases List.eq_nil_or_concat v with rfl | ⟨m, c, rfl⟩
      · simp at hl
      · have h1 : a = 34 := by simpa using hq.1
        have h2 : c = 34 := by
          have hlast : (a :: m.concat c).getLast? = some c := by rw [List.concat_eq_append, ← List.cons_append, List.getLast?_append]; simp
          rw [hlast] at hq
          simpa using hq.2
        subst h1 h2
        simp [quoted]
  · rintro rfl
    exact unquoteSlice_quoted s

theorem unquote_iff (v s : Bytes) : unquote v = .ok s ↔ ∃ raw, v = quoted raw ∧ s = unescape raw := by
  constructor
  · intro h
    have h' := h
    unfold unquote at h'
    rw [Res.bind_eq_ok] at h'
    obtain ⟨raw, h1, _⟩ := h'
    obtain rfl := (unquoteSlice_iff v raw).1 h1
    rw [unquote_quoted] at h
    exact ⟨raw, rfl, (Res.ok.inj h).symm⟩
  · rintro ⟨raw, rfl, rfl⟩
    exact unquote_quoted raw

theorem arrayEach_iff {σ : Type} (v : Bytes) (s r : σ) (f : σ → Bytes → Nat → Res σ) :
    arrayEach v s f = .ok r ↔ ∃ items, Listing items v ∧ callEach f s 0 items = .ok r := by
  unfold arrayEach
  rw [Res.bind_eq_ok]
  constructor
  · rintro ⟨items, h1, h2⟩; exact ⟨items, (arrayItems_iff v items).1 h1, h2⟩
  · rintro ⟨items, h1, h2⟩; exact ⟨items, (arrayItems_iff v items).2 h1, h2⟩

theorem callEach_strings_iff (items : List Bytes) : ∀ (acc : List Bytes) (i : Nat) (r : List Bytes),
    callEach (fun acc v _ => do let u ← unquoteSlice v; .ok (acc ++ [u])) acc i items = .ok r ↔ ∃ l, items = l.map quoted ∧ r = acc ++ l := by
  intro acc i r
  constructor
  · induction items generalizing acc i with
    | nil => intro h; cases h; exact ⟨[], rfl, by simp⟩
    | cons v items ih =>
      intro h
      rw [callEach, Res.bind_eq_ok] at h
      obtain ⟨s', h1, h2⟩ := h
      rw [Res.bind_eq_ok] at h1
      obtain ⟨u, h3, h4⟩ := h1
      cases Res.ok.inj h4
      obtain rfl := (unquoteSlice_iff v u).1 h3
      obtain ⟨l, rfl, rfl⟩ := ih _ _ h2
      exact ⟨u :: l, rfl, by simp⟩
  · rintro ⟨l, rfl, rfl⟩
    exact callEach_strings l acc i

theorem stringList_iff (v : Bytes) (l : List Bytes) : stringList v = .ok l ↔ Strings l v := by
  unfold stringList
  rw [arrayEach_iff]
  constructor
  · rintro ⟨items, h1, h2⟩
    obtain ⟨l', rfl, rfl⟩ := (callEach_strings_iff items [] 0 l).1 h2
    exact h1
  · intro h
    exact ⟨_, h, (callEach_strings_iff _ [] 0 l).2 ⟨l, rfl, rfl⟩⟩

/-! ## Tables -/

/-- The callback of a table: it stores an entry for the item, whose key is empty or greater than the one before. -/
structure ItemSpec {α : Type} (f : GoMap α × Bytes → Bytes → Nat → Res (GoMap α × Bytes)) (item : Bytes → Bytes × α → Prop) : Prop where
  sound : ∀ s v i s', f s v i = .ok s' → ∃ e : Bytes × α, s' = (s.1.insert e.1 e.2, e.1) ∧ (e.1 = [] ∨ (s.2 < e.1 ∧ item v e))
  complete : ∀ s v i (e : Bytes × α), s.2 < e.1 → item v e → f s v i = .ok (s.1.insert e.1 e.2, e.1)

theorem keys_callEach {α : Type} {f : GoMap α × Bytes → Bytes → Nat → Res (GoMap α × Bytes)} {item : Bytes → Bytes × α → Prop} (hf : ItemSpec f item)
    (items : List Bytes) : ∀ s i r, callEach f s i items = .ok r → ∀ k ∈ s.1.keys, k ∈ r.1.keys := by
  induction items with
  | nil => intro s i r h; cases h; exact fun _ h => h
  | cons v items ih =>
    intro s i r h k hk
    rw [callEach, Res.bind_eq_ok] at h
    obtain ⟨s', h1, h2⟩ := h
    obtain ⟨e, rfl, _⟩ := hf.sound s v i s' h1
    exact ih _ _ _ h2 k ((GoMap.keys_insert_mem _ _ _ _).2 (.inr hk))

theorem table_sound {α : Type} {f : GoMap α × Bytes → Bytes → Nat → Res (GoMap α × Bytes)} {item : Bytes → Bytes × α → Prop} (hf : ItemSpec f item)
    (items : List Bytes) : ∀ s i r, callEach f s i items = .ok r → ([] : Bytes) ∉ r.1.keys → (∀ k ∈ s.1.keys, k ≤ s.2) →
    ∃ l : List (Bytes × (Bytes × α)), l.map (·.1) = items ∧ r.1 = s.1 ++ l.map (·.2) ∧ (∀ x ∈ l, item x.1 x.2) ∧
      (s.2 :: l.map (·.2.1)).Pairwise (· < ·) := by
  induction items with
  | nil => intro s i r h _ _; cases h; exact ⟨[], rfl, by simp, by simp, by simp⟩
  | cons v items ih =>
    intro s i r h hne hs
    rw [callEach, Res.bind_eq_ok] at h
    obtain ⟨s', h1, h2⟩ := h
    obtain ⟨e, rfl, he⟩ := hf.sound s v i s' h1
    rcases he with he | ⟨hlt, hitem⟩
    · exact absurd (keys_callEach hf items _ _ _ h2 [] ((GoMap.keys_insert_mem _ _ _ _).2 (.inl he.symm))) hne
    · have hnot : e.1 ∉ s.1.keys := fun hm => absurd (hs _ hm) (List.not_le.2 hlt)
      obtain ⟨l, rfl, g2, g3, g4⟩ := ih _ _ _ h2 hne (by
        intro k hk
        rcases (GoMap.keys_insert_mem _ _ _ _).1 hk with rfl | hk
        · exact List.le_refl _
        · exact List.le_of_lt (List.lt_of_le_of_lt (hs k hk) hlt))
      refine ⟨(v, e) :: l, rfl, ?_, ?_, ?_⟩
      · rw [g2, insert_append _ _ _ hnot]; simp
      · intro x hx
        rcases List.mem_cons.1 hx with rfl | hx
        · exact hitem
        · exact g3 x hx
      · simp only [List.map_cons]
        rw [List.pairwise_cons]
        refine ⟨?_, g4⟩
        intro x hx
        rcases List.mem_cons.1 hx with rfl | hx
        · exact hlt
        · exact List.lt_trans hlt ((List.pairwise_cons.1 g4).1 x hx)

theorem table_complete {α : Type} {f : GoMap α × Bytes → Bytes → Nat → Res (GoMap α × Bytes)} {item : Bytes → Bytes × α → Prop} (hf : ItemSpec f item)
    (l : List (Bytes × (Bytes × α))) : ∀ s i, (∀ x ∈ l, item x.1 x.2) → (s.2 :: l.map (·.2.1)).Pairwise (· < ·) → (∀ k ∈ s.1.keys, k ≤ s.2) →
    ∃ k, callEach f s i (l.map (·.1)) = .ok (s.1 ++ l.map (·.2), k) := by
  induction l with
  | nil => intro s i _ _ _; exact ⟨s.2, by simp [callEach]⟩
  | cons a l ih =>
    intro s i h1 h2 hs
    simp only [List.map_cons] at h2
    rw [List.pairwise_cons] at h2
    have hlt : s.2 < a.2.1 := h2.1 _ List.mem_cons_self
    have hnot : a.2.1 ∉ s.1.keys := fun hm => absurd (hs _ hm) (List.not_le.2 hlt)
    rw [List.map_cons, callEach, hf.complete s a.1 i a.2 hlt (h1 a List.mem_cons_self), Res.bind_ok]
    obtain ⟨k, hk⟩ := ih (s.1.insert a.2.1 a.2.2, a.2.1) (i + 1) (fun x hx => h1 x (List.mem_cons_of_mem _ hx)) h2.2 (by
      intro k hk
      rcases (GoMap.keys_insert_mem _ _ _ _).1 hk with rfl | hk
      · exact List.le_refl _
      · exact List.le_of_lt (List.lt_of_le_of_lt (hs k hk) hlt))
    refine ⟨k, ?_⟩
    rw [hk, insert_append _ _ _ hnot]
    simp

/-- A table is read as the grammar says. -/
theorem arrayEach_table {α : Type} {f : GoMap α × Bytes → Bytes → Nat → Res (GoMap α × Bytes)} {item : Bytes → Bytes × α → Prop} (hf : ItemSpec f item)
    (v : Bytes) (m : GoMap α) (hm : ([] : Bytes) ∉ m.keys) : (∃ k, arrayEach v ([], []) f = .ok (m, k)) ↔ Table item m v := by
  constructor
  · rintro ⟨k, h⟩
    obtain ⟨items, h1, h2⟩ := (arrayEach_iff _ _ _ _).1 h
    obtain ⟨l, rfl, g2, g3, g4⟩ := table_sound hf items _ _ _ h2 hm (by simp [GoMap.keys])
    have g2' : m = l.map (·.2) := by simpa using g2
    refine ⟨?_, l, h1, g2'.symm, g3⟩
    rw [g2']
    have : (GoMap.keys (l.map (·.2))) = l.map (·.2.1) := by simp [GoMap.keys]
    unfold Increasing
    rw [this]
    exact g4
  · rintro ⟨h1, l, h2, rfl, h3⟩
    have : (GoMap.keys (l.map (·.2))) = l.map (·.2.1) := by simp [GoMap.keys]
    unfold Increasing at h1
    rw [this] at h1
    obtain ⟨k, hk⟩ := table_complete hf l ([], []) 0 h3 h1 (by simp [GoMap.keys])
    exact ⟨k, (arrayEach_iff _ _ _ _).2 ⟨_, h2, by simpa using hk⟩⟩

/-! ## Items -/

theorem order_ok {k prev : Bytes} {α : Type} {e : Err} {a : α} (h : prev < k) : (if strLe k prev then Res.err e else .ok a) = .ok a :=
  if_neg fun hle => absurd ((strLe_iff _ _).1 hle) (List.not_le.2 h)

theorem callEach_cons_ok {σ : Type} {f : σ → Bytes → Nat → Res σ} {s r : σ} {i : Nat} {v : Bytes} {vs : List Bytes} :
    callEach f s i (v :: vs) = .ok r ↔ ∃ s', f s v i = .ok s' ∧ callEach f s' (i + 1) vs = .ok r := by
  rw [callEach, Res.bind_eq_ok]

theorem outputItem_spec : ItemSpec outputItem OutputText := by
  constructor
  · intro s v i s' h
    unfold outputItem at h
    rw [Res.bind_eq_ok] at h
    obtain ⟨o, h1, h2⟩ := h
    split at h2
    · cases h2
    rename_i hne
    cases Res.ok.inj h2
    refine ⟨o, rfl, .inr ?_⟩
    obtain ⟨items, hl, hc⟩ := (arrayEach_iff _ _ _ _).1 h1
    match items with
    | [] => cases hc; exact absurd rfl hne
    | a :: items =>
      obtain ⟨s1, f1, hc⟩ := callEach_cons_ok.1 hc
      simp only [outputField, if_true, Res.bind_eq_ok, unquoteSlice_iff] at f1
      obtain ⟨n, rfl, f1⟩ := f1
      obtain ⟨hlt, rfl⟩ := order_check f1
      match items with
      | [] => cases hc; exact ⟨hlt, .inr (.inr (.inr ⟨hl, rfl⟩))⟩
      | a :: items =>
        obtain ⟨s1, f1, hc⟩ := callEach_cons_ok.1 hc
        simp only [outputField, Nat.reduceAdd, Nat.reduceEqDiff, if_false, if_true, Res.bind_eq_ok, unquoteSlice_iff] at f1
        obtain ⟨p, rfl, f1⟩ := f1
        cases Res.ok.inj f1
        match items with
        | [] => cases hc; exact ⟨hlt, .inr (.inr (.inl ⟨hl, rfl, rfl⟩))⟩
        | a :: items =>
          obtain ⟨s1, f1, hc⟩ := callEach_cons_ok.1 hc
          simp only [outputField, Nat.reduceAdd, Nat.reduceEqDiff, if_false, if_true, Res.bind_eq_ok, unquoteSlice_iff] at f1
          obtain ⟨p, rfl, f1⟩ := f1
          cases Res.ok.inj f1
          match items with
          | [] => cases hc; exact ⟨hlt, .inr (.inl ⟨hl, rfl⟩)⟩
          | a :: items =>
            obtain ⟨s1, f1, hc⟩ := callEach_cons_ok.1 hc
            simp only [outputField, Nat.reduceAdd, Nat.reduceEqDiff, if_false, if_true, Res.bind_eq_ok, unquoteSlice_iff] at f1
            obtain ⟨p, rfl, f1⟩ := f1
            cases Res.ok.inj f1
            match items with
            | [] => cases hc; exact ⟨hlt, .inl hl⟩
            | a :: items =>
              obtain ⟨s1, f1, hc⟩ := callEach_cons_ok.1 hc
              simp [outputField] at f1
  · intro s v i e hlt h
    have hne : e.1 ≠ [] := by rintro he; rw [he] at hlt; exact absurd hlt (List.not_lt.2 (List.nil_le _))
    have key : arrayEach v ([], ⟨[], [], []⟩) (outputField s.2) = .ok e := by
      rw [arrayEach_iff]
      obtain ⟨n, ⟨p, a, hh⟩⟩ := e
      rcases h with h | ⟨h, he⟩ | ⟨h, he1, he2⟩ | ⟨h, he⟩
      · exact ⟨_, h, by simp [callEach, outputField, unquoteSlice_quoted, order_ok hlt]⟩
      · simp only at he; subst he
        exact ⟨_, h, by simp [callEach, outputField, unquoteSlice_quoted, order_ok hlt]⟩
      · simp only at he1 he2; subst he1 he2
        exact ⟨_, h, by simp [callEach, outputField, unquoteSlice_quoted, order_ok hlt]⟩
      · cases he
        exact ⟨_, h, by simp [callEach, outputField, unquoteSlice_quoted, order_ok hlt]⟩
    unfold outputItem
    rw [key, Res.bind_ok, if_neg hne]

/-- As `InputText`, also without the names. -/
def InputText' (v : Bytes) (i : Bytes × List Bytes) : Prop := InputText v i ∨ Strings [i.1] v ∧ i.2 = []

theorem inputDrvItem_spec : ItemSpec inputDrvItem InputText' := by
  constructor
  · intro s v i s' h
    unfold inputDrvItem at h
    rw [Res.bind_eq_ok] at h
    obtain ⟨o, h1, h2⟩ := h
    cases Res.ok.inj h2
    refine ⟨o, rfl, ?_⟩
    obtain ⟨items, hl, hc⟩ := (arrayEach_iff _ _ _ _).1 h1
    match items with
    | [] => cases hc; exact .inl rfl
    | a :: items =>
      right
      obtain ⟨s1, f1, hc⟩ := callEach_cons_ok.1 hc
      simp only [inputDrvField, if_true, Res.bind_eq_ok, unquoteSlice_iff] at f1
      obtain ⟨n, rfl, f1⟩ := f1
      obtain ⟨hlt, rfl⟩ := order_check f1
      match items with
      | [] => cases hc; exact ⟨hlt, .inr ⟨hl, rfl⟩⟩
      | a :: items =>
        obtain ⟨s1, f1, hc⟩ := callEach_cons_ok.1 hc
        simp only [inputDrvField, Nat.reduceAdd, Nat.reduceEqDiff, if_false, if_true, Res.bind_eq_ok, stringList_iff] at f1
        obtain ⟨l, hs, f1⟩ := f1
        cases Res.ok.inj f1
        match items with
        | [] => cases hc; exact ⟨hlt, .inl ⟨a, hl, by simpa using hs⟩⟩
        | a :: items =>
          obtain ⟨s1, f1, hc⟩ := callEach_cons_ok.1 hc
          simp [inputDrvField] at f1
  · intro s v i e hlt h
    have key : arrayEach v ([], []) (inputDrvField s.2) = .ok e := by
      rw [arrayEach_iff]
      obtain ⟨n, l⟩ := e
      rcases h with ⟨t, h, hs⟩ | ⟨h, he⟩
      · have hs' := (stringList_iff _ _).2 hs
        exact ⟨_, h, by simp [callEach, inputDrvField, unquoteSlice_quoted, order_ok hlt, hs']⟩
      · simp only at he; subst he
        exact ⟨_, h, by simp [callEach, inputDrvField, unquoteSlice_quoted, order_ok hlt]⟩
    unfold inputDrvItem
    rw [key, Res.bind_ok]

theorem envItem_spec : ItemSpec envItem EnvText := by
  constructor
  · intro s v i s' h
    unfold envItem at h
    rw [Res.bind_eq_ok] at h
    obtain ⟨o, h1, h2⟩ := h
    cases Res.ok.inj h2
    refine ⟨o, rfl, ?_⟩
    obtain ⟨items, hl, hc⟩ := (arrayEach_iff _ _ _ _).1 h1
    match items with
    | [] => cases hc; exact .inl rfl
    | a :: items =>
      right
      obtain ⟨s1, f1, hc⟩ := callEach_cons_ok.1 hc
      simp only [envField, if_true, Res.bind_eq_ok, unquoteSlice_iff] at f1
      obtain ⟨n, rfl, f1⟩ := f1
      obtain ⟨hlt, rfl⟩ := order_check f1
      match items with
      | [] => cases hc; exact ⟨hlt, .inr ⟨hl, rfl⟩⟩
      | a :: items =>
        obtain ⟨s1, f1, hc⟩ := callEach_cons_ok.1 hc
        simp only [envField, Nat.reduceAdd, Nat.reduceEqDiff, if_false, if_true, Res.bind_eq_ok, unquote_iff] at f1
        obtain ⟨l, ⟨raw, rfl, rfl⟩, f1⟩ := f1
        cases Res.ok.inj f1
        match items with
        | [] => cases hc; exact ⟨hlt, .inl ⟨raw, hl, rfl⟩⟩
        | a :: items =>
          obtain ⟨s1, f1, hc⟩ := callEach_cons_ok.1 hc
          simp [envField] at f1
  · intro s v i e hlt h
    have key : arrayEach v ([], []) (envField s.2) = .ok e := by
      rw [arrayEach_iff]
      obtain ⟨n, l⟩ := e
      rcases h with ⟨raw, h, hs⟩ | ⟨h, he⟩
      · simp only at hs; subst hs
        exact ⟨_, h, by simp [callEach, envField, unquoteSlice_quoted, unquote_quoted, order_ok hlt]⟩
      · simp only at he; subst he
        exact ⟨_, h, by simp [callEach, envField, unquoteSlice_quoted, order_ok hlt]⟩
    unfold envItem
    rw [key, Res.bind_ok]

/-! ## The whole text -/

theorem drvField_count (items : List Bytes) : ∀ d i r, callEach drvField d i items = .ok r → items = [] ∨ i + items.length ≤ 7 := by
  induction items with
  | nil => intro d i r _; exact .inl rfl
  | cons v items ih =>
    intro d i r h
    right
    obtain ⟨d', h1, h2⟩ := callEach_cons_ok.1 h
    have hi : i < 7 := by
      by_cases hi : i < 7
      · exact hi
      · unfold drvField at h1
        rw [if_neg (by omega), if_neg (by omega), if_neg (by omega), if_neg (by omega), if_neg (by omega), if_neg (by omega), if_neg (by omega)] at h1
        cases h1
    rcases ih d' (i + 1) r h2 with rfl | h
    · simp; omega
    · simp; omega

theorem drvField_env (items : List Bytes) : ∀ d i r, callEach drvField d i items = .ok r → i + items.length ≤ 6 → r.env = d.env := by
  induction items with
  | nil => intro d i r h _; cases h; rfl
  | cons v items ih =>
    intro d i r h hlen
    obtain ⟨d', h1, h2⟩ := callEach_cons_ok.1 h
    simp only [List.length_cons] at hlen
    rw [ih d' (i + 1) r h2 (by omega)]
    unfold drvField at h1
    split at h1
    · rw [Res.bind_eq_ok] at h1; obtain ⟨m, _, h1⟩ := h1; cases Res.ok.inj h1; rfl
    split at h1
    · rw [Res.bind_eq_ok] at h1; obtain ⟨m, _, h1⟩ := h1; cases Res.ok.inj h1; rfl
    split at h1
    · rw [Res.bind_eq_ok] at h1; obtain ⟨m, _, h1⟩ := h1; cases Res.ok.inj h1; rfl
    split at h1
    · rw [Res.bind_eq_ok] at h1; obtain ⟨m, _, h1⟩ := h1; cases Res.ok.inj h1; rfl
    split at h1
    · rw [Res.bind_eq_ok] at h1; obtain ⟨m, _, h1⟩ := h1; cases Res.ok.inj h1; rfl
    split at h1
    · rw [Res.bind_eq_ok] at h1; obtain ⟨m, _, h1⟩ := h1; cases Res.ok.inj h1; rfl
    split at h1
    · omega
    · cases h1

theorem list_seven {l : List Bytes} (h : l.length = 7) : ∃ a b c d e f g, l = [a, b, c, d, e, f, g] := by
  match l, h with
  | [a, b, c, d, e, f, g], _ => exact ⟨a, b, c, d, e, f, g, rfl⟩

/-- The seven fields. -/
theorem drvFields_iff (items : List Bytes) (d : Derivation) (h7 : items.length = 7) (hn : d.name = []) (h0 : ([] : Bytes) ∉ d.outputs.keys)
    (h1 : ([] : Bytes) ∉ d.inputDerivations.keys) (h6 : ([] : Bytes) ∉ d.env.keys) :
    callEach drvField emptyDrv 0 items = .ok d ↔ ∃ o i s a e, items = [o, i, s, quoted d.platform, quoted d.builder, a, e] ∧
      Table OutputText d.outputs o ∧ Table InputText' d.inputDerivations i ∧ Strings d.inputSources s ∧ Strings d.arguments a ∧ Table EnvText d.env e := by
  obtain ⟨o, i, s, p, b, a, e, rfl⟩ := list_seven h7
  simp only [← arrayEach_table outputItem_spec _ _ h0, ← arrayEach_table inputDrvItem_spec _ _ h1, ← arrayEach_table envItem_spec _ _ h6, ← stringList_iff]
  constructor
  · intro h
    simp only [callEach_cons_ok, drvField, Nat.reduceAdd, Nat.reduceEqDiff, if_false, if_true, Res.bind_eq_ok, unquoteSlice_iff, callEach] at h
    obtain ⟨_, ⟨m0, g0, e0⟩, _, ⟨m1, g1, e1⟩, _, ⟨l2, g2, e2⟩, _, ⟨_, rfl, e3⟩, _, ⟨_, rfl, e4⟩, _, ⟨l5, g5, e5⟩, _, ⟨m6, g6, e6⟩, hd⟩ := h
    cases Res.ok.inj e0
    cases Res.ok.inj e1
    cases Res.ok.inj e2
    cases Res.ok.inj e3
    cases Res.ok.inj e4
    cases Res.ok.inj e5
    cases Res.ok.inj e6
    cases Res.ok.inj hd
    refine ⟨o, i, s, a, e, rfl, ⟨m0.2, g0⟩, ⟨m1.2, g1⟩, ?_, ?_, ⟨m6.2, g6⟩⟩
    · simpa [emptyDrv] using g2
    · simpa [emptyDrv] using g5
  · rintro ⟨o', i', s', a', e', he, ⟨k0, g0⟩, ⟨k1, g1⟩, g2, g5, ⟨k6, g6⟩⟩
    obtain ⟨dn, d0, d2, d1, dp, db, d5, d6⟩ := d
    simp only [List.cons.injEq, and_true] at he
    obtain ⟨rfl, rfl, rfl, rfl, rfl, rfl, rfl⟩ := he
    simp only at g0 g1 g2 g5 g6 hn
    subst hn
    simp [callEach, drvField, g0, g1, g2, g5, g6, unquoteSlice_quoted, emptyDrv]

theorem listing_length {items : List Bytes} {v : Bytes} (h : Listing items v) : 2 ≤ v.length := by
  cases h <;> simp <;> omega

theorem drvField_name (items : List Bytes) : ∀ d i r, callEach drvField d i items = .ok r → r.name = d.name := by
  intro d i r h
  refine callEach_inv (fun x : Derivation => x.name = d.name) drvField ?_ items d i r rfl h
  intro x v i x' hx hf
  unfold drvField at hf
  split at hf
  · rw [Res.bind_eq_ok] at hf; obtain ⟨m, _, hf⟩ := hf; cases Res.ok.inj hf; exact hx
  split at hf
  · rw [Res.bind_eq_ok] at hf; obtain ⟨m, _, hf⟩ := hf; cases Res.ok.inj hf; exact hx
  split at hf
  · rw [Res.bind_eq_ok] at hf; obtain ⟨m, _, hf⟩ := hf; cases Res.ok.inj hf; exact hx
  split at hf
  · rw [Res.bind_eq_ok] at hf; obtain ⟨m, _, hf⟩ := hf; cases Res.ok.inj hf; exact hx
  split at hf
  · rw [Res.bind_eq_ok] at hf; obtain ⟨m, _, hf⟩ := hf; cases Res.ok.inj hf; exact hx
  split at hf
  · rw [Res.bind_eq_ok] at hf; obtain ⟨m, _, hf⟩ := hf; cases Res.ok.inj hf; exact hx
  split at hf
  · rw [Res.bind_eq_ok] at hf; obtain ⟨m, _, hf⟩ := hf; cases Res.ok.inj hf; exact hx
  · cases hf

/-- The name of a derivation that was parsed. -/
theorem withName_iff (jsonName : Bytes → Res (Option Bytes)) (d0 d : Derivation) (h0 : d0.name = []) :
    withName jsonName d0 = .ok d ↔ d0 = { d with name := [] } ∧
      (∀ j, d.env.get? b!"__json" = some j → jsonName j = .ok (some d.name)) ∧ (d.env.get? b!"__json" = none → d.name = []) := by
  obtain ⟨n0, a0, a1, a2, a3, a4, a5, a6⟩ := d0
  obtain ⟨n, b0, b1, b2, b3, b4, b5, b6⟩ := d
  simp only at h0
  subst h0
  unfold withName
  simp only
  cases hj : a6.get? b!"__json" with
  | none =>
    simp only [Res.ok.injEq, Derivation.mk.injEq]
    constructor
    · rintro ⟨rfl, rfl, rfl, rfl, rfl, rfl, rfl, rfl⟩
      rw [hj]
      simp
    · rintro ⟨⟨_, rfl, rfl, rfl, rfl, rfl, rfl, rfl⟩, _, h⟩
      exact ⟨(h hj).symm, rfl, rfl, rfl, rfl, rfl, rfl, rfl⟩
  | some j =>
    simp only [Res.bind_eq_ok, Res.ok.injEq, Derivation.mk.injEq]
    constructor
    · rintro ⟨n', hn, rfl, rfl, rfl, rfl, rfl, rfl, rfl, rfl⟩
      refine ⟨⟨trivial, rfl, rfl, rfl, rfl, rfl, rfl, rfl⟩, ?_, ?_⟩
      · intro j' h'
        rw [hj] at h'
        cases h'
        unfold attrsName at hn
        split at hn
        · rename_i hx; cases Res.ok.inj hn; exact hx
        · cases hn
        · cases hn
        · cases hn
      · intro h'; rw [hj] at h'; cases h'
    · rintro ⟨⟨_, rfl, rfl, rfl, rfl, rfl, rfl, rfl⟩, h, _⟩
      refine ⟨n, ?_, rfl, rfl, rfl, rfl, rfl, rfl, rfl, rfl⟩
      rw [h j hj]
      rfl

theorem keys_ne_nil {α : Type} {m : GoMap α} (h : ∀ e ∈ m, e.1 ≠ []) : ([] : Bytes) ∉ m.keys := by
  intro hm
  obtain ⟨o, ho, he⟩ := List.mem_map.1 hm
  exact h o ho he

/-- C99. `ReadDerivation` accepts exactly the texts of the grammar in `Spec/DrvGrammar.lean`, and returns what they say. -/
theorem C99_reads (jsonName : Bytes → Res (Option Bytes)) (b : Bytes) (d : Derivation) :
    readDerivation jsonName ⟨b, .eof⟩ = .ok d ↔ Reads jsonName b d := by
  have hread : readDerivation jsonName ⟨b, .eof⟩ = .ok d ↔ parseDerivation jsonName b = .ok d ∧ d.validate = .ok () := by
    unfold readDerivation
    rw [if_neg (by simp)]
    simp only [Res.bind_eq_ok]
    constructor
    · rintro ⟨d', h1, _, h2, h3⟩
      cases Res.ok.inj h3
      exact ⟨h1, h2⟩
    · rintro ⟨h1, h2⟩
      exact ⟨d, h1, (), h2, rfl⟩
  have hparse : parseDerivation jsonName b = .ok d ↔ ∃ v items d0, b = b!"Derive" ++ v ∧ Listing items v ∧ callEach drvField emptyDrv 0 items = .ok d0 ∧
      withName jsonName d0 = .ok d := by
    unfold parseDerivation
    by_cases hl : b.length < 8
    · rw [if_pos hl]
      constructor
      · intro h; cases h
      · rintro ⟨v, items, d0, rfl, h1, _⟩
        have := listing_length h1
        simp at hl
        omega
    rw [if_neg hl]
    by_cases ht : b.take 6 = b!"Derive"
    · rw [if_neg (by rw [ht]; simp), Res.bind_eq_ok]
      have hb : b = b!"Derive" ++ b.drop 6 := by
        rw [← ht]; exact (List.take_append_drop 6 b).symm
      constructor
      · rintro ⟨d0, h1, h2⟩
        obtain ⟨items, h3, h4⟩ := (arrayEach_iff _ _ _ _).1 h1
        exact ⟨b.drop 6, items, d0, hb, h3, h4, h2⟩
      · rintro ⟨v, items, d0, hv, h3, h4, h2⟩
        have : v = b.drop 6 := by rw [hv]; rfl
        subst this
        exact ⟨d0, (arrayEach_iff _ _ _ _).2 ⟨items, h3, h4⟩, h2⟩
    · rw [if_pos ht]
      constructor
      · intro h; cases h
      · rintro ⟨v, items, d0, rfl, _⟩
        exact absurd rfl ht
  rw [hread, hparse]
  constructor
  · rintro ⟨⟨v, items, d0, hb, hl, hc, hn⟩, hv⟩
    obtain ⟨hw, hname⟩ := (validate_iff' d).1 hv
    obtain ⟨rfl, hj⟩ := (withName_iff jsonName d0 d (drvField_name items _ _ _ hc)).1 hn
    have h7 : items.length = 7 := by
      have h6 : ¬ (0 + items.length ≤ 6) := by
        intro h
        have := drvField_env items _ _ _ hc h
        simp only [emptyDrv] at this
        rw [this] at hname
        simp [GoMap.keys, nameEnv] at hname
      rcases drvField_count items _ _ _ hc with rfl | h
      · simp at h6
      · omega
    have k0 : ([] : Bytes) ∉ d.outputs.keys := keys_ne_nil fun e he => (hw.outputs e he).1
    have k1 : ([] : Bytes) ∉ d.inputDerivations.keys := keys_ne_nil fun e he => storepath_ne_nil (hw.inputDerivations e he).1
    have k6 : ([] : Bytes) ∉ d.env.keys := keys_ne_nil hw.env
    obtain ⟨o, i, s, a, e, rfl, t0, ⟨t1, l, t2, t3, t4⟩, g⟩ := (drvFields_iff items { d with name := [] } h7 rfl k0 k1 k6).1 hc
    refine ⟨⟨o, i, s, a, e, v, hb, hl, t0, ⟨t1, l, t2, t3, ?_⟩, g⟩, hj, hv⟩
    intro x hx
    rcases t4 x hx with h | ⟨_, h⟩
    · exact h
    · refine absurd h (hw.inputDerivations x.2 ?_).2.1
      have : x.2 ∈ l.map (·.2) := List.mem_map_of_mem hx
      rw [t3] at this
      exact this
  · rintro ⟨⟨o, i, s, a, e, v, hb, hl, t0, ⟨t1, l, t2, t3, t4⟩, g⟩, hj, hv⟩
    obtain ⟨hw, hname⟩ := (validate_iff' d).1 hv
    have k0 : ([] : Bytes) ∉ d.outputs.keys := keys_ne_nil fun e he => (hw.outputs e he).1
    have k1 : ([] : Bytes) ∉ d.inputDerivations.keys := keys_ne_nil fun e he => storepath_ne_nil (hw.inputDerivations e he).1
    have k6 : ([] : Bytes) ∉ d.env.keys := keys_ne_nil hw.env
    refine ⟨⟨v, _, { d with name := [] }, hb, hl, ?_, (withName_iff jsonName _ d rfl).2 ⟨rfl, hj⟩⟩, hv⟩
    exact (drvFields_iff _ { d with name := [] } rfl rfl k0 k1 k6).2 ⟨o, i, s, a, e, rfl, t0, ⟨t1, l, t2, t3, fun x hx => .inl (t4 x hx)⟩, g⟩

/-- The hypotheses of C99 can be met: the text of a derivation. -/
example : ∃ d, Reads (fun _ => .panic) (b!"Derive([(\"out\",\"/nix/store/" ++ dHash ++ b!"-a\",\"\",\"\")],[],[],\"x\",\"/bin/sh\",[\"-c\",\"(,[\"],[(\"name\",\"a\\n\")])") d := by
  refine ⟨⟨[], [(b!"out", ⟨b!"/nix/store/" ++ dHash ++ b!"-a", [], []⟩)], [], [], b!"x", b!"/bin/sh", [b!"-c", b!"(,["], [(b!"name", b!"a\n")]⟩, ?_⟩
  rw [← C99_reads]
  decide +kernel

/-- The derivation of the examples. -/
def laxDrv : Derivation := ⟨[], [(b!"out", ⟨b!"/nix/store/" ++ dHash ++ b!"-a", [], []⟩)], [], [], b!"x", b!"y", [], [(b!"name", b!"a")]⟩

/-- C99. Some of the texts of the grammar that are no derivations in the format of Nix: the text ends inside a string, which is ignored; any two bytes instead of an empty list;
the wrong brackets; missing fields. All are read as the same derivation. -/
theorem C99_lax :
    (∀ b ∈ [b!"Derive([(\"out\",\"/nix/store/" ++ dHash ++ b!"-a\",\"\",\"\")],[],[],\"x\",\"y\",[],[(\"name\",\"a\")],\"ignored)",
            b!"Derive([(\"out\",\"/nix/store/" ++ dHash ++ b!"-a\",\"\",\"\")],??,!!,\"x\",\"y\",[],[(\"name\",\"a\")])",
            b!"Derive[([\"out\",\"/nix/store/" ++ dHash ++ b!"-a\",\"\",\"\"]),(),(),\"x\",\"y\",(),([\"name\",\"a\"])]",
            b!"Derive([(\"out\",\"/nix/store/" ++ dHash ++ b!"-a\")],[],[],\"x\",\"y\",[],[(\"name\",\"a\")])"],
      Reads (fun _ => .panic) b laxDrv) := by
  simp only [← C99_reads]
  decide +kernel

end Verif.Props
