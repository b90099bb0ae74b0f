import Verif.Lemmas.LsText
import Verif.Lemmas.JsonQuote
import Verif.Props.NarLs

/-!
# C111: `ParseLS` on bytes

`visit` is any order of ranging over maps (`Visits`).
-/

namespace Verif.Props
open Verif.GoLib Verif.GoJson Verif.NarLs Verif.Spec Verif.Nar

theorem rootValue_cases (t : Node) (v : Json) :
    (NodeOk v ∧ ∃ t', rootValue t v = .ok t' ∧ ∀ pre, Says pre t →
      (v = .null ∧ t' = t) ∨ ∃ m, v = .obj m ∧ Says (pre ++ memberList m) t') ∨
    (¬ NodeOk v ∧ ∃ e, rootValue t v = .err e) := by
  cases v with
  | null => exact .inl ⟨by simp [NodeOk], t, rfl, fun pre h => .inl ⟨rfl, rfl⟩⟩
  | obj m =>
    rw [rootValue, NodeOk]
    rcases decodeMembers_cases m t with ⟨h1, t', h2, h3⟩ | h
    · exact .inl ⟨h1, t', h2, fun pre h => .inr ⟨m, rfl, h3 pre h⟩⟩
    · exact .inr h
  | _ => exact .inr ⟨by simp [NodeOk], _, rfl⟩

theorem decodeRoot_cases : ∀ (l : Members) (n : Int) (t : Node),
    (RootMembersOk l ∧ ∃ n' t', decodeRoot n t l = .ok (n', t') ∧ ∀ pre ms, FieldIs b!"version" IsInt 0 pre n → RootOf pre ms → Says ms t →
      FieldIs b!"version" IsInt 0 (pre ++ memberList l) n' ∧ ∃ ms', RootOf (pre ++ memberList l) ms' ∧ Says ms' t') ∨
    (¬ RootMembersOk l ∧ ∃ e, decodeRoot n t l = .err e)
  | .nil, n, t => .inl ⟨trivial, n, t, rfl, fun pre ms h1 h2 h3 => by
      simp only [memberList, List.append_nil]; exact ⟨h1, ms, h2, h3⟩⟩
  | .cons k v l, n, t => by
    have ih := decodeRoot_cases l
    have hv := sameField_iff (field := b!"version") (key := k) (by decide)
    have hr := sameField_iff (field := b!"Root") (key := k) (by decide)
    rw [RootMembersOk, decodeRoot, memberList]
    have app : ∀ pre : List (Bytes × Json), pre ++ (k, v) :: memberList l = (pre ++ [(k, v)]) ++ memberList l := by simp
    cases h1 : sameField b!"version" k with
    | true =>
      rw [if_pos rfl]
      have hk := hv.1 h1
      have nk : ¬ KeyFor b!"Root" k := key_ne (by decide) (by decide) (by decide) hk
      rcases intValue_cases n v with ⟨a, e, ha⟩ | ⟨⟨e, he⟩, ha⟩
      · rw [e, Res.bind_ok]
        rcases ih a t with ⟨g1, n', t', g2, g3⟩ | ⟨g1, e, g2⟩
        · refine .inl ⟨⟨.inl ⟨hk, ?_⟩, g1⟩, n', t', g2, ?_⟩
          · rcases ha with ha | ha
            · exact .inl ha.1
            · exact .inr ⟨a, ha⟩
          · intro pre ms p1 p2 p3
            rw [app]
            exact g3 _ ms (fieldIs_step p1 hk ha) (.other p2 nk) p3
        · exact .inr ⟨fun h => g1 h.2, e, g2⟩
      · refine .inr ⟨?_, e, by rw [he]; rfl⟩
        simp only [ha, nk, and_false, false_and, or_self, not_false_eq_true]
    | false =>
      have nv : ¬ KeyFor b!"version" k := fun h => by rw [hv.2 h] at h1; cases h1
      rw [if_neg (by simp)]
      cases h2 : sameField b!"Root" k with
      | true =>
        rw [if_pos rfl]
        have hk := hr.1 h2
        rcases rootValue_cases t v with ⟨r1, t1, r2, r3⟩ | ⟨r1, e, r2⟩
        · rw [r2, Res.bind_ok]
          rcases ih n t1 with ⟨g1, n', t', g2, g3⟩ | ⟨g1, e, g2⟩
          · refine .inl ⟨⟨.inr ⟨hk, r1⟩, g1⟩, n', t', g2, ?_⟩
            intro pre ms p1 p2 p3
            rw [app]
            rcases r3 ms p3 with ⟨rfl, rfl⟩ | ⟨m, rfl, r4⟩
            · exact g3 _ ms (fieldIs_skip p1 fun h => absurd h nv) (.null p2 hk) p3
            · exact g3 _ _ (fieldIs_skip p1 fun h => absurd h nv) (.obj p2 hk) r4
          · exact .inr ⟨fun h => g1 h.2, e, g2⟩
        · refine .inr ⟨fun h => ?_, e, by rw [r2]; rfl⟩
          rcases h.1 with h | h
          · exact nv h.1
          · exact r1 h.2
      | false =>
        rw [if_neg (by simp)]
        have nr : ¬ KeyFor b!"Root" k := fun h => by rw [hr.2 h] at h2; cases h2
        refine .inr ⟨?_, _, rfl⟩
        simp only [nv, nr, false_and, or_self, not_false_eq_true]

theorem decodeRoot_ok (l : Members) (n : Int) (t : Node) : decodeRoot 0 zeroNode l = .ok (n, t) ↔
    RootMembersOk l ∧ FieldIs b!"version" IsInt 0 (memberList l) n ∧ ∃ ms, RootOf (memberList l) ms ∧ Says ms t := by
  rcases decodeRoot_cases l 0 zeroNode with ⟨h1, n', t', h2, h3⟩ | ⟨h1, e, h2⟩
  · obtain ⟨h4, ms, h5, h6⟩ := h3 [] [] (.inl ⟨rfl, by simp⟩) .nil says_zero
    rw [List.nil_append] at h4 h5
    rw [h2]
    constructor
    · intro h; cases h; exact ⟨h1, h4, ms, h5, h6⟩
    · rintro ⟨_, g4, ms', g5, g6⟩
      rw [fieldIs_unique isInt_unique isInt_null h4 g4]
      cases rootOf_unique h5 g5
      rw [says_unique h6 g6]
  · rw [h2]
    exact ⟨fun h => (by cases h), fun h => absurd h.1 h1⟩

theorem decodeRoot_ne_panic (l : Members) : decodeRoot 0 zeroNode l ≠ .panic := by
  rcases decodeRoot_cases l 0 zeroNode with ⟨_, _, _, h, _⟩ | ⟨_, _, h⟩ <;> rw [h] <;> simp

theorem decodeLS_says (data : Bytes) (n : Int) (t : Node) (hn : n ≠ 0) : decodeLS data = .ok (n, t) ↔ LsSays data n t := by
  unfold decodeLS LsSays
  have key : (∃ w tx rest l ms, data = w ++ tx ++ rest ∧ Ws w ∧ JText false tx (.obj l) ∧ jdepth (.obj l) ≤ 10000 ∧ RootMembersOk l ∧
      FieldIs b!"version" IsInt 0 (memberList l) n ∧ RootOf (memberList l) ms ∧ Says ms t) ↔
      ∃ l r, parseJson data = some (.obj l, r) ∧ decodeRoot 0 zeroNode l = .ok (n, t) := by
    constructor
    · rintro ⟨w, tx, rest, l, ms, h1, h2, h3, h4, h5, h6, h7, h8⟩
      exact ⟨l, rest, (parseJson_iff (by simp)).2 ⟨w, tx, h1, h2, h3, h4⟩, (decodeRoot_ok l n t).2 ⟨h5, h6, ms, h7, h8⟩⟩
    · rintro ⟨l, r, h1, h2⟩
      obtain ⟨w, tx, h1, h2', h3, h4⟩ := (parseJson_iff (by simp)).1 h1
      obtain ⟨h5, h6, ms, h7, h8⟩ := (decodeRoot_ok l n t).1 h2
      exact ⟨w, tx, r, l, ms, h1, h2', h3, h4, h5, h6, h7, h8⟩
  rw [key]
  cases hp : parseJson data with
  | none => simp
  | some x =>
    obtain ⟨v, r⟩ := x
    cases v with
    | obj l =>
      constructor
      · intro h; exact ⟨l, r, rfl, h⟩
      · rintro ⟨l', r', h, h'⟩; cases h; exact h'
    | null =>
      simp only [Option.some.injEq, Prod.mk.injEq, reduceCtorEq, false_and, exists_false, iff_false]
      intro h
      cases h
      exact hn rfl
    | _ => simp

theorem decodeLS_ne_panic (data : Bytes) : decodeLS data ≠ .panic := by
  unfold decodeLS
  split
  · simp
  · simp
  · exact decodeRoot_ne_panic _
  · simp

mutual
theorem reorder_all {P : Bytes → Prop} : ∀ {t t' : Node}, Reorder t t' → (t.All P ConsistentIfParent ↔ t'.All P ConsistentIfParent)
  | _, _, .mk (es := es) (es' := es') h => by
    have hn := reorder_nil h
    rw [Node.All, Node.All, reorderE_all h]
    exact and_congr (or_congr hn Iff.rfl) Iff.rfl
theorem reorderE_all {P : Bytes → Prop} : ∀ {es es' : NarLs.Entries}, ReorderE es es' →
    (es.All P ConsistentIfParent ↔ es'.All P ConsistentIfParent)
  | _, _, .nil => Iff.rfl
  | _, _, .cons ht h => by simp only [NarLs.Entries.All, reorder_all ht, reorderE_all h]
  | _, _, .null h => by simp only [NarLs.Entries.All]
  | _, _, .swap => by simp only [NarLs.Entries.All]; exact ⟨fun ⟨a, b, c, d, e⟩ => ⟨c, d, a, b, e⟩, fun ⟨a, b, c, d, e⟩ => ⟨c, d, a, b, e⟩⟩
  | _, _, .swapNull => by simp only [NarLs.Entries.All, and_false]
  | _, _, .swapNull' => by simp only [NarLs.Entries.All, and_false]
  | _, _, .swapNulls => by simp only [NarLs.Entries.All]
  | _, _, .trans h h' => (reorderE_all h).trans (reorderE_all h')
theorem reorder_nil : ∀ {es es' : NarLs.Entries}, ReorderE es es' → (es = .nil ↔ es' = .nil)
  | _, _, .nil => Iff.rfl
  | _, _, .cons _ _ => by simp
  | _, _, .null _ => by simp
  | _, _, .swap => by simp
  | _, _, .swapNull => by simp
  | _, _, .swapNull' => by simp
  | _, _, .swapNulls => by simp
  | _, _, .trans h h' => (reorder_nil h).trans (reorder_nil h')
end

mutual
theorem reorder_noNull : ∀ {t t' : Node}, Reorder t t' → (t.NoNull ↔ t'.NoNull)
  | _, _, .mk h => by unfold Node.NoNull; exact reorderE_noNull h
theorem reorderE_noNull : ∀ {es es' : NarLs.Entries}, ReorderE es es' → (es.NoNull ↔ es'.NoNull)
  | _, _, .nil => Iff.rfl
  | _, _, .cons ht h => by simp only [NarLs.Entries.NoNull, reorder_noNull ht, reorderE_noNull h]
  | _, _, .null h => by simp only [NarLs.Entries.NoNull]
  | _, _, .swap => by simp only [NarLs.Entries.NoNull]; exact ⟨fun ⟨a, b, c⟩ => ⟨b, a, c⟩, fun ⟨a, b, c⟩ => ⟨b, a, c⟩⟩
  | _, _, .swapNull => by simp only [NarLs.Entries.NoNull, and_false]
  | _, _, .swapNull' => by simp only [NarLs.Entries.NoNull, and_false]
  | _, _, .swapNulls => by simp only [NarLs.Entries.NoNull]
  | _, _, .trans h h' => (reorderE_noNull h).trans (reorderE_noNull h')
end

/-- `ParseLS`, on every data and for every order of visiting maps: exactly the texts that begin with a JSON object with
known fields of the right kinds are accepted, whose version is 1, whose entries have valid names and are not null, and
whose nodes with entries are consistent; the result is what the text says. -/
theorem C111_exact (visit : Node → Node) (hvisit : Visits visit) (data : Bytes) (v : Int) (root : Node) :
    parseLSText visit data = .ok (v, root) ↔ LsSays data v root ∧ v = 1 ∧ root.All NameLs ConsistentIfParent := by
  unfold parseLSText
  constructor
  · intro h
    rw [Res.bind_eq_ok] at h
    obtain ⟨⟨n, t⟩, h1, h2⟩ := h
    rw [Res.bind_eq_ok] at h2
    obtain ⟨u, h2, h3⟩ := h2
    cases h3
    obtain ⟨_, h4, h5⟩ := ((C39_ls_partial v (visit root)).1 u).1 h2
    exact ⟨(decodeLS_says data v root (by rw [h4]; decide)).1 h1, h4, (reorder_all (hvisit root)).2 h5⟩
  · rintro ⟨h1, h2, h3⟩
    rw [(decodeLS_says data v root (by rw [h2]; decide)).2 h1, Res.bind_ok]
    have := ((C39_ls_partial v (visit root)).1 (v, visit root)).2 ⟨rfl, h2, (reorder_all (hvisit root)).1 h3⟩
    simp only [this, Res.bind_ok]

/-- What a text says is determined by the text. -/
theorem C111_unique (data : Bytes) (v v' : Int) (root root' : Node) (h : LsSays data v root) (h' : LsSays data v' root') :
    v = v' ∧ root = root' := by
  obtain ⟨w, tx, rest, l, ms, h1, h2, h3, h4, h5, h6, h7, h8⟩ := h
  obtain ⟨w', tx', rest', l', ms', g1, g2, g3, g4, g5, g6, g7, g8⟩ := h'
  have e1 := (parseJson_iff (s := data) (r := rest) (v := .obj l) (by simp)).2 ⟨w, tx, h1, h2, h3, h4⟩
  have e2 := (parseJson_iff (s := data) (r := rest') (v := .obj l') (by simp)).2 ⟨w', tx', g1, g2, g3, g4⟩
  rw [e1] at e2
  cases e2
  refine ⟨fieldIs_unique isInt_unique isInt_null h6 g6, ?_⟩
  cases rootOf_unique h7 g7
  exact says_unique h8 g8

/-- `ParseLS` panics only for texts with a null entry. -/
theorem C111_panic (visit : Node → Node) (hvisit : Visits visit) (data : Bytes) (h : parseLSText visit data = .panic) :
    ∃ root, LsSays data 1 root ∧ ¬ root.NoNull := by
  unfold parseLSText at h
  cases hd : decodeLS data with
  | panic => exact absurd hd (decodeLS_ne_panic data)
  | err e => rw [hd] at h; simp at h
  | ok x =>
    obtain ⟨n, t⟩ := x
    rw [hd, Res.bind_ok] at h
    by_cases hn : n = 1
    · subst hn
      refine ⟨t, (decodeLS_says data 1 t (by decide)).1 hd, fun hnn => ?_⟩
      have := (C39_ls_partial 1 (visit t)).2 ((reorder_noNull (hvisit t)).1 hnn)
      cases hp : parseLS (.ok (1, visit t)) with
      | panic => exact this hp
      | err e => simp only [hp] at h; simp at h
      | ok u => simp only [hp] at h; simp at h
    · have : parseLS (.ok (n, visit t)) = .err (.msg "invalid version") := by
        unfold parseLS
        rw [Res.bind_ok, if_pos hn]
      simp only [this] at h
      simp at h

/-! ## Round trip -/

theorem keyFor_self : ∀ f : Bytes, KeyFor f f
  | [] => .nil
  | c :: f => KeyFor.cons (t := [c]) (.inl rfl) (keyFor_self f)

theorem formatUint_head (n : Nat) : formatUint n = b!"0" ∨ (formatUint n).head? ≠ some 48 := by
  fun_induction formatUint n with
  | case1 n h =>
    have key : ∀ k : Fin 10, [UInt8.ofNat (48 + k.val)] = b!"0" ∨ [UInt8.ofNat (48 + k.val)].head? ≠ some (48 : UInt8) := by decide
    exact key ⟨n, h⟩
  | case2 n h ih =>
    right
    rcases ih with ih | ih
    · exfalso
      have := (formatUint_digits (n / 10)).2.2
      rw [ih] at this
      have h0 : digitsValue 0 b!"0" = 0 := by decide
      omega
    · have := (formatUint_digits (n / 10)).2.1
      cases hf : formatUint (n / 10) with
      | nil => exact absurd hf this
      | cons c l => rw [hf] at ih; simpa using ih

theorem formatUint_spec (n : Nat) : Digits (formatUint n) ∧ decValue (formatUint n) = n := by
  obtain ⟨h1, h2, h3⟩ := formatUint_digits n
  exact ⟨⟨h2, h1⟩, by rw [decValue_eq]; exact h3⟩

theorem intLit_num (a : Int) : JNum (intLit a) := by
  obtain ⟨h1, h2⟩ := formatUint_spec a.natAbs
  have hi : formatUint a.natAbs = b!"0" ∨ (Digits (formatUint a.natAbs) ∧ (formatUint a.natAbs).head? ≠ some 48) := by
    rcases formatUint_head a.natAbs with h | h
    · exact .inl h
    · exact .inr ⟨h1, h⟩
  unfold intLit
  split
  · exact ⟨b!"-", formatUint a.natAbs, [], [], by simp, .inr rfl, hi, .inl rfl, .inl rfl⟩
  · exact ⟨[], formatUint a.natAbs, [], [], by simp, .inl rfl, hi, .inl rfl, .inl rfl⟩

theorem intLit_text {a : Int} (h : -2 ^ 63 ≤ a) (h' : a < 2 ^ 63) : IntText (intLit a) a := by
  obtain ⟨h1, h2⟩ := formatUint_spec a.natAbs
  unfold intLit
  refine ⟨formatUint a.natAbs, h1, ?_, h, h'⟩
  split
  · exact .inr ⟨rfl, by rw [h2]; omega⟩
  · exact .inl ⟨rfl, by rw [h2]; omega⟩

theorem ascii_isUtf8 {s : Bytes} (hs : ∀ c ∈ s, c.toNat < 0x80) : IsUtf8 s := by
  refine ⟨s.map (·.toNat), ?_, ?_⟩
  · intro c hc
    rw [List.mem_map] at hc
    obtain ⟨b, hb, rfl⟩ := hc
    have := hs b hb
    exact .inl (by omega)
  · induction s with
    | nil => rfl
    | cons b s ih =>
      rw [List.map_cons, List.flatMap_cons, utf8_byte (hs b List.mem_cons_self), ← ih fun c hc => hs c (List.mem_cons_of_mem _ hc)]
      rfl

theorem isUtf8_keys : IsUtf8 b!"type" ∧ IsUtf8 b!"entries" ∧ IsUtf8 b!"size" ∧ IsUtf8 b!"target" ∧ IsUtf8 b!"executable" ∧
    IsUtf8 b!"narOffset" ∧ IsUtf8 b!"version" ∧ IsUtf8 b!"Root" := by
  refine ⟨?_, ?_, ?_, ?_, ?_, ?_, ?_, ?_⟩ <;> exact ascii_isUtf8 (by decide)

mutual
theorem nodeJson_valid : ∀ t : Node, t.Writable → JValid (nodeJson t)
  | .mk typ es size lt x o, h => by
    obtain ⟨k1, k2, k3, k4, k5, k6, _, _⟩ := isUtf8_keys
    rw [Node.Writable] at h
    obtain ⟨h1, h2, _, _, _, _, _, h3⟩ := h
    simp only [nodeJson, JValid, JValidm]
    exact ⟨k1, h1, k2, entriesJson_valid es h3, k3, intLit_num _, k4, h2, k5, trivial, k6, intLit_num _, trivial⟩
theorem entriesJson_valid : ∀ es : NarLs.Entries, es.Writable → JValidm (entriesJson es)
  | .nil, _ => by simp [entriesJson, JValidm]
  | .null n es, h => by
    rw [NarLs.Entries.Writable] at h
    rw [entriesJson, JValidm]
    exact ⟨h.1, trivial, entriesJson_valid es h.2⟩
  | .cons n t es, h => by
    rw [NarLs.Entries.Writable] at h
    rw [entriesJson, JValidm]
    exact ⟨h.1, nodeJson_valid t h.2.1, entriesJson_valid es h.2.2⟩
end

theorem entriesJson_names : ∀ (es : NarLs.Entries) (k : Bytes) (v : Json), (k, v) ∈ memberList (entriesJson es) → k ∈ es.names
  | .nil, k, v, h => by simp [entriesJson, memberList] at h
  | .null n es, k, v, h => by
    simp only [entriesJson, memberList, List.mem_cons, Prod.mk.injEq] at h
    simp only [NarLs.Entries.names, List.mem_cons]
    rcases h with h | h
    · exact .inl h.1
    · exact .inr (entriesJson_names es k v h)
  | .cons n t es, k, v, h => by
    simp only [entriesJson, memberList, List.mem_cons, Prod.mk.injEq] at h
    simp only [NarLs.Entries.names, List.mem_cons]
    rcases h with h | h
    · exact .inl h.1
    · exact .inr (entriesJson_names es k v h)

mutual
theorem nodeJson_says : ∀ t : Node, t.Writable → ∃ m, nodeJson t = .obj m ∧ NodeMembersOk m ∧ Says (memberList m) t
  | .mk typ es size lt x o, h => by
    rw [Node.Writable] at h
    obtain ⟨_, _, h3, h4, h5, h6, h7, h8⟩ := h
    obtain ⟨he, hs⟩ := entriesJson_says es h7 h8
    have hi : IsInt (.num (intLit size)) size := ⟨_, rfl, intLit_text h3 h4⟩
    have ho : IsInt (.num (intLit o)) o := ⟨_, rfl, intLit_text h5 h6⟩
    refine ⟨_, by rw [nodeJson], ?_, ?_⟩
    · simp only [nodeMembersOk_cons]
      refine ⟨.inl ⟨keyFor_self _, .inr ⟨_, rfl⟩⟩, .inr (.inr (.inr (.inr (.inr ⟨keyFor_self _, by rw [EntriesOk]; exact he⟩)))),
        .inr (.inr (.inl ⟨keyFor_self _, .inr ⟨_, hi⟩⟩)), .inr (.inl ⟨keyFor_self _, .inr ⟨_, rfl⟩⟩),
        .inr (.inr (.inr (.inr (.inl ⟨keyFor_self _, .inr ⟨_, rfl⟩⟩)))), .inr (.inr (.inr (.inl ⟨keyFor_self _, .inr ⟨_, ho⟩⟩))), ?_⟩
      simp [NodeMembersOk]
    · simp only [memberList]
      have ne : ∀ f g : Bytes, (∀ c ∈ f, c.toNat < 0x80) → (∀ c ∈ g, c.toNat < 0x80) → foldName f ≠ foldName g → ¬ KeyFor f g :=
        fun f g hf hg hne h => key_ne hf hg hne h (keyFor_self g)
      have last : ∀ (f : Bytes) (l : List (Bytes × Json)), (∀ c ∈ f, c.toNat < 0x80) →
          (∀ m ∈ l, (∀ c ∈ m.1, c.toNat < 0x80) ∧ foldName f ≠ foldName m.1) → ∀ m ∈ l, KeyFor f m.1 → m.2 = .null :=
        fun f l hf hl m hm hk => absurd hk (ne f m.1 hf (hl m hm).1 (hl m hm).2)
      refine .mk (l := memberList (entriesJson es)) (.inr ⟨[], _, _, _, rfl, keyFor_self _, rfl, last _ _ (by decide) ?_⟩)
        (.inr ⟨[_, _], _, _, _, rfl, keyFor_self _, hi, last _ _ (by decide) ?_⟩)
        (.inr ⟨[_, _, _], _, _, _, rfl, keyFor_self _, rfl, last _ _ (by decide) ?_⟩)
        (.inr ⟨[_, _, _, _], _, _, _, rfl, keyFor_self _, rfl, last _ _ (by decide) ?_⟩)
        (.inr ⟨[_, _, _, _, _], _, _, _, rfl, keyFor_self _, ho, last _ _ (by decide) ?_⟩) ?_ hs
      · simp only [List.mem_cons, List.not_mem_nil, or_false]
        rintro m (rfl | rfl | rfl | rfl | rfl) <;> (dsimp only; decide)
      · simp only [List.mem_cons, List.not_mem_nil, or_false]
        rintro m (rfl | rfl | rfl) <;> (dsimp only; decide)
      · simp only [List.mem_cons, List.not_mem_nil, or_false]
        rintro m (rfl | rfl) <;> (dsimp only; decide)
      · simp only [List.mem_cons, List.not_mem_nil, or_false]
        rintro m rfl; dsimp only; decide
      · simp
      · have e0 := EntriesOf.other (k := b!"type") (v := .str typ) .nil (ne b!"entries" b!"type" (by decide) (by decide) (by decide))
        have e1 := EntriesOf.obj (k := b!"entries") (m := entriesJson es) e0 (keyFor_self _)
        have e2 := EntriesOf.other (k := b!"size") (v := .num (intLit size)) e1 (ne b!"entries" b!"size" (by decide) (by decide) (by decide))
        have e3 := EntriesOf.other (k := b!"target") (v := .str lt) e2 (ne b!"entries" b!"target" (by decide) (by decide) (by decide))
        have e4 := EntriesOf.other (k := b!"executable") (v := .bool x) e3 (ne b!"entries" b!"executable" (by decide) (by decide) (by decide))
        exact EntriesOf.other (k := b!"narOffset") (v := .num (intLit o)) e4 (ne b!"entries" b!"narOffset" (by decide) (by decide) (by decide))
theorem entriesJson_says : ∀ es : NarLs.Entries, es.names.Nodup → es.Writable →
    NodesOk (entriesJson es) ∧ SaysMap (memberList (entriesJson es)) es
  | .nil, _, _ => ⟨by simp [entriesJson, NodesOk], .nil⟩
  | .null n es, hn, h => by
    rw [NarLs.Entries.Writable] at h
    rw [NarLs.Entries.names, List.nodup_cons] at hn
    obtain ⟨h1, h2⟩ := entriesJson_says es hn.2 h.2
    rw [entriesJson, NodesOk, memberList]
    exact ⟨⟨by simp [NodeOk], h1⟩, .null (fun v' hv => hn.1 (entriesJson_names es n v' hv)) h2⟩
  | .cons n t es, hn, h => by
    rw [NarLs.Entries.Writable] at h
    rw [NarLs.Entries.names, List.nodup_cons] at hn
    obtain ⟨h1, h2⟩ := entriesJson_says es hn.2 h.2.2
    obtain ⟨m, h3, h4, h5⟩ := nodeJson_says t h.2.1
    rw [entriesJson, NodesOk, memberList, h3, NodeOk]
    exact ⟨⟨h4, h1⟩, .node (fun v' hv => hn.1 (entriesJson_names es n v' hv)) h5 h2⟩
end

theorem lsJson_says (w t rest : Bytes) (version : Int) (root : Node) (hv : -2 ^ 63 ≤ version ∧ version < 2 ^ 63) (hr : root.Writable)
    (hw : Ws w) (ht : JText false t (lsJson version root)) (hd : jdepth (lsJson version root) ≤ 10000) :
    LsSays (w ++ t ++ rest) version root := by
  obtain ⟨m, h1, h2, h3⟩ := nodeJson_says root hr
  unfold lsJson at ht hd
  rw [h1] at ht hd
  have hi : IsInt (.num (intLit version)) version := ⟨_, rfl, intLit_text hv.1 hv.2⟩
  have ne : ∀ f g : Bytes, (∀ c ∈ f, c.toNat < 0x80) → (∀ c ∈ g, c.toNat < 0x80) → foldName f ≠ foldName g → ¬ KeyFor f g :=
    fun f g hf hg hne h => key_ne hf hg hne h (keyFor_self g)
  refine ⟨w, t, rest, _, memberList m, rfl, hw, ht, hd, ?_, ?_, ?_, h3⟩
  · exact ⟨.inl ⟨keyFor_self _, .inr ⟨_, hi⟩⟩, .inr ⟨keyFor_self _, by rw [NodeOk]; exact h2⟩, trivial⟩
  · refine .inr ⟨[], _, _, _, rfl, keyFor_self _, hi, ?_⟩
    simp only [memberList, List.mem_singleton]
    rintro m rfl h
    exact absurd h (ne b!"version" b!"Root" (by decide) (by decide) (by decide))
  · exact RootOf.obj (ms := [_]) (k := b!"Root") (m := m) (RootOf.other (ms := []) .nil (ne b!"Root" b!"version" (by decide) (by decide) (by decide)))
      (keyFor_self _)

/-- A listing that is written with `json.Marshal`, indented or not, is read back as it is, whatever follows it. -/
theorem C111_roundtrip (visit : Node → Node) (hvisit : Visits visit) (short : Bool) (root : Node) (rest : Bytes)
    (hr : root.Writable) (hok : root.All NameLs ConsistentIfParent) (hd : jdepth (lsJson 1 root) ≤ 10000) :
    parseLSText visit ((lsJson 1 root).text short ++ rest) = .ok (1, root) ∧
    parseLSText visit ((lsJson 1 root).pretty short 0 ++ rest) = .ok (1, root) := by
  have hv : JValid (lsJson 1 root) := by
    obtain ⟨_, _, _, _, _, _, k7, k8⟩ := isUtf8_keys
    simp only [lsJson, JValid, JValidm]
    exact ⟨k7, intLit_num _, k8, nodeJson_valid root hr, trivial⟩
  have hn := valid_nums _ hv
  have t1 := jtext_weaken _ (text_sound short _ hn)
  have t2 := jtext_weaken _ (pretty_sound short _ 0 hn)
  rw [mapStr_valid _ hv] at t1 t2
  constructor
  · exact (C111_exact visit hvisit _ 1 root).2 ⟨lsJson_says [] _ rest 1 root (by decide) hr ws_nil t1 hd, rfl, hok⟩
  · exact (C111_exact visit hvisit _ 1 root).2 ⟨lsJson_says [] _ rest 1 root (by decide) hr ws_nil t2 hd, rfl, hok⟩

mutual
theorem reorder_refl : ∀ t : Node, Reorder t t
  | .mk _ es _ _ _ _ => .mk (reorderE_refl es)
theorem reorderE_refl : ∀ es : NarLs.Entries, ReorderE es es
  | .nil => .nil
  | .cons _ t es => .cons (reorder_refl t) (reorderE_refl es)
  | .null _ es => .null (reorderE_refl es)
end

/-- an order of visiting -/
example : Visits id := reorder_refl

/-- a listing as Nix writes it, with data after it -/
example : parseLSText id b!"{\"version\":1,\"root\":{\"type\":\"directory\",\"entries\":{\"a\":{\"type\":\"regular\",\"size\":5,\"executable\":true,\"narOffset\":96},\"b\":{\"type\":\"symlink\",\"target\":\"a\"}}}}\n[" =
    .ok (1, .mk b!"directory" (.cons b!"a" (.mk b!"regular" .nil 5 [] true 96) (.cons b!"b" (.mk b!"symlink" .nil 0 b!"a" false 0) .nil))
      0 [] false 0) := by decide +kernel

/-- a text with an entry that is null, which panics -/
example : parseLSText id b!"{\"version\":1,\"root\":{\"entries\":{\"a\":null}}}" = .panic := by decide +kernel

/-- a repeated name and a root in two parts: the last node counts, the parts are taken together -/
example : parseLSText id b!"{\"Root\":{\"entries\":{\"a\":{\"size\":1},\"b\":{}}},\"VERSION\":1,\"root\":{\"type\":\"directory\",\"entries\":{\"a\":{\"narOffset\":2}}}}" =
    .ok (1, .mk b!"directory" (.cons b!"b" zeroNode (.cons b!"a" (.mk [] .nil 0 [] false 2) .nil)) 0 [] false 0) := by decide +kernel

/-- texts that are refused -/
example : (parseLSText id b!"{\"version\":1,\"root\":{\"x\":null}}").isOk = false ∧ (parseLSText id b!"{\"version\":1.0}").isOk = false ∧
    (parseLSText id b!"{\"version\":1,\"root\":{\"size\":9223372036854775808}}").isOk = false ∧ (parseLSText id b!"null").isOk = false := by
  decide +kernel

/-- a listing for the round trip -/
example : ∃ root : Node, root.Writable ∧ root.All NameLs ConsistentIfParent ∧ jdepth (lsJson 1 root) ≤ 10000 ∧ root.entries.names.length = 2 := by
  refine ⟨.mk b!"directory" (.cons b!"a" (.mk b!"regular" .nil 5 [] true 96) (.cons b!"b" (.mk b!"symlink" .nil 0 b!"a" false 0) .nil)) 0 [] false 0, ?_, ?_, by decide, rfl⟩
  · have key : ∀ s : Bytes, (∀ c ∈ s, c.toNat < 0x80) → IsUtf8 s := fun s hs => ascii_isUtf8 hs
    simp only [Node.Writable, NarLs.Entries.Writable, NarLs.Entries.names]
    refine ⟨key _ (by decide), key _ (by decide), by decide, by decide, by decide, by decide, by decide,
      key _ (by decide), ⟨key _ (by decide), key _ (by decide), by decide, by decide, by decide, by decide, by decide, trivial⟩,
      key _ (by decide), ⟨key _ (by decide), key _ (by decide), by decide, by decide, by decide, by decide, by decide, trivial⟩, trivial⟩
  · simp [Node.All, NarLs.Entries.All, ConsistentIfParent, FieldsOk, NameLs]

end Verif.Props
