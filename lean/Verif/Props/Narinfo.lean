import Verif.Lemmas.Narinfo
import Verif.Lemmas.Storepath
import Verif.Props.Nixhash
import Verif.Props.Storepath
import Verif.Props.Signature

/-!
# Properties of `pkg/narinfo` (C49 - C52)
-/

namespace Verif.Props
open Verif Verif.Narinfo Verif.Nixhash Verif.GoLib Verif.Signature Verif.Spec Verif.Wire

/-! ### C50 -/

theorem hexDecode_ne_panic (s : Bytes) : hexDecode s ≠ .panic := by
  fun_induction hexDecode s with
  | case4 a b rest x y hx hy ih =>
    cases h : hexDecode rest with
    | ok r => simp
    | err e => simp
    | panic => exact absurd h ih
  | _ => simp

theorem decodeByLen_ne_panic (n : Nat) (s : Bytes) : decodeByLen n s ≠ .panic := by
  have hb : ∀ {α β : Type} {x : Res α} {f : α → Res β}, x ≠ .panic → (∀ a, f a ≠ .panic) →
      (x >>= f) ≠ .panic := by
    intro α β x f h1 h2
    cases x with
    | ok a => exact h2 a
    | err e => simp
    | panic => exact absurd rfl h1
  unfold decodeByLen
  split
  · exact hb (hexDecode_ne_panic s) (by simp)
  split
  · exact hb (Storepath.decodeString_ne_panic s) (by simp)
  split
  · exact hb (b64Decode_ne_panic s) (by simp)
  · simp

theorem parseAlgorithm_ne_panic (s : Bytes) : parseAlgorithm s ≠ .panic := by
  unfold parseAlgorithm
  repeat' split
  all_goals simp

/-- Parsing a hash without an expected algorithm never panics. -/
theorem parseAny_none_ne_panic (s : Bytes) : parseAny s none ≠ .panic := by
  intro h
  unfold parseAny parsePrefix at h
  split at h
  · rename_i i hi
    cases ha : parseAlgorithm (s.take i) with
    | panic => exact absurd ha (parseAlgorithm_ne_panic _)
    | err e => rw [ha] at h; simp at h
    | ok a =>
      rw [ha] at h
      obtain ⟨n, hrow⟩ := parseAlgorithm_ok ha
      simp only [Res.bind_ok, funcSize_row hrow] at h
      cases hd : decodeByLen n (s.drop (i + 1)) with
      | panic => exact absurd hd (decodeByLen_ne_panic _ _)
      | err e => rw [hd] at h; simp at h
      | ok ed =>
        rw [hd] at h
        simp only [Res.bind_ok] at h
        split at h
        · split at h <;> simp at h
        · simp at h
  · simp at h

theorem bind_ok_exists {α β : Type} {x : Res α} {f : α → β} :
    (∃ b, (x >>= fun a => .ok (f a)) = .ok b) ↔ ∃ a, x = .ok a := by
  cases x <;> simp

theorem setField_iff (n : NarInfo) (k v : Bytes) :
    (∃ n', setField n k v = .ok n') ↔ GoodValue k v := by
  have hu : (∃ a, parseUint v = .ok a) ↔ IsUint64 v := by
    constructor
    · rintro ⟨a, h⟩; obtain ⟨h1, h2, h3, _⟩ := (parseUint_iff v a).1 h; exact ⟨h1, h2, h3⟩
    · rintro ⟨h1, h2, h3⟩; exact ⟨_, (parseUint_iff v _).2 ⟨h1, h2, h3, rfl⟩⟩
  unfold setField GoodValue
  by_cases h1 : k = b!"StorePath"
  · subst h1; simp
  rw [if_neg h1]
  by_cases h2 : k = b!"URL"
  · subst h2; simp
  rw [if_neg h2]
  by_cases h3 : k = b!"Compression"
  · subst h3; simp
  rw [if_neg h3]
  by_cases h4 : k = b!"FileHash"
  · subst h4; rw [if_pos rfl, bind_ok_exists]; simp
  rw [if_neg h4]
  by_cases h5 : k = b!"FileSize"
  · subst h5; rw [if_pos rfl, bind_ok_exists, hu]; simp
  rw [if_neg h5]
  by_cases h6 : k = b!"NarHash"
  · subst h6; rw [if_pos rfl, bind_ok_exists]; simp
  rw [if_neg h6]
  by_cases h7 : k = b!"NarSize"
  · subst h7; rw [if_pos rfl, bind_ok_exists, hu]; simp
  rw [if_neg h7]
  by_cases h8 : k = b!"References"
  · subst h8; simp
  rw [if_neg h8]
  by_cases h9 : k = b!"Deriver"
  · subst h9; simp
  rw [if_neg h9]
  by_cases h10 : k = b!"System"
  · subst h10; simp
  rw [if_neg h10]
  by_cases h11 : k = b!"Sig"
  · subst h11; rw [if_pos rfl, bind_ok_exists]; simp
  rw [if_neg h11]
  by_cases h12 : k = b!"CA"
  · subst h12; simp
  rw [if_neg h12]
  simp only [List.mem_cons, List.not_mem_nil, or_false, h1, h2, h3, h4, h5, h6, h7, h8, h9, h10, h11, h12]
  simp

theorem bind_ne_panic {α β : Type} {x : Res α} {f : α → Res β} (h1 : x ≠ .panic)
    (h2 : ∀ a, x = .ok a → f a ≠ .panic) : (x >>= f) ≠ .panic := by
  cases x with
  | ok a => exact h2 a rfl
  | err e => simp
  | panic => exact absurd rfl h1

theorem ite_ne_panic {α : Type} {c : Prop} [Decidable c] {a b : Res α} (ha : a ≠ .panic)
    (hb : b ≠ .panic) : (if c then a else b) ≠ .panic := by
  split <;> assumption

theorem setField_ne_panic (n : NarInfo) (k v : Bytes) : setField n k v ≠ .panic := by
  unfold setField
  have e1 := parseAny_none_ne_panic v
  have e2 := parseUint_ne_panic v
  have e3 := (C53_accepts v ⟨[], []⟩).2.2.2.1
  repeat' (first | exact bind_ne_panic (by assumption) (by simp) | refine ite_ne_panic ?_ ?_)
  all_goals simp

theorem parseLine_iff (n : NarInfo) (l : Bytes) :
    (∃ n', parseLine n l = .ok n') ↔ l.length < 1048576 ∧
      (dropCR l = [] ∨ ∃ k v, SplitsAs (dropCR l) k v ∧ GoodValue k v) := by
  unfold parseLine
  split
  · rename_i h
    constructor
    · simp
    · rintro ⟨h', _⟩; exact absurd h' (Nat.not_lt.2 h)
  rename_i h
  have hl : l.length < 1048576 := Nat.lt_of_not_ge h
  split
  · rename_i h0
    simp [hl, h0]
  rename_i h0
  simp only [hl, h0, true_and, false_or]
  constructor
  · rintro ⟨n', h⟩
    rw [Res.bind_eq_ok] at h
    obtain ⟨⟨k, v⟩, h1, h2⟩ := h
    exact ⟨k, v, (splitOnce_iff _ _ _).1 h1, (setField_iff n k v).1 ⟨n', h2⟩⟩
  · rintro ⟨k, v, h1, h2⟩
    obtain ⟨n', h3⟩ := (setField_iff n k v).2 h2
    exact ⟨n', by rw [(splitOnce_iff _ _ _).2 h1]; exact h3⟩

theorem parseLine_ne_panic (n : NarInfo) (l : Bytes) : parseLine n l ≠ .panic := by
  unfold parseLine
  split
  · simp
  split
  · simp
  · exact bind_ne_panic (splitOnce_ne_panic _) fun a _ => setField_ne_panic _ _ _

theorem parseLines_iff (n : NarInfo) (ls : List Bytes) :
    (∃ n', parseLines n ls = .ok n') ↔ ∀ l ∈ ls, l.length < 1048576 ∧
      (dropCR l = [] ∨ ∃ k v, SplitsAs (dropCR l) k v ∧ GoodValue k v) := by
  induction ls generalizing n with
  | nil => simp [parseLines]
  | cons l ls ih =>
    unfold parseLines
    rw [List.forall_mem_cons, ← parseLine_iff n l]
    constructor
    · rintro ⟨n', h⟩
      rw [Res.bind_eq_ok] at h
      obtain ⟨m, h1, h2⟩ := h
      exact ⟨⟨m, h1⟩, (ih m).1 ⟨n', h2⟩⟩
    · rintro ⟨⟨m, h1⟩, h2⟩
      obtain ⟨n', h3⟩ := (ih m).2 h2
      exact ⟨n', by rw [h1]; exact h3⟩

theorem parseLines_ne_panic (n : NarInfo) (ls : List Bytes) : parseLines n ls ≠ .panic := by
  induction ls generalizing n with
  | nil => simp [parseLines]
  | cons l ls ih =>
    unfold parseLines
    exact bind_ne_panic (parseLine_ne_panic n l) fun a _ => ih a

/-- C50: `Parse` succeeds exactly on the texts, fully read, whose non-empty lines (all shorter than
1 MiB) are `key: value` with one `: ` only, a known key, and a hash, number or signature where one is
due. It never panics. -/
theorem C50_accepts (s : Stream) :
    ((∃ n, parse s = .ok n) ↔ s.term = .eof ∧ (∀ l ∈ splitByte s.data 10, l.length < 1048576) ∧
      ∀ l ∈ lines s.data, l = [] ∨ ∃ k v, SplitsAs l k v ∧ GoodValue k v) ∧
    parse s ≠ .panic := by
  constructor
  · have hl : (∀ l ∈ lines s.data, l = [] ∨ ∃ k v, SplitsAs l k v ∧ GoodValue k v) ↔
        ∀ l ∈ splitByte s.data 10, dropCR l = [] ∨ ∃ k v, SplitsAs (dropCR l) k v ∧ GoodValue k v := by
      unfold lines
      simp only [List.mem_map]
      constructor
      · intro h l hl; exact h _ ⟨l, hl, rfl⟩
      · rintro h l ⟨l', hl', rfl⟩; exact h l' hl'
    rw [hl]
    have hand : ((∀ l ∈ splitByte s.data 10, l.length < 1048576) ∧
        ∀ l ∈ splitByte s.data 10, dropCR l = [] ∨ ∃ k v, SplitsAs (dropCR l) k v ∧ GoodValue k v) ↔
        ∀ l ∈ splitByte s.data 10, l.length < 1048576 ∧
          (dropCR l = [] ∨ ∃ k v, SplitsAs (dropCR l) k v ∧ GoodValue k v) :=
      ⟨fun h l hl => ⟨h.1 l hl, h.2 l hl⟩, fun h => ⟨fun l hl => (h l hl).1, fun l hl => (h l hl).2⟩⟩
    rw [hand, ← parseLines_iff empty]
    unfold parse
    constructor
    · rintro ⟨n, h⟩
      rw [Res.bind_eq_ok] at h
      obtain ⟨m, h1, h2⟩ := h
      split at h2
      · simp at h2
      · rename_i ht
        exact ⟨by simpa using ht, m, h1⟩
    · rintro ⟨ht, m, h1⟩
      rw [h1]
      simp [ht]
  · unfold parse
    refine bind_ne_panic (parseLines_ne_panic _ _) fun a _ => ?_
    split <;> simp

theorem values_append (k : Bytes) (a b : List Bytes) : values k (a ++ b) = values k a ++ values k b := by
  unfold values; rw [List.filterMap_append]

theorem values_nil_line (k : Bytes) : values k [[]] = [] := by
  unfold values
  cases k <;> simp

theorem values_split {l k v : Bytes} (h : SplitsAs l k v) (key : Bytes) :
    values key [l] = if key = k then [v] else [] := by
  obtain ⟨h1, h2⟩ := h
  unfold values
  by_cases hk : key = k
  · subst hk
    have hp : (key ++ b!": ").isPrefixOf l = true := by
      rw [List.isPrefixOf_iff_prefix]; exact ⟨v, h1.symm⟩
    simp only [List.filterMap_cons, hp, if_true, List.filterMap_nil]
    rw [h1, List.drop_left' (by simp)]
  · have hp : (key ++ b!": ").isPrefixOf l ≠ true := by
      rw [Ne, List.isPrefixOf_iff_prefix]
      rintro ⟨t, ht⟩
      exact hk (h2 key t ht.symm)
    simp only [List.filterMap_cons, hp, List.filterMap_nil, hk]
    simp

/-- What has been collected after the lines `ls`. -/
structure Collected (ls : List Bytes) (n : NarInfo) : Prop where
  storePath : n.storePath = (values b!"StorePath" ls).getLast?.getD []
  url : n.url = (values b!"URL" ls).getLast?.getD []
  compression : n.compression = (values b!"Compression" ls).getLast?.getD []
  fileHash : ∀ h, n.fileHash = some h ↔
    ∃ v, (values b!"FileHash" ls).getLast? = some v ∧ parseAny v none = .ok h
  fileSize : n.fileSize = digitsValue 0 ((values b!"FileSize" ls).getLast?.getD [])
  narHash : ∀ h, n.narHash = some h ↔
    ∃ v, (values b!"NarHash" ls).getLast? = some v ∧ parseAny v none = .ok h
  narSize : n.narSize = digitsValue 0 ((values b!"NarSize" ls).getLast?.getD [])
  references : n.references =
    (values b!"References" ls).flatMap fun v => if v = [] then [] else splitByte v 32
  deriver : n.deriver =
    ((values b!"Deriver" ls).filter fun v => v != b!"unknown-deriver").getLast?.getD []
  system : n.system = (values b!"System" ls).getLast?.getD []
  signatures : (values b!"Sig" ls).map parseSignature = n.signatures.map .ok
  ca : n.ca = (values b!"CA" ls).getLast?.getD []

theorem collected_empty (ls : List Bytes) (n : NarInfo) (h : Collected ls n) : Collected (ls ++ [[]]) n := by
  obtain ⟨h1, h2, h3, h4, h5, h6, h7, h8, h9, h10, h11, h12⟩ := h
  constructor <;> (simp only [values_append, values_nil_line, List.append_nil]; assumption)

theorem collected_field {ls : List Bytes} {n n' : NarInfo} {l k v : Bytes} (h : Collected ls n)
    (hs : SplitsAs l k v) (hf : setField n k v = .ok n') : Collected (ls ++ [l]) n' := by
  obtain ⟨h1, h2, h3, h4, h5, h6, h7, h8, h9, h10, h11, h12⟩ := h
  have hv : ∀ key, values key (ls ++ [l]) = values key ls ++ if key = k then [v] else [] := by
    intro key; rw [values_append, values_split hs]
  simp at h9
  unfold setField at hf
  by_cases c : k = b!"StorePath"
  · subst c; simp at hf; subst hf
    constructor <;> simp only [hv] <;> simp <;> assumption
  rw [if_neg c] at hf; clear c
  by_cases c : k = b!"URL"
  · subst c; simp at hf; subst hf
    constructor <;> simp only [hv] <;> simp <;> assumption
  rw [if_neg c] at hf; clear c
  by_cases c : k = b!"Compression"
  · subst c; simp at hf; subst hf
    constructor <;> simp only [hv] <;> simp <;> assumption
  rw [if_neg c] at hf; clear c
  by_cases c : k = b!"FileHash"
  · subst c; rw [if_pos rfl, Res.bind_eq_ok] at hf
    obtain ⟨x, hx, hf⟩ := hf
    simp at hf; subst hf
    constructor <;> simp only [hv] <;> simp [hx] <;> assumption
  rw [if_neg c] at hf; clear c
  by_cases c : k = b!"FileSize"
  · subst c; rw [if_pos rfl, Res.bind_eq_ok] at hf
    obtain ⟨x, hx, hf⟩ := hf
    have hx := ((parseUint_iff v x).1 hx).2.2.2
    simp at hf; subst hf
    constructor <;> simp only [hv] <;> simp <;> assumption
  rw [if_neg c] at hf; clear c
  by_cases c : k = b!"NarHash"
  · subst c; rw [if_pos rfl, Res.bind_eq_ok] at hf
    obtain ⟨x, hx, hf⟩ := hf
    simp at hf; subst hf
    constructor <;> simp only [hv] <;> simp [hx] <;> assumption
  rw [if_neg c] at hf; clear c
  by_cases c : k = b!"NarSize"
  · subst c; rw [if_pos rfl, Res.bind_eq_ok] at hf
    obtain ⟨x, hx, hf⟩ := hf
    have hx := ((parseUint_iff v x).1 hx).2.2.2
    simp at hf; subst hf
    constructor <;> simp only [hv] <;> simp <;> assumption
  rw [if_neg c] at hf; clear c
  by_cases c : k = b!"References"
  · subst c; simp at hf
    by_cases e : v = []
    · rw [if_pos e] at hf; subst hf
      constructor <;> simp only [hv] <;> simp [e] <;> assumption
    · rw [if_neg e] at hf; subst hf
      constructor <;> simp only [hv] <;> simp [e, h8] <;> assumption
  rw [if_neg c] at hf; clear c
  by_cases c : k = b!"Deriver"
  · subst c; simp at hf
    by_cases e : v = b!"unknown-deriver"
    · rw [if_pos e] at hf; subst hf
      constructor <;> simp only [hv] <;> simp [e] <;> assumption
    · rw [if_neg e] at hf; subst hf
      constructor <;> simp only [hv] <;> simp [e] <;> assumption
  rw [if_neg c] at hf; clear c
  by_cases c : k = b!"System"
  · subst c; simp at hf; subst hf
    constructor <;> simp only [hv] <;> simp <;> assumption
  rw [if_neg c] at hf; clear c
  by_cases c : k = b!"Sig"
  · subst c; rw [if_pos rfl, Res.bind_eq_ok] at hf
    obtain ⟨x, hx, hf⟩ := hf
    simp at hf; subst hf
    constructor <;> simp only [hv] <;> simp [hx] <;> assumption
  rw [if_neg c] at hf; clear c
  by_cases c : k = b!"CA"
  · subst c; simp at hf; subst hf
    constructor <;> simp only [hv] <;> simp <;> assumption
  rw [if_neg c] at hf
  simp at hf

theorem collected_lines {done ls : List Bytes} {n n' : NarInfo} (h : Collected done n)
    (hp : parseLines n ls = .ok n') : Collected (done ++ ls.map dropCR) n' := by
  induction ls generalizing done n with
  | nil => simp [parseLines] at hp; subst hp; simpa using h
  | cons l ls ih =>
    unfold parseLines at hp
    rw [Res.bind_eq_ok] at hp
    obtain ⟨m, h1, h2⟩ := hp
    have hm : Collected (done ++ [dropCR l]) m := by
      unfold parseLine at h1
      split at h1
      · simp at h1
      split at h1
      · rename_i h0
        simp at h1; subst h1
        rw [h0]; exact collected_empty _ _ h
      · rw [Res.bind_eq_ok] at h1
        obtain ⟨⟨k, v⟩, h3, h4⟩ := h1
        exact collected_field h ((splitOnce_iff _ _ _).1 h3) h4
    have := ih hm h2
    simpa using this

/-- C50, result: single-valued fields have the value of the last line with their key (empty,
absent or 0 without one), references and signatures are collected from all lines in order, an
`unknown-deriver` is ignored, and the compression defaults to bzip2. -/
theorem C50_result (s : Stream) (n : NarInfo) (h : parse s = .ok n) :
    n.storePath = (values b!"StorePath" (lines s.data)).getLast?.getD [] ∧
    n.url = (values b!"URL" (lines s.data)).getLast?.getD [] ∧
    n.compression = (let c := (values b!"Compression" (lines s.data)).getLast?.getD []
      if c = [] then b!"bzip2" else c) ∧
    (∀ h, n.fileHash = some h ↔
      ∃ v, (values b!"FileHash" (lines s.data)).getLast? = some v ∧ parseAny v none = .ok h) ∧
    n.fileSize = digitsValue 0 ((values b!"FileSize" (lines s.data)).getLast?.getD []) ∧
    (∀ h, n.narHash = some h ↔
      ∃ v, (values b!"NarHash" (lines s.data)).getLast? = some v ∧ parseAny v none = .ok h) ∧
    n.narSize = digitsValue 0 ((values b!"NarSize" (lines s.data)).getLast?.getD []) ∧
    n.references = ((values b!"References" (lines s.data)).flatMap fun v =>
      if v = [] then [] else splitByte v 32) ∧
    n.deriver = ((values b!"Deriver" (lines s.data)).filter fun v => v != b!"unknown-deriver").getLast?.getD [] ∧
    n.system = (values b!"System" (lines s.data)).getLast?.getD [] ∧
    (values b!"Sig" (lines s.data)).map parseSignature = n.signatures.map .ok ∧
    n.ca = (values b!"CA" (lines s.data)).getLast?.getD [] := by
  unfold parse at h
  rw [Res.bind_eq_ok] at h
  obtain ⟨m, h1, h2⟩ := h
  split at h2
  · simp at h2
  have h0 : Collected [] empty := by constructor <;> first | rfl | simp [values, empty]
  have hc := collected_lines h0 h1
  rw [List.nil_append] at hc
  obtain ⟨c1, c2, c3, c4, c5, c6, c7, c8, c9, c10, c11, c12⟩ := hc
  simp only [Res.ok.injEq] at h2
  subst h2
  by_cases hcomp : m.compression = []
  · rw [if_pos hcomp]
    rw [c3] at hcomp
    refine ⟨c1, c2, ?_, c4, c5, c6, c7, c8, c9, c10, c11, c12⟩
    show b!"bzip2" = _
    simp only [lines, hcomp, if_true]
  · rw [if_neg hcomp]
    refine ⟨c1, c2, ?_, c4, c5, c6, c7, c8, c9, c10, c11, c12⟩
    rw [c3] at hcomp ⊢
    simp only [lines, hcomp, if_false]

/-! ### C49 -/

theorem getLast?_app {a b : Bytes} (h : b ≠ []) : (a ++ b).getLast? = b.getLast? := by
  rw [List.getLast?_append]
  cases hb : b.getLast? with
  | none => exact absurd (List.getLast?_eq_none_iff.1 hb) h
  | some x => rfl

theorem parseLines_cons (m : NarInfo) (l : Bytes) (ls : List Bytes) :
    parseLines m (l :: ls) = parseLine m l >>= fun m' => parseLines m' ls := rfl

theorem splitsAs_of {k v : Bytes} (hk : (58 : UInt8) ∉ k) (hv : ∀ a b, v ≠ a ++ b!": " ++ b) :
    SplitsAs (k ++ b!": " ++ v) k v := by
  refine ⟨rfl, fun a b h => ?_⟩
  rw [List.append_assoc, List.append_assoc] at h
  rcases List.append_eq_append_iff.1 h with ⟨c, h1, h2⟩ | ⟨c, h1, h2⟩
  · cases c with
    | nil => simpa using h1
    | cons x c =>
      exfalso
      cases c with
      | nil => simp at h2
      | cons y c =>
        simp only [List.cons_append, List.nil_append, List.cons.injEq] at h2
        exact hv c b (by rw [List.append_assoc]; exact h2.2.2)
  · cases c with
    | nil => simpa using h1.symm
    | cons x c =>
      exfalso
      simp only [List.cons_append, List.nil_append, List.cons.injEq] at h2
      apply hk
      rw [h1, h2.1]
      simp

/-- One printed line is read as its key and value. -/
theorem run_line {pre k v rest : Bytes} (m : NarInfo) (hpre : pre = k ++ b!": ")
    (hk : (58 : UInt8) ∉ k ∧ (10 : UInt8) ∉ k ∧ k.length < 20) (hv : ValueOk v) :
    parseLines m (splitByte (pre ++ (v ++ (b!"\n" ++ rest))) 10) =
      setField m k v >>= fun m' => parseLines m' (splitByte rest 10) := by
  subst hpre
  have h10 : (10 : UInt8) ∉ k ++ b!": " ++ v := by
    simp only [List.mem_append, not_or]
    exact ⟨⟨hk.2.1, by decide⟩, hv.noLF⟩
  have e : k ++ b!": " ++ (v ++ (b!"\n" ++ rest)) = (k ++ b!": " ++ v) ++ 10 :: rest := by simp
  rw [e, splitByte_append h10, parseLines_cons]
  have hlast : (k ++ b!": " ++ v).getLast? ≠ some 13 := by
    cases hvv : v with
    | nil => simp [List.getLast?_append]
    | cons x t =>
      rw [getLast?_app (by simp)]
      rw [← hvv]; exact hv.noCR
  have hcr : dropCR (k ++ b!": " ++ v) = k ++ b!": " ++ v := by
    unfold dropCR; rw [if_neg hlast]
  have hlen : ¬ (k ++ b!": " ++ v).length ≥ maxCapacity := by
    have h1 := hv.short
    have h2 := hk.2.2
    simp [maxCapacity]; omega
  have hne : k ++ b!": " ++ v ≠ [] := by simp
  unfold parseLine
  rw [if_neg hlen, hcr, if_neg hne, (splitOnce_iff _ _ _).2 (splitsAs_of hk.1 hv.noSep)]
  rfl

theorem valueOk_simple {v : Bytes} (h : ∀ c ∈ v, c ≠ 10 ∧ c ≠ 13 ∧ c ≠ 32) (hl : v.length < 1048000) :
    ValueOk v := by
  refine ⟨fun hc => (h _ hc).1 rfl, fun hc => ?_, fun a b hab => ?_, hl⟩
  · exact (h 13 (List.mem_of_getLast? hc)).2.1 rfl
  · exact (h 32 (by rw [hab]; simp)).2.2 rfl

theorem body_no (e : Encoding) (d : Bytes) (c : UInt8) (h1 : c ∉ hexDigits) (h2 : c ∉ nixDigits)
    (h3 : c ∉ b64Alphabet) (h4 : c ≠ 61) : c ∉ body e d := by
  unfold body
  split
  · exact hexEncode_no _ _ h1
  split
  · exact encodeToString_no _ _ h2
  · exact b64Encode_no _ _ h3 h4

theorem body_length (e : Encoding) (d : Bytes) (h : d.length ≤ 64) : (body e d).length ≤ 200 := by
  unfold body
  split
  · rw [hexEncode_length]; omega
  split
  · rw [Nixbase32.encodeToString_length]; unfold Nixbase32.encodedLen; omega
  · rw [b64Encode_length]; unfold b64EncodedLen; omega

theorem algo_names : ∀ r ∈ hashAlgos, r.2.1.length ≤ 6 ∧ r.2.2 ≤ 64 ∧ ∀ c ∈ r.2.1, c ≠ 10 ∧ c ≠ 13 ∧ c ≠ 32 := by
  decide

/-- The text of a proper hash is a proper value, and is parsed back. -/
theorem hash_text {h : HashWithEncoding} (hok : HashOk h) :
    ∃ t, h.string = .ok t ∧ ValueOk t ∧ parseAny t none = .ok h := by
  obtain ⟨⟨a, d⟩, e, incl⟩ := h
  obtain ⟨⟨name, hrow⟩, he, hi⟩ := hok
  simp only at hrow he hi
  subst hi
  obtain ⟨⟨t, h1, h2, _⟩, _⟩ := C07_parse_format a name _ d e hrow rfl he
  refine ⟨t, h1, ?_, h2⟩
  rw [format_eq hrow d e he] at h1
  obtain ⟨n1, n2, n3⟩ := algo_names _ hrow
  simp only at n1 n2 n3
  have hb := body_length e d n2
  have hbc : ∀ c ∈ body e d, c ≠ 10 ∧ c ≠ 13 ∧ c ≠ 32 := by
    intro c hc
    refine ⟨?_, ?_, ?_⟩ <;> rintro rfl <;>
      exact body_no e d _ (by decide) (by decide) (by decide) (by decide) hc
  have key : ∀ sep : UInt8, sep = 45 ∨ sep = 58 → ValueOk (name ++ sep :: body e d) := by
    intro sep hsep
    refine valueOk_simple (fun c hc => ?_) (by simp; omega)
    rw [List.mem_append, List.mem_cons] at hc
    rcases hc with hc | rfl | hc
    · exact n3 c hc
    · rcases hsep with rfl | rfl <;> decide
    · exact hbc c hc
  simp only [Res.ok.injEq] at h1
  rw [← h1]
  split
  · exact key 45 (.inl rfl)
  · simp only [if_true]; exact key 58 (.inr rfl)

theorem uint_text {n : Nat} (h : n < 2 ^ 64) : ValueOk (formatUint n) := by
  have hl := formatUint_length (n := n) (k := 20) (by decide) (by omega)
  refine valueOk_simple (fun c hc => ?_) (by omega)
  have := (formatUint_digits n).1 c hc
  refine ⟨?_, ?_, ?_⟩ <;> rintro rfl <;> exact absurd this (by decide)

theorem refsText_eq (refs : List Bytes) : refsText refs = 32 :: join refs [32] := by
  unfold refsText
  split
  · rename_i h; subst h; rfl
  · rename_i h
    induction refs with
    | nil => exact absurd rfl h
    | cons r rs ih =>
      cases rs with
      | nil => simp [join]
      | cons r' rs => rw [List.flatMap_cons, ih (by simp)]; simp [join]

theorem join_noSep {refs : List Bytes} (h : ∀ r ∈ refs, (32 : UInt8) ∉ r ∧ r.getLast? ≠ some 58) (a b : Bytes) :
    join refs [32] ≠ a ++ b!": " ++ b := by
  rw [List.append_assoc]
  induction refs generalizing a with
  | nil => simp [join]
  | cons r rs ih =>
    obtain ⟨h1, h2⟩ := List.forall_mem_cons.1 h
    have hone : ∀ x c d : Bytes, (32 : UInt8) ∉ x → x ≠ c ++ (b!": " ++ d) := by
      rintro x c d hx rfl; exact hx (by simp)
    cases rs with
    | nil => exact hone r a b h1.1
    | cons r' rs =>
      rw [join_cons (by simp)]
      intro he
      rw [List.append_assoc] at he
      rcases List.append_eq_append_iff.1 he with ⟨c, e1, e2⟩ | ⟨c, e1, e2⟩
      · cases c with
        | nil => simp at e2
        | cons x c =>
          simp only [List.cons_append, List.nil_append, List.cons.injEq] at e2
          exact ih h2 c e2.2
      · cases c with
        | nil => simp at e2
        | cons x c =>
          simp only [List.cons_append, List.nil_append, List.cons.injEq] at e2
          cases c with
          | nil => apply h1.2; rw [e1, ← e2.1]; simp
          | cons y c =>
            simp only [List.cons_append, List.cons.injEq] at e2
            apply h1.1
            rw [e1, ← e2.2.1]; simp

theorem join_getLast {refs : List Bytes} (h : ∀ r ∈ refs, r ≠ [] ∧ r.getLast? ≠ some 13) :
    (join refs [32]).getLast? ≠ some 13 ∧ (refs ≠ [] → join refs [32] ≠ []) := by
  induction refs with
  | nil => simp [join]
  | cons r rs ih =>
    obtain ⟨h1, h2⟩ := List.forall_mem_cons.1 h
    cases rs with
    | nil => exact ⟨h1.2, fun _ => h1.1⟩
    | cons r' rs =>
      obtain ⟨i1, i2⟩ := ih h2
      rw [join_cons (by simp)]
      refine ⟨?_, fun _ => by simp⟩
      rw [getLast?_app (i2 (by simp))]
      exact i1

theorem join_length (refs : List Bytes) : (join refs [32]).length ≤ (refs.map fun r => r.length + 1).sum := by
  induction refs with
  | nil => simp [join]
  | cons r rs ih =>
    cases rs with
    | nil => simp [join]
    | cons r' rs => rw [join_cons (by simp), List.map_cons, List.sum_cons]; simp at ih ⊢; omega

theorem refs_text {n : NarInfo} (hw : WellFormed n) : ValueOk (join n.references [32]) := by
  obtain ⟨h1, h2⟩ := hw.references
  refine ⟨fun hc => ?_, (join_getLast fun r hr => ⟨(h1 r hr).1, (h1 r hr).2.2.2.2⟩).1,
    join_noSep fun r hr => ⟨(h1 r hr).2.1, (h1 r hr).2.2.2.1⟩,
    Nat.lt_of_le_of_lt (join_length _) h2⟩
  rcases mem_join hc with h | ⟨r, hr, h⟩
  · exact absurd h (by decide)
  · exact (h1 r hr).2.2.1 h

theorem setField_refs {n : NarInfo} (hw : WellFormed n) (m : NarInfo) (hm : m.references = []) :
    setField m b!"References" (join n.references [32]) = .ok { m with references := n.references } := by
  obtain ⟨h1, h2⟩ := hw.references
  unfold setField
  repeat rw [if_neg (by decide)]
  rw [if_pos rfl]
  by_cases hr : n.references = []
  · rw [hr]
    simp only [join, reduceIte]
    rw [← hm]
  · have hne := (join_getLast fun r hr => ⟨(h1 r hr).1, (h1 r hr).2.2.2.2⟩).2 hr
    rw [if_neg hne, hm, splitByte_join hr fun r hr => (h1 r hr).2.1]
    rfl

theorem sig_text {s : Named} (h : s.name ≠ [] ∧ (58 : UInt8) ∉ s.name ∧ (10 : UInt8) ∉ s.name ∧
    s.name.length < 1047000 ∧ s.data.length = 64) : ValueOk (encode s) ∧ parseSignature (encode s) = .ok s := by
  obtain ⟨h1, h2, h3, h4, h5⟩ := h
  refine ⟨?_, ((C53_roundtrip s h1 h2).1 h5).1⟩
  have hb : ∀ c ∈ b64Encode s.data, c ≠ 10 ∧ c ≠ 13 ∧ c ≠ 32 := by
    intro c hc
    refine ⟨?_, ?_, ?_⟩ <;> rintro rfl <;> exact b64Encode_no _ _ (by decide) (by decide) hc
  have hne : b64Encode s.data ≠ [] := b64Encode_ne_nil (by rintro h; rw [h] at h5; simp at h5)
  have hl : (b64Encode s.data).length = 88 := by rw [b64Encode_length, h5]; rfl
  unfold encode
  refine ⟨?_, ?_, ?_, by simp; omega⟩
  · simp only [List.mem_append, not_or]
    exact ⟨⟨h3, by decide⟩, fun hc => (hb _ hc).1 rfl⟩
  · rw [getLast?_app hne]
    intro hc
    exact (hb 13 (List.mem_of_getLast? hc)).2.1 rfl
  · intro a b hab
    rw [List.append_assoc, List.append_assoc] at hab
    rcases List.append_eq_append_iff.1 hab with ⟨c, e1, e2⟩ | ⟨c, e1, e2⟩
    · have h32 : (32 : UInt8) ∈ b!":" ++ b64Encode s.data := by rw [e2]; simp
      rw [List.mem_append] at h32
      rcases h32 with h | h
      · exact absurd h (by decide)
      · exact (hb _ h).2.2 rfl
    · cases c with
      | nil =>
        simp only [List.nil_append, List.cons_append, List.cons.injEq, true_and] at e2
        exact (hb 32 (by rw [← e2]; simp)).2.2 rfl
      | cons x c =>
        simp only [List.cons_append, List.nil_append, List.cons.injEq] at e2
        apply h2; rw [e1, ← e2.1]; simp

theorem run_sigs (sigs : List Named) (m : NarInfo) (rest : Bytes)
    (h : ∀ s ∈ sigs, s.name ≠ [] ∧ (58 : UInt8) ∉ s.name ∧ (10 : UInt8) ∉ s.name ∧
    s.name.length < 1047000 ∧ s.data.length = 64) :
    parseLines m (splitByte ((sigs.flatMap fun s => b!"Sig: " ++ encode s ++ b!"\n") ++ rest) 10) =
      parseLines { m with signatures := m.signatures ++ sigs } (splitByte rest 10) := by
  induction sigs generalizing m with
  | nil => simp
  | cons s sigs ih =>
    obtain ⟨h1, h2⟩ := List.forall_mem_cons.1 h
    obtain ⟨v, p⟩ := sig_text h1
    rw [List.flatMap_cons, List.append_assoc, List.append_assoc, List.append_assoc,
      run_line (pre := b!"Sig: ") (k := b!"Sig") m rfl (by decide) v]
    have : setField m b!"Sig" (encode s) = .ok { m with signatures := m.signatures ++ [s] } := by
      unfold setField
      simp [p]
    rw [this, Res.bind_ok, ih _ h2]
    simp

theorem run_opt {pre k v rest : Bytes} (m : NarInfo) (f : Bytes → NarInfo) (hpre : pre = k ++ b!": ")
    (hk : (58 : UInt8) ∉ k ∧ (10 : UInt8) ∉ k ∧ k.length < 20) (hv : ValueOk v)
    (hf : v ≠ [] → setField m k v = .ok (f v)) (h0 : f [] = m) :
    parseLines m (splitByte (optLine pre v ++ rest) 10) = parseLines (f v) (splitByte rest 10) := by
  unfold optLine
  split
  · rename_i h; subst h; rw [h0]; rfl
  · rename_i h
    rw [List.append_assoc, List.append_assoc, run_line m hpre hk hv, hf h]
    rfl

/-- C49: what `String` prints for a well-formed `NarInfo` is parsed back to it. -/
theorem C49_roundtrip (n : NarInfo) (hw : WellFormed n) :
    ∃ text, n.string = .ok text ∧ parse ⟨text, .eof⟩ = .ok n := by
  obtain ⟨nh, hnh, hnok⟩ := hw.narHash
  obtain ⟨nt, hnt, hnv, hnp⟩ := hash_text hnok
  have hfile : ∃ ft, fileLines n = .ok ft ∧ ∀ (m : NarInfo) rest, m.fileHash = none → m.fileSize = 0 →
      parseLines m (splitByte (ft ++ rest) 10) =
        parseLines { m with fileHash := n.fileHash, fileSize := n.fileSize } (splitByte rest 10) := by
    rcases hw.file with ⟨h1, h2⟩ | ⟨h, h1, h2, h3, h4⟩
    · refine ⟨[], by unfold fileLines; rw [h1], fun m rest e1 e2 => ?_⟩
      rw [h1, h2, ← e1, ← e2]; rfl
    · obtain ⟨t, a, b, c⟩ := hash_text h2
      refine ⟨_, by unfold fileLines; rw [h1]; simp only []; rw [if_pos (by omega), a]; rfl, fun m rest e1 e2 => ?_⟩
      simp only [List.append_assoc]
      rw [run_line (pre := b!"FileHash: ") (k := b!"FileHash") m rfl (by decide) b]
      have s1 : setField m b!"FileHash" t = .ok { m with fileHash := some h } := by
        unfold setField; simp [c]
      rw [s1, Res.bind_ok, run_line (pre := b!"FileSize: ") (k := b!"FileSize") _ rfl (by decide) (uint_text h4)]
      have s2 : ∀ m : NarInfo, setField m b!"FileSize" (formatUint n.fileSize) =
          .ok { m with fileSize := n.fileSize } := by
        intro m; unfold setField; simp [parseUint_formatUint h4]
      rw [s2, Res.bind_ok, h1]
  obtain ⟨ft, hft, hfr⟩ := hfile
  refine ⟨_, by unfold NarInfo.string; rw [hft, hnh]; unfold hashString; simp only [Res.bind_ok, hnt]; rfl, ?_⟩
  have hp : parseLines empty (splitByte (b!"StorePath: " ++ n.storePath ++ b!"\n" ++
    b!"URL: " ++ n.url ++ b!"\n" ++ b!"Compression: " ++ n.compression ++ b!"\n" ++ ft ++
    b!"NarHash: " ++ nt ++ b!"\n" ++ b!"NarSize: " ++ formatUint n.narSize ++ b!"\n" ++
    b!"References:" ++ refsText n.references ++ b!"\n" ++ optLine b!"Deriver: " n.deriver ++
    optLine b!"System: " n.system ++
    (n.signatures.flatMap fun s => b!"Sig: " ++ encode s ++ b!"\n") ++
    optLine b!"CA: " n.ca) 10) = .ok n := by
    have s1 : ∀ (m : NarInfo) v, setField m b!"StorePath" v = .ok { m with storePath := v } := by
      intro m v; unfold setField; simp
    have s2 : ∀ (m : NarInfo) v, setField m b!"URL" v = .ok { m with url := v } := by
      intro m v; unfold setField; simp
    have s3 : ∀ (m : NarInfo) v, setField m b!"Compression" v = .ok { m with compression := v } := by
      intro m v; unfold setField; simp
    have s4 : ∀ (m : NarInfo), setField m b!"NarHash" nt = .ok { m with narHash := n.narHash } := by
      intro m; unfold setField; simp [hnp, hnh]
    have s5 : ∀ (m : NarInfo), setField m b!"NarSize" (formatUint n.narSize) =
        .ok { m with narSize := n.narSize } := by
      intro m; unfold setField; simp [parseUint_formatUint hw.narSize]
    have s6 : ∀ (m : NarInfo), setField m b!"Deriver" n.deriver = .ok { m with deriver := n.deriver } := by
      intro m; unfold setField; simp [hw.deriver.2]
    have s7 : ∀ (m : NarInfo) v, setField m b!"System" v = .ok { m with system := v } := by
      intro m v; unfold setField; simp
    have s8 : ∀ (m : NarInfo) v, setField m b!"CA" v = .ok { m with ca := v } := by
      intro m v; unfold setField; simp
    have er : b!"References:" ++ refsText n.references = b!"References: " ++ join n.references [32] := by
      rw [refsText_eq]; rfl
    simp only [List.append_assoc]
    rw [← List.append_assoc b!"References:", er, List.append_assoc b!"References: "]
    rw [run_line (pre := b!"StorePath: ") (k := b!"StorePath") _ rfl (by decide) hw.storePath, s1, Res.bind_ok]
    rw [run_line (pre := b!"URL: ") (k := b!"URL") _ rfl (by decide) hw.url, s2, Res.bind_ok]
    rw [run_line (pre := b!"Compression: ") (k := b!"Compression") _ rfl (by decide) hw.compression.1, s3, Res.bind_ok]
    rw [hfr _ _ rfl rfl]
    rw [run_line (pre := b!"NarHash: ") (k := b!"NarHash") _ rfl (by decide) hnv, s4, Res.bind_ok]
    rw [run_line (pre := b!"NarSize: ") (k := b!"NarSize") _ rfl (by decide) (uint_text hw.narSize), s5, Res.bind_ok]
    rw [run_line (pre := b!"References: ") (k := b!"References") _ rfl (by decide) (refs_text hw), setField_refs hw _ rfl, Res.bind_ok]
    simp only [empty]
    rw [run_opt (pre := b!"Deriver: ") (k := b!"Deriver") _ (fun v => ⟨n.storePath, n.url, n.compression, n.fileHash, n.fileSize, n.narHash, n.narSize, n.references,
      v, [], [], []⟩) rfl (by decide) hw.deriver.1 (fun _ => s6 _) rfl]
    rw [run_opt (pre := b!"System: ") (k := b!"System") _ (fun v => ⟨n.storePath, n.url, n.compression, n.fileHash, n.fileSize, n.narHash, n.narSize, n.references,
      n.deriver, v, [], []⟩) rfl (by decide) hw.system (fun _ => s7 _ _) rfl]
    have rs := fun m rest => run_sigs n.signatures m rest hw.signatures
    simp only [List.append_assoc] at rs
    rw [rs]
    simp only [List.nil_append]
    rw [← List.append_nil (optLine b!"CA: " n.ca)]
    rw [run_opt (pre := b!"CA: ") (k := b!"CA")
      ⟨n.storePath, n.url, n.compression, n.fileHash, n.fileSize, n.narHash, n.narSize, n.references, n.deriver, n.system, n.signatures, []⟩ (fun v => ⟨n.storePath, n.url, n.compression, n.fileHash, n.fileSize, n.narHash, n.narSize, n.references,
      n.deriver, n.system, n.signatures, v⟩) rfl (by decide) hw.ca (fun _ => s8 _ _) rfl]
    have e : splitByte [] 10 = [[]] := rfl
    have e' : ∀ m, parseLine m [] = .ok m := fun m => rfl
    rw [e, parseLines_cons, e', Res.bind_ok]
    rfl
  unfold parse
  rw [hp]
  simp [hw.compression.2]

/-- A well-formed value: two references, two signatures, both hashes. -/
def sampleInfo : NarInfo :=
  ⟨b!"/nix/store/00bgd045z0d4icpbc2yyz4gx48ak44la-net-tools-1.60", b!"nar/x.nar.xz", b!"xz",
    some ⟨⟨SHA256, List.replicate 32 7⟩, NixBase32, true⟩, 114980,
    some ⟨⟨SHA256, List.replicate 32 9⟩, SRI, true⟩, 464152,
    [b!"7gx4kiv5m0i7d7qkixq2cwzbr10lvxwc-glibc-2.27", b!"a"], b!"d.drv", [],
    [⟨b!"cache.nixos.org-1", List.replicate 64 1⟩, ⟨b!"k", List.replicate 64 2⟩], b!"fixed:x"⟩

example : ∃ t, sampleInfo.string = .ok t ∧ parse ⟨t, .eof⟩ = .ok sampleInfo := by
  refine ⟨(match sampleInfo.string with | .ok t => t | _ => []), by decide +kernel, by decide +kernel⟩

theorem noSep_of {v : Bytes} (h : contains v b!": " = false) (a b : Bytes) : v ≠ a ++ b!": " ++ b := by
  intro he
  rw [contains_iff.2 ⟨a, b, he⟩] at h
  simp at h

example : WellFormed sampleInfo := by
  have v : ∀ x : Bytes, (10 : UInt8) ∉ x → x.getLast? ≠ some 13 → contains x b!": " = false →
      x.length < 1048000 → ValueOk x := fun x a b c d => ⟨a, b, noSep_of c, d⟩
  constructor
  · exact v _ (by decide) (by decide) (by decide) (by decide)
  · exact v _ (by decide) (by decide) (by decide) (by decide)
  · exact ⟨v _ (by decide) (by decide) (by decide) (by decide), by decide⟩
  · exact .inr ⟨_, rfl, ⟨⟨b!"sha256", by decide⟩, by decide, rfl⟩, by decide, by decide⟩
  · exact ⟨_, rfl, ⟨b!"sha256", by decide⟩, by decide, rfl⟩
  · decide
  · decide
  · exact ⟨v _ (by decide) (by decide) (by decide) (by decide), by decide⟩
  · exact v _ (by decide) (by decide) (by decide) (by decide)
  · decide
  · exact v _ (by decide) (by decide) (by decide) (by decide)

/-- The restrictions of `WellFormed` are needed: examples of values that do not survive. -/
example : (∃ t, ({ sampleInfo with fileSize := 0 } : NarInfo).string = .ok t ∧
      parse ⟨t, .eof⟩ = .ok { sampleInfo with fileSize := 0, fileHash := none }) ∧
    (∃ t, ({ sampleInfo with compression := [] } : NarInfo).string = .ok t ∧
      parse ⟨t, .eof⟩ = .ok { sampleInfo with compression := b!"bzip2" }) :=
  ⟨⟨(match ({ sampleInfo with fileSize := 0 } : NarInfo).string with | .ok t => t | _ => []),
      by decide +kernel, by decide +kernel⟩,
    ⟨(match ({ sampleInfo with compression := [] } : NarInfo).string with | .ok t => t | _ => []),
      by decide +kernel, by decide +kernel⟩⟩

/-! ### C51 -/

theorem split_at {c : UInt8} {x y r r' : Bytes} (hx : c ∉ x) (hy : c ∉ y)
    (h : x ++ c :: r = y ++ c :: r') : x = y ∧ r = r' := by
  have e1 := splitByte_append (s := r) hx
  rw [h, splitByte_append hy] at e1
  have hxy : y = x := (List.cons.inj e1).1
  subst hxy
  exact ⟨rfl, by simpa using h⟩

theorem flatMap_dropLast (f : Bytes) (refs : List Bytes) (h : refs ≠ []) :
    (f ++ refs.flatMap fun r => Storepath.storeDir ++ b!"/" ++ r ++ b!",").dropLast =
      f ++ join (refs.map fun r => b!"/nix/store/" ++ r) b!"," := by
  induction refs generalizing f with
  | nil => exact absurd rfl h
  | cons r rs ih =>
    cases rs with
    | nil =>
      simp only [List.flatMap_cons, List.flatMap_nil, List.append_nil, List.map_cons, List.map_nil, join]
      rw [← List.append_assoc, ← List.append_assoc, List.dropLast_concat]
      rw [List.append_assoc]
      rfl
    | cons r' rs =>
      rw [List.flatMap_cons, ← List.append_assoc, ih _ (by simp)]
      have hj : join ((r :: r' :: rs).map fun r => b!"/nix/store/" ++ r) b!"," =
          (b!"/nix/store/" ++ r) ++ b!"," ++ join ((r' :: rs).map fun r => b!"/nix/store/" ++ r) b!"," := rfl
      rw [hj]
      generalize join ((r' :: rs).map fun r => b!"/nix/store/" ++ r) b!"," = X
      simp [Storepath.storeDir]

/-- The fingerprint is `1;<StorePath>;<NarHash>;<NarSize>;<references>`. -/
theorem fingerprint_eq {n : NarInfo} {h : HashWithEncoding} {name : Bytes} {k : Nat}
    (hn : n.narHash = some h) (hrow : (h.hash.algo, name, k) ∈ hashAlgos) :
    n.fingerprint = .ok (b!"1;" ++ (n.storePath ++ 59 :: ((name ++ 58 :: Nixbase32.encodeToString h.hash.digest) ++
      59 :: (formatUint n.narSize ++ 59 :: join (n.references.map fun r => b!"/nix/store/" ++ r) b!",")))) := by
  unfold NarInfo.fingerprint
  rw [hn]
  obtain ⟨⟨a, d⟩, e, i⟩ := h
  have he : NixBase32 ∈ hashEncodings := by decide
  simp only
  rw [format_eq hrow d NixBase32 he true]
  have e1 : ¬ NixBase32 = SRI := by decide
  have e2 : body NixBase32 d = Nixbase32.encodeToString d := by
    unfold body; rw [if_neg (by decide), if_pos rfl]
  rw [if_neg e1, if_pos rfl, e2, Res.bind_ok]
  by_cases hr : n.references = []
  · rw [if_pos hr, hr]; simp [join]
  · rw [if_neg hr, flatMap_dropLast _ _ hr]; simp

/-- C51 is false as stated: references with `/../` pass `Check` and may contain commas, so that two
different lists of references have the same fingerprint. -/
theorem C51_refuted :
    ∃ n1 n2 : NarInfo, n1.check = .ok () ∧ n2.check = .ok () ∧ n1.fingerprint = n2.fingerprint ∧
      (∃ f, n1.fingerprint = .ok f) ∧ n1.references ≠ n2.references :=
  ⟨{ sampleInfo with deriver := [], references := [sampleHash ++ b!"-x,/nix/store/" ++ sampleHash ++ b!"-y/../../../../../../nix/store/" ++
      sampleHash ++ b!"-z"] },
    { sampleInfo with deriver := [], references := [sampleHash ++ b!"-x", sampleHash ++ b!"-y/../../../../../../nix/store/" ++
      sampleHash ++ b!"-z"] }, by decide +kernel, by decide +kernel, by decide +kernel,
    ⟨(match sampleInfo.fingerprint with | .ok _ => (match ({ sampleInfo with deriver := [], references := [sampleHash ++ b!"-x", sampleHash ++ b!"-y/../../../../../../nix/store/" ++
      sampleHash ++ b!"-z"] } : NarInfo).fingerprint with | .ok t => t | _ => []) | _ => []), by decide +kernel⟩, by decide +kernel⟩

theorem algo_names_unique : ∀ r ∈ hashAlgos, ∀ r' ∈ hashAlgos, r.2.1 = r'.2.1 → r = r' := by decide

theorem algo_name_chars : ∀ r ∈ hashAlgos, (58 : UInt8) ∉ r.2.1 ∧ (59 : UInt8) ∉ r.2.1 := by decide

/-- C51, what holds: if the store paths have no semicolon and the references no comma (as in every
strictly well-formed store path), equal fingerprints mean equal store path, NAR hash, NAR size and
references. Missing: `Check` does not exclude the other cases. -/
theorem C51_injective_partial (n1 n2 : NarInfo) (h1 h2 : HashWithEncoding) (a1 a2 : Bytes) (k1 k2 : Nat)
    (hh1 : n1.narHash = some h1) (hh2 : n2.narHash = some h2)
    (hr1 : (h1.hash.algo, a1, k1) ∈ hashAlgos) (hr2 : (h2.hash.algo, a2, k2) ∈ hashAlgos)
    (hs1 : (59 : UInt8) ∉ n1.storePath) (hs2 : (59 : UInt8) ∉ n2.storePath)
    (hc1 : ∀ r ∈ n1.references, (44 : UInt8) ∉ r) (hc2 : ∀ r ∈ n2.references, (44 : UInt8) ∉ r)
    (hf : n1.fingerprint = n2.fingerprint) :
    (∃ f, n1.fingerprint = .ok f) ∧
    n1.storePath = n2.storePath ∧ h1.hash = h2.hash ∧ n1.narSize = n2.narSize ∧
      n1.references = n2.references := by
  refine ⟨⟨_, fingerprint_eq hh1 hr1⟩, ?_⟩
  rw [fingerprint_eq hh1 hr1, fingerprint_eq hh2 hr2] at hf
  simp only [Res.ok.injEq] at hf
  have hf := List.append_cancel_left hf
  obtain ⟨e1, hf⟩ := split_at hs1 hs2 hf
  have hno : ∀ (h : HashWithEncoding) (a : Bytes) (k : Nat), (h.hash.algo, a, k) ∈ hashAlgos →
      (59 : UInt8) ∉ a ++ 58 :: Nixbase32.encodeToString h.hash.digest := by
    intro h a k hr
    simp only [List.mem_append, List.mem_cons, not_or]
    exact ⟨(algo_name_chars _ hr).2, by decide, encodeToString_no _ _ (by decide)⟩
  obtain ⟨e2, hf⟩ := split_at (hno h1 a1 k1 hr1) (hno h2 a2 k2 hr2) hf
  have hnd : ∀ m, (59 : UInt8) ∉ formatUint m := fun m hm => absurd ((formatUint_digits m).1 _ hm) (by decide)
  obtain ⟨e3, hf⟩ := split_at (hnd _) (hnd _) hf
  obtain ⟨e4, e5⟩ := split_at (algo_name_chars _ hr1).1 (algo_name_chars _ hr2).1 e2
  have hrow := algo_names_unique _ hr1 _ hr2 e4
  have halgo : h1.hash.algo = h2.hash.algo := congrArg Prod.fst hrow
  have hdig := C02_encode_injective _ _ e5
  refine ⟨e1, ?_, ?_, ?_⟩
  · cases hx : h1.hash; cases hy : h2.hash; simp_all
  · have := congrArg (digitsValue 0) e3
    rwa [(formatUint_digits _).2.2, (formatUint_digits _).2.2] at this
  · have hj : ∀ refs : List Bytes, refs ≠ [] → (∀ r ∈ refs, (44 : UInt8) ∉ r) →
        splitByte (join (refs.map fun r => b!"/nix/store/" ++ r) b!",") 44 =
          refs.map fun r => b!"/nix/store/" ++ r := by
      intro refs hne hc
      apply splitByte_join (by simpa using hne)
      intro x hx
      rw [List.mem_map] at hx
      obtain ⟨r, hr, rfl⟩ := hx
      rw [List.mem_append, not_or]
      exact ⟨by decide, hc r hr⟩
    have hne : ∀ refs : List Bytes, refs ≠ [] →
        join (refs.map fun r => b!"/nix/store/" ++ r) b!"," ≠ [] := by
      intro refs hne
      cases refs with
      | nil => exact absurd rfl hne
      | cons r rs => cases rs <;> simp [join]
    by_cases z1 : n1.references = [] <;> by_cases z2 : n2.references = []
    · rw [z1, z2]
    · rw [z1] at hf; exact absurd hf.symm (hne _ z2)
    · rw [z2] at hf; exact absurd hf (hne _ z1)
    · have := hj _ z1 hc1
      rw [hf, hj _ z2 hc2] at this
      exact ((List.map_inj_right (by intro a b hab; exact List.append_cancel_left hab)).1 this).symm

/-- The hypotheses hold for strictly well-formed paths. -/
theorem C51_strict_partial (n : NarInfo) (hs : Storepath.IsStorePath n.storePath)
    (hr : ∀ r ∈ n.references, Storepath.IsStorePath (b!"/nix/store/" ++ r)) :
    (59 : UInt8) ∉ n.storePath ∧ ∀ r ∈ n.references, (44 : UInt8) ∉ r := by
  have key : ∀ (s : Bytes) (c : UInt8), Storepath.IsStorePath s → c = 59 ∨ c = 44 → c ∉ s := by
    rintro s c ⟨h, n, rfl, hh, _, hn⟩ hc hm
    simp only [List.mem_append] at hm
    rcases hm with ((hm | hm) | hm) | hm
    · rcases hc with rfl | rfl <;> exact absurd hm (by decide)
    · have := hh.2 c hm
      rcases hc with rfl | rfl <;> exact absurd this (by decide)
    · rcases hc with rfl | rfl <;> exact absurd hm (by decide)
    · have := hn c hm
      rcases hc with rfl | rfl <;> exact absurd this (by decide)
  exact ⟨key _ _ hs (.inl rfl), fun r h hc => key _ _ (hr r h) (.inr rfl) (by simp [hc])⟩

example : (59 : UInt8) ∉ sampleInfo.storePath ∧ ∀ r ∈ sampleInfo.references, (44 : UInt8) ∉ r := by decide

/-! ### C52 -/

theorem checkRefs_iff (refs : List Bytes) :
    (checkRefs refs = .ok () ↔ ∀ r ∈ refs, ∃ p, Storepath.fromString r = .ok p) ∧ checkRefs refs ≠ .panic := by
  induction refs with
  | nil => simp [checkRefs]
  | cons r rs ih =>
    unfold checkRefs
    rw [List.forall_mem_cons]
    cases h : Storepath.fromString r with
    | ok p => simpa using ih
    | err e => simp
    | panic => exact absurd h (C44_no_panic r).2.1

theorem checkDeriver_iff (d : Bytes) :
    (checkDeriver d = .ok () ↔ d = [] ∨ ∃ p, Storepath.fromString d = .ok p) ∧ checkDeriver d ≠ .panic := by
  unfold checkDeriver
  by_cases hd : d = []
  · simp [hd]
  rw [if_neg hd]
  cases h : Storepath.fromString d with
  | ok p => simp
  | err e => simp [hd]
  | panic => exact absurd h (C44_no_panic d).2.1

theorem checkHashes_iff (f h : HashWithEncoding) :
    checkHashes f h = .ok () ↔ f.hash = h.hash := by
  obtain ⟨⟨a, d⟩, e, i⟩ := f
  obtain ⟨⟨a', d'⟩, e', i'⟩ := h
  unfold checkHashes
  by_cases ha : a = a'
  · by_cases hd : d = d' <;> simp [ha, hd]
  · simp only [ne_eq, ha, not_false_eq_true, if_true, Hash.mk.injEq, false_and, iff_false]
    intro h
    rw [Res.bind_eq_ok] at h
    obtain ⟨_, _, h⟩ := h
    rw [Res.bind_eq_ok] at h
    obtain ⟨_, _, h⟩ := h
    simp at h

/-- C52: `Check` succeeds exactly when the store path, all references and the deriver (if any) are
acceptable store paths and, without compression, the file size (if any) is the NAR size and the file
hash (if both are present) is the NAR hash; it never panics for the four algorithms. -/
theorem C52_check_iff (n : NarInfo) :
    (n.check = .ok () ↔
      (∃ p, Storepath.fromAbsolutePath n.storePath = .ok p) ∧
      (∀ r ∈ n.references, ∃ p, Storepath.fromString r = .ok p) ∧
      (n.deriver = [] ∨ ∃ p, Storepath.fromString n.deriver = .ok p) ∧
      (n.compression = b!"none" → (n.fileSize = 0 ∨ n.fileSize = n.narSize) ∧
        ∀ f h, n.fileHash = some f → n.narHash = some h → f.hash = h.hash)) ∧
    ((∀ h, n.fileHash = some h ∨ n.narHash = some h → ∃ a k, (h.hash.algo, a, k) ∈ hashAlgos) →
      n.check ≠ .panic) := by
  unfold NarInfo.check
  cases hs : Storepath.fromAbsolutePath n.storePath with
  | err e => simp
  | panic => exact absurd hs (C44_no_panic _).2.2.1
  | ok p =>
    obtain ⟨r1, r2⟩ := checkRefs_iff n.references
    obtain ⟨d1, d2⟩ := checkDeriver_iff n.deriver
    simp only
    constructor
    · constructor
      · intro h
        rw [Res.bind_eq_ok] at h
        obtain ⟨⟨⟩, e1, h⟩ := h
        rw [Res.bind_eq_ok] at h
        obtain ⟨⟨⟩, e2, h⟩ := h
        refine ⟨⟨p, rfl⟩, r1.1 e1, d1.1 e2, fun hc => ?_⟩
        rw [if_neg (by simp [hc])] at h
        split at h
        · simp at h
        rename_i hsz
        refine ⟨by omega, fun f g hf hg => ?_⟩
        rw [hf, hg] at h
        exact (checkHashes_iff f g).1 h
      · rintro ⟨_, e1, e2, e3⟩
        rw [r1.2 e1, d1.2 e2]
        simp only [Res.bind_ok]
        by_cases hc : n.compression = b!"none"
        · obtain ⟨e4, e5⟩ := e3 hc
          rw [if_neg (by simp [hc]), if_neg (by omega)]
          cases hf : n.fileHash with
          | none => rfl
          | some f =>
            cases hg : n.narHash with
            | none => rfl
            | some g => exact (checkHashes_iff f g).2 (e5 f g hf hg)
        · rw [if_pos hc]
    · intro ha
      refine bind_ne_panic r2 fun _ _ => bind_ne_panic d2 fun _ _ => ?_
      refine ite_ne_panic (by simp) (ite_ne_panic (by simp) ?_)
      cases hf : n.fileHash with
      | none => simp
      | some f =>
        cases hg : n.narHash with
        | none => simp
        | some g =>
          obtain ⟨a, k, hr⟩ := ha f (.inl hf)
          obtain ⟨a', k', hr'⟩ := ha g (.inr hg)
          simp only
          unfold checkHashes
          rw [(row_of_mem hr).str, (row_of_mem hr').str]
          exact ite_ne_panic (by simp) (ite_ne_panic (by simp) (by simp))

/-- C52, after parsing: the condition on the algorithms always holds. -/
theorem C52_parsed_no_panic (s : Stream) (n : NarInfo) (h : parse s = .ok n) : n.check ≠ .panic := by
  obtain ⟨_, _, _, c4, _, c6, _⟩ := C50_result s n h
  refine (C52_check_iff n).2 fun x hx => ?_
  have key : ∀ v, parseAny v none = .ok x → ∃ a k, (x.hash.algo, a, k) ∈ hashAlgos := by
    intro v hv
    obtain ⟨name, k, hrow, _⟩ := parseAny_ok hv
    exact ⟨name, k, hrow⟩
  rcases hx with hx | hx
  · obtain ⟨v, _, hv⟩ := (c4 x).1 hx; exact key v hv
  · obtain ⟨v, _, hv⟩ := (c6 x).1 hx; exact key v hv

example : sampleInfo.check ≠ .ok () ∧
    ({ sampleInfo with references := [], deriver := [] } : NarInfo).check = .ok () := by decide +kernel

end Verif.Props
