import Verif.Spec.NarinfoAgain
import Verif.Props.Narinfo
import Verif.Props.HashText

/-!
# Lemmas for printing a parsed `.narinfo` and parsing it again
-/

namespace Verif.Props
open Verif Verif.Narinfo Verif.Nixhash Verif.GoLib Verif.Signature Verif.Spec Verif.Wire

/-- A value that came from a line with a key of length `k`. -/
structure FromLine (k : Nat) (v : Bytes) : Prop where
  noLF : (10 : UInt8) ∉ v
  noSep : ∀ a b, v ≠ a ++ b!": " ++ b
  short : k + 2 + v.length < 1048576

theorem dropCR_prefix (v : Bytes) : ∃ t, v = dropCR v ++ t := by
  unfold dropCR
  split
  · rename_i h
    obtain ⟨ys, rfl⟩ := List.getLast?_eq_some_iff.1 h
    exact ⟨[13], by simp⟩
  · exact ⟨[], by simp⟩

theorem dropCR_eq_self (v : Bytes) : dropCR v = v ↔ NoCR v := by
  unfold dropCR NoCR
  split
  · rename_i h
    simp only [h, ne_eq, not_true_eq_false, iff_false]
    intro e
    have := congrArg List.length e
    have hv : v ≠ [] := by rintro rfl; simp at h
    have := List.length_pos_iff.2 hv
    simp at *
    omega
  · rename_i h; simp [h]

theorem dropCR_length (v : Bytes) : (dropCR v).length ≤ v.length := by
  obtain ⟨t, h⟩ := dropCR_prefix v
  have := congrArg List.length h
  simp at this; omega

theorem dropCR_line (k v : Bytes) : dropCR (k ++ b!": " ++ v) = k ++ b!": " ++ dropCR v := by
  cases v with
  | nil => simp [dropCR, List.getLast?_append]
  | cons x t =>
    unfold dropCR
    rw [getLast?_app (by simp)]
    split
    · rw [List.dropLast_append_of_ne_nil (by simp)]
    · rfl

theorem noSep_dropCR {v : Bytes} (h : ∀ a b, v ≠ a ++ b!": " ++ b) (a b : Bytes) :
    dropCR v ≠ a ++ b!": " ++ b := by
  obtain ⟨t, ht⟩ := dropCR_prefix v
  intro e
  rw [e] at ht
  exact h a (b ++ t) (by rw [ht]; simp)

/-- One printed line. -/
theorem run_line_cr {pre k v rest : Bytes} (m : NarInfo) (hpre : pre = k ++ b!": ")
    (hk : (58 : UInt8) ∉ k ∧ (10 : UInt8) ∉ k) (hv : FromLine k.length v) :
    parseLines m (splitByte (pre ++ (v ++ (b!"\n" ++ rest))) 10) =
      setField m k (dropCR v) >>= fun m' => parseLines m' (splitByte rest 10) := by
  subst hpre
  have h10 : (10 : UInt8) ∉ k ++ b!": " ++ v := by
    simp only [List.mem_append, not_or]
    exact ⟨⟨hk.2, by decide⟩, hv.noLF⟩
  have e : k ++ b!": " ++ (v ++ (b!"\n" ++ rest)) = (k ++ b!": " ++ v) ++ 10 :: rest := by simp
  rw [e, splitByte_append h10, parseLines_cons]
  have hlen : ¬ (k ++ b!": " ++ v).length ≥ maxCapacity := by
    have h1 := hv.short
    simp [maxCapacity]; omega
  have hne : k ++ b!": " ++ dropCR v ≠ [] := by simp
  unfold parseLine
  rw [if_neg hlen, dropCR_line, if_neg hne,
    (splitOnce_iff _ _ _).2 (splitsAs_of hk.1 (noSep_dropCR hv.noSep))]
  rfl

theorem run_opt_cr {pre k v rest : Bytes} (m : NarInfo) (f : Bytes → NarInfo) (hpre : pre = k ++ b!": ")
    (hk : (58 : UInt8) ∉ k ∧ (10 : UInt8) ∉ k) (hv : FromLine k.length v)
    (hf : ∀ v, setField m k v = .ok (f v)) (h0 : f [] = m) :
    parseLines m (splitByte (optLine pre v ++ rest) 10) =
      parseLines (f (dropCR v)) (splitByte rest 10) := by
  unfold optLine
  split
  · rename_i h; subst h; rw [show dropCR [] = [] from rfl, h0]; rfl
  · rename_i h
    rw [List.append_assoc, List.append_assoc, run_line_cr m hpre hk hv, hf]
    rfl

theorem fromLine_simple {k : Nat} {v : Bytes} (h : ∀ c ∈ v, c ≠ 10 ∧ c ≠ 13 ∧ c ≠ 32)
    (hl : k + 2 + v.length < 1048576) : FromLine k v ∧ dropCR v = v := by
  refine ⟨⟨fun hc => (h _ hc).1 rfl, fun a b hab => ?_, hl⟩, ?_⟩
  · exact (h 32 (by rw [hab]; simp)).2.2 rfl
  · rw [dropCR_eq_self]
    exact fun hc => (h 13 (List.mem_of_getLast? hc)).2.1 rfl

/-- What `Parse` guarantees of its results. -/
structure Parsed (n : NarInfo) : Prop where
  storePath : FromLine 9 n.storePath
  url : FromLine 3 n.url
  compression : FromLine 11 n.compression
  fileHash : ∀ h, n.fileHash = some h → ∃ v, parseAny v none = .ok h
  fileSize : n.fileSize < 2 ^ 64
  narHash : ∀ h, n.narHash = some h → ∃ v, parseAny v none = .ok h
  narSize : n.narSize < 2 ^ 64
  references : (∀ r ∈ n.references, (32 : UInt8) ∉ r ∧ (10 : UInt8) ∉ r) ∧ n.references ≠ [[]]
  deriver : FromLine 7 n.deriver ∧ n.deriver ≠ b!"unknown-deriver"
  system : FromLine 6 n.system
  signatures : ∀ s ∈ n.signatures, s.name ≠ [] ∧ (58 : UInt8) ∉ s.name ∧ (10 : UInt8) ∉ s.name ∧
    s.name.length + 94 < 1048576 ∧ s.data.length = 64
  ca : FromLine 2 n.ca

theorem fromLine_nil {k : Nat} (h : k < 100) : FromLine k [] :=
  ⟨by simp, by simp, by simp; omega⟩

theorem parsed_empty : Parsed empty := by
  constructor <;> first | exact fromLine_nil (by decide) | exact ⟨fromLine_nil (by decide), by decide⟩ | simp [empty]

theorem base64_length {s d : Bytes} (h : b64Decode s = .ok d) :
    4 * ((d.length + 2) / 3) ≤ s.length := by
  obtain ⟨vs, p, h1, h2, h3, h4, h5, _⟩ := (b64Decode_iff s d).1 h
  have hl := congrArg List.length h3
  have hle := List.length_filter_le (fun c : UInt8 => c != 13 && c != 10) s
  simp only [List.length_append, List.length_map, List.length_replicate] at hl
  omega

theorem mem_of_splitByte {s x : Bytes} {c y : UInt8} (h : x ∈ splitByte s c) (hy : y ∈ x) : y ∈ s := by
  induction s generalizing x with
  | nil => simp [splitByte] at h; subst h; simp at hy
  | cons z s ih =>
    unfold splitByte at h
    split at h
    · rw [List.mem_cons] at h
      rcases h with rfl | h
      · simp at hy
      · exact List.mem_cons_of_mem _ (ih h hy)
    · split at h
      · simp at h; subst h; simp at hy; simp [hy]
      · rename_i x' xs hx
        rw [List.mem_cons] at h
        rcases h with rfl | h
        · rw [List.mem_cons] at hy
          rcases hy with rfl | hy
          · simp
          · exact List.mem_cons_of_mem _ (ih (by rw [hx]; simp) hy)
        · exact List.mem_cons_of_mem _ (ih (by rw [hx]; simp [h]) hy)

theorem splitByte_ne_empty {v : Bytes} (h : v ≠ []) : splitByte v 32 ≠ [[]] := by
  intro e
  have := join_splitByte v 32
  rw [e] at this
  exact h this.symm

theorem parsed_field {n n' : NarInfo} {l k v : Bytes} (h : Parsed n) (h10 : (10 : UInt8) ∉ l)
    (hl : l.length < 1048576) (hs : SplitsAs l k v) (hf : setField n k v = .ok n') : Parsed n' := by
  have hfl : FromLine k.length v := by
    refine ⟨fun hc => h10 (by rw [hs.1]; simp [hc]), fun a b e => ?_, ?_⟩
    · have := hs.2 (k ++ b!": " ++ a) b (by rw [hs.1, e]; simp)
      have := congrArg List.length this
      simp at this
    · have := congrArg List.length hs.1
      simp at this; omega
  unfold setField at hf
  by_cases c : k = b!"StorePath"
  · subst c; simp at hf; subst hf; exact { h with storePath := hfl }
  rw [if_neg c] at hf; clear c
  by_cases c : k = b!"URL"
  · subst c; simp at hf; subst hf; exact { h with url := hfl }
  rw [if_neg c] at hf; clear c
  by_cases c : k = b!"Compression"
  · subst c; simp at hf; subst hf; exact { h with compression := hfl }
  rw [if_neg c] at hf; clear c
  by_cases c : k = b!"FileHash"
  · rw [if_pos c, Res.bind_eq_ok] at hf
    obtain ⟨x, h1, h2⟩ := hf
    simp at h2; subst h2
    exact { h with fileHash := fun y e => ⟨v, by simp at e; rw [← e]; exact h1⟩ }
  rw [if_neg c] at hf; clear c
  by_cases c : k = b!"FileSize"
  · rw [if_pos c, Res.bind_eq_ok] at hf
    obtain ⟨x, h1, h2⟩ := hf
    simp at h2; subst h2
    have hx := ((parseUint_iff _ _).1 h1)
    exact { h with fileSize := by rw [hx.2.2.2]; exact hx.2.2.1 }
  rw [if_neg c] at hf; clear c
  by_cases c : k = b!"NarHash"
  · rw [if_pos c, Res.bind_eq_ok] at hf
    obtain ⟨x, h1, h2⟩ := hf
    simp at h2; subst h2
    exact { h with narHash := fun y e => ⟨v, by simp at e; rw [← e]; exact h1⟩ }
  rw [if_neg c] at hf; clear c
  by_cases c : k = b!"NarSize"
  · rw [if_pos c, Res.bind_eq_ok] at hf
    obtain ⟨x, h1, h2⟩ := hf
    simp at h2; subst h2
    have hx := ((parseUint_iff _ _).1 h1)
    exact { h with narSize := by rw [hx.2.2.2]; exact hx.2.2.1 }
  rw [if_neg c] at hf; clear c
  by_cases c : k = b!"References"
  · rw [if_pos c] at hf
    simp only [Res.ok.injEq] at hf
    subst hf
    split
    · exact h
    · rename_i hv
      refine { h with references := ⟨fun r hr => ?_, ?_⟩ }
      · rcases List.mem_append.1 hr with hr | hr
        · exact h.references.1 r hr
        · exact ⟨splitByte_no_sep _ _ r hr, fun hc => hfl.noLF (mem_of_splitByte hr hc)⟩
      · show n.references ++ splitByte v 32 ≠ [[]]
        intro e
        rcases List.append_eq_cons_iff.1 e with ⟨_, e2⟩ | ⟨t, _, e2⟩
        · exact splitByte_ne_empty hv e2
        · exact splitByte_ne_nil v 32 (List.append_eq_nil_iff.1 e2.symm).2
  rw [if_neg c] at hf; clear c
  by_cases c : k = b!"Deriver"
  · subst c
    rw [if_pos rfl] at hf
    simp only [Res.ok.injEq] at hf
    subst hf
    split
    · rename_i hd; exact { h with deriver := ⟨hfl, hd⟩ }
    · exact h
  rw [if_neg c] at hf; clear c
  by_cases c : k = b!"System"
  · subst c; simp at hf; subst hf; exact { h with system := hfl }
  rw [if_neg c] at hf; clear c
  by_cases c : k = b!"Sig"
  · rw [if_pos c, Res.bind_eq_ok] at hf
    obtain ⟨x, h1, h2⟩ := hf
    simp at h2; subst h2
    refine { h with signatures := fun s hs' => ?_ }
    rcases List.mem_append.1 hs' with hs' | hs'
    · exact h.signatures s hs'
    · simp at hs'; subst hs'
      obtain ⟨t, e1, e2, e3, e4, e5⟩ := ((C53_accepts v s).1).1 h1
      have hb := base64_length e4
      have hv := hfl.short
      rw [c] at hv
      have := congrArg List.length e1
      simp at this hv
      refine ⟨e2, e3, fun hc => hfl.noLF (by rw [e1]; simp [hc]), by omega, e5⟩
  rw [if_neg c] at hf; clear c
  by_cases c : k = b!"CA"
  · subst c; simp at hf; subst hf; exact { h with ca := hfl }
  rw [if_neg c] at hf
  simp at hf

theorem parsed_lines {ls : List Bytes} {n n' : NarInfo} (h : Parsed n) (h10 : ∀ l ∈ ls, (10 : UInt8) ∉ l)
    (hp : parseLines n ls = .ok n') : Parsed n' := by
  induction ls generalizing n with
  | nil => simp [parseLines] at hp; subst hp; exact h
  | cons l ls ih =>
    obtain ⟨g1, g2⟩ := List.forall_mem_cons.1 h10
    unfold parseLines at hp
    rw [Res.bind_eq_ok] at hp
    obtain ⟨m, h1, h2⟩ := hp
    refine ih ?_ g2 h2
    unfold parseLine at h1
    split at h1
    · simp at h1
    rename_i hlen
    split at h1
    · simp at h1; subst h1; exact h
    · rw [Res.bind_eq_ok] at h1
      obtain ⟨⟨k, v⟩, h3, h4⟩ := h1
      have hl := dropCR_length l
      unfold maxCapacity at hlen
      obtain ⟨t, ht⟩ := dropCR_prefix l
      exact parsed_field h (fun hc => g1 (by rw [ht]; simp [hc])) (by omega) ((splitOnce_iff _ _ _).1 h3) h4

theorem parsed_parse {s : Stream} {n : NarInfo} (h : parse s = .ok n) : Parsed n ∧ n.compression ≠ [] := by
  unfold parse at h
  rw [Res.bind_eq_ok] at h
  obtain ⟨m, h1, h2⟩ := h
  split at h2
  · simp at h2
  have hm := parsed_lines parsed_empty (fun l hl => splitByte_no_sep _ _ l hl) h1
  simp only [Res.ok.injEq] at h2
  subst h2
  split
  · exact ⟨{ hm with compression := (fromLine_simple (v := b!"bzip2") (by decide) (by decide)).1 }, by simp⟩
  · rename_i hc; exact ⟨hm, hc⟩

end Verif.Props
