import Verif.Model.NarinfoWidth
import Verif.Lemmas.LsText
import Verif.Props.NarinfoCut

/-!
# `.narinfo` files on machines with 32-bit `int` (C161)
-/

namespace Verif.Props
open Verif.GoLib Verif.Spec Verif.Nixhash Verif.Signature Verif.Wire Verif.Narinfo Verif.NarinfoWidth Verif.NarLs

theorem parseUintW_iff (w : Nat) (v : Bytes) (x : Nat) :
    parseUintW w v = .ok x ↔ parseUint v = .ok x ∧ decValue v < 2 ^ w := by
  unfold parseUintW
  rw [Res.bind_eq_ok]
  constructor
  · rintro ⟨a, h1, h2⟩
    split at h2
    · cases h2
    · cases h2
      have := ((parseUint_digits _ _).1 h1).2.2
      exact ⟨h1, by omega⟩
  · rintro ⟨h1, h2⟩
    have := ((parseUint_digits _ _).1 h1).2.2
    exact ⟨x, h1, by rw [if_neg (by omega)]⟩

theorem setFieldW_iff (w : Nat) (n n' : NarInfo) (k v : Bytes) :
    setFieldW w n k v = .ok n' ↔ setField n k v = .ok n' ∧ (k = b!"FileSize" ∨ k = b!"NarSize" → decValue v < 2 ^ w) := by
  unfold setFieldW
  by_cases h1 : k = b!"FileSize"
  · subst h1
    have e : setField n b!"FileSize" v = (do let x ← parseUint v; .ok { n with fileSize := x }) := by
      unfold setField; simp
    rw [if_pos rfl, e, Res.bind_eq_ok, Res.bind_eq_ok]
    constructor
    · rintro ⟨x, a, b⟩
      obtain ⟨c, d⟩ := (parseUintW_iff _ _ _).1 a
      exact ⟨⟨x, c, b⟩, fun _ => d⟩
    · rintro ⟨⟨x, c, b⟩, d⟩
      exact ⟨x, (parseUintW_iff _ _ _).2 ⟨c, d (.inl rfl)⟩, b⟩
  by_cases h2 : k = b!"NarSize"
  · subst h2
    have e : setField n b!"NarSize" v = (do let x ← parseUint v; .ok { n with narSize := x }) := by
      unfold setField; simp
    rw [if_neg h1, if_pos rfl, e, Res.bind_eq_ok, Res.bind_eq_ok]
    constructor
    · rintro ⟨x, a, b⟩
      obtain ⟨c, d⟩ := (parseUintW_iff _ _ _).1 a
      exact ⟨⟨x, c, b⟩, fun _ => d⟩
    · rintro ⟨⟨x, c, b⟩, d⟩
      exact ⟨x, (parseUintW_iff _ _ _).2 ⟨c, d (.inr rfl)⟩, b⟩
  rw [if_neg h1, if_neg h2]
  exact ⟨fun h => ⟨h, fun h => by rcases h with h | h <;> contradiction⟩, fun h => h.1⟩

/-- The sizes in the lines. -/
def SizesBelow (w : Nat) (ls : List Bytes) : Prop :=
  ∀ v ∈ values b!"FileSize" ls ++ values b!"NarSize" ls, decValue v < 2 ^ w

theorem parseLineW_iff (w : Nat) (n n' : NarInfo) (l : Bytes) :
    parseLineW w n l = .ok n' ↔ parseLine n l = .ok n' ∧ SizesBelow w [dropCR l] := by
  unfold parseLineW parseLine
  split
  · simp
  split
  · rename_i h
    rw [h]
    unfold SizesBelow
    rw [values_nil_line, values_nil_line]
    simp
  rw [Res.bind_eq_ok, Res.bind_eq_ok]
  have key : ∀ k v, splitOnce (dropCR l) = .ok (k, v) →
      ((k = b!"FileSize" ∨ k = b!"NarSize" → decValue v < 2 ^ w) ↔ SizesBelow w [dropCR l]) := by
    intro k v h
    unfold SizesBelow
    have hs := (splitOnce_iff _ _ _).1 h
    rw [values_split hs, values_split hs]
    by_cases h1 : k = b!"FileSize"
    · subst h1; simp
    by_cases h2 : k = b!"NarSize"
    · subst h2; simp
    rw [if_neg (fun h => h1 h.symm), if_neg (fun h => h2 h.symm)]
    simp [h1, h2]
  constructor
  · rintro ⟨⟨k, v⟩, h1, h2⟩
    obtain ⟨h3, h4⟩ := (setFieldW_iff _ _ _ _ _).1 h2
    exact ⟨⟨_, h1, h3⟩, (key _ _ h1).1 h4⟩
  · rintro ⟨⟨⟨k, v⟩, h1, h3⟩, h4⟩
    exact ⟨_, h1, (setFieldW_iff _ _ _ _ _).2 ⟨h3, (key _ _ h1).2 h4⟩⟩

theorem sizesBelow_cons (w : Nat) (l : Bytes) (ls : List Bytes) :
    SizesBelow w (l :: ls) ↔ SizesBelow w [l] ∧ SizesBelow w ls := by
  unfold SizesBelow
  have e : ∀ k, values k (l :: ls) = values k [l] ++ values k ls := fun k => values_append k [l] ls
  rw [e, e]
  simp only [List.mem_append]
  constructor
  · exact fun h => ⟨fun v hv => h v (by rcases hv with h | h <;> simp [h]), fun v hv => h v (by rcases hv with h | h <;> simp [h])⟩
  · rintro ⟨h1, h2⟩ v ((h | h) | (h | h))
    · exact h1 v (.inl h)
    · exact h2 v (.inl h)
    · exact h1 v (.inr h)
    · exact h2 v (.inr h)

theorem parseLinesW_iff (w : Nat) (ls : List Bytes) : ∀ n n' : NarInfo,
    parseLinesW w n ls = .ok n' ↔ parseLines n ls = .ok n' ∧ SizesBelow w (ls.map dropCR) := by
  induction ls with
  | nil => intro n n'; simp [parseLinesW, parseLines, SizesBelow, values]
  | cons l ls ih =>
    intro n n'
    unfold parseLinesW parseLines
    rw [Res.bind_eq_ok, Res.bind_eq_ok, List.map_cons, sizesBelow_cons]
    constructor
    · rintro ⟨m, h1, h2⟩
      obtain ⟨a, b⟩ := (parseLineW_iff _ _ _ _).1 h1
      obtain ⟨c, d⟩ := (ih _ _).1 h2
      exact ⟨⟨m, a, c⟩, b, d⟩
    · rintro ⟨⟨m, a, c⟩, b, d⟩
      exact ⟨m, (parseLineW_iff _ _ _ _).2 ⟨a, b⟩, (ih _ _).2 ⟨c, d⟩⟩

/-- C161, for an `int` of `w` bits and every input: what is read is what a machine with 64 bits reads, and it is read exactly if
the sizes in all lines `FileSize` and `NarSize`, also those that are overridden by later ones, are below 2^w. -/
theorem C161_exact (w : Nat) (s : Stream) (n : NarInfo) :
    parseW w s = .ok n ↔ parse s = .ok n ∧
      ∀ v ∈ values b!"FileSize" (lines s.data) ++ values b!"NarSize" (lines s.data), decValue v < 2 ^ w := by
  unfold parseW parse
  rw [Res.bind_eq_ok, Res.bind_eq_ok]
  constructor
  · rintro ⟨m, h1, h2⟩
    obtain ⟨a, b⟩ := (parseLinesW_iff _ _ _ _).1 h1
    exact ⟨⟨m, a, h2⟩, b⟩
  · rintro ⟨⟨m, a, h2⟩, b⟩
    exact ⟨m, (parseLinesW_iff _ _ _ _).2 ⟨a, b⟩, h2⟩

/-- C161 is false: a `NarInfo` for an archive of 4 GiB or more is printed everywhere, and what is printed is read where `int` has 64 bits,
but not where it has 32. -/
theorem C161_refuted (n : NarInfo) (hw : WellFormed n) (hs : 2 ^ 32 ≤ n.narSize) :
    ∃ text, n.string = .ok text ∧ parse ⟨text, .eof⟩ = .ok n ∧ ∀ n', parseW 32 ⟨text, .eof⟩ ≠ .ok n' := by
  obtain ⟨text, h1, h2⟩ := C49_roundtrip n hw
  refine ⟨text, h1, h2, fun n' h => ?_⟩
  obtain ⟨_, h4⟩ := (C161_exact _ _ _).1 h
  have e := (C50_result _ _ h2).2.2.2.2.2.2.1
  generalize hV : values b!"NarSize" (lines (Stream.mk text .eof).data) = V at e h4
  rcases V.eq_nil_or_concat with h0 | ⟨V', v, h0⟩
  · subst h0
    have e0 : n.narSize = 0 := e
    omega
  · rw [h0] at e h4
    have hm := h4 v (List.mem_append.2 (.inr (by simp)))
    rw [decValue_eq] at hm
    have e0 : n.narSize = digitsValue 0 v := by rw [e]; simp
    omega

/-- C161 with 64 bits: the model of the other theorems. -/
theorem C161_64 (s : Stream) (n : NarInfo) : parseW 64 s = .ok n ↔ parse s = .ok n := by
  rw [C161_exact]
  refine ⟨fun h => h.1, fun h => ⟨h, fun v hv => ?_⟩⟩
  have hacc := (C50_accepts s).1.1 ⟨n, h⟩
  have key : ∀ k, (k = b!"FileSize" ∨ k = b!"NarSize") → v ∈ values k (lines s.data) → decValue v < 2 ^ 64 := by
    intro k hk hv
    unfold values at hv
    obtain ⟨l, hl, hv⟩ := List.mem_filterMap.1 hv
    rcases hacc.2.2 l hl with h0 | ⟨k', v', h1, h2⟩
    · subst h0
      rcases hk with rfl | rfl
      · have e : (b!"FileSize" ++ b!": ").isPrefixOf [] = false := by decide
        rw [e] at hv; simp at hv
      · have e : (b!"NarSize" ++ b!": ").isPrefixOf [] = false := by decide
        rw [e] at hv; simp at hv
    · have hv' : v ∈ values k [l] := by
        unfold values
        exact List.mem_filterMap.2 ⟨l, by simp, hv⟩
      rw [values_split h1] at hv'
      split at hv'
      · rename_i he
        subst he
        simp at hv'
        subst hv'
        unfold GoodValue at h2
        rw [decValue_eq]
        rcases hk with rfl | rfl
        · rcases h2 with h2 | h2 | h2 | h2
          · exact absurd h2 (by decide)
          · exact absurd h2.1 (by decide)
          · exact h2.2.2.2
          · exact absurd h2.1 (by decide)
        · rcases h2 with h2 | h2 | h2 | h2
          · exact absurd h2 (by decide)
          · exact absurd h2.1 (by decide)
          · exact h2.2.2.2
          · exact absurd h2.1 (by decide)
      · simp at hv'
  rcases List.mem_append.1 hv with h1 | h1
  · exact key _ (.inl rfl) h1
  · exact key _ (.inr rfl) h1

/-- The text `x` consists of whole lines, in which all sizes are below 2^w. -/
def Sized (w : Nat) (x : Bytes) : Prop := ∀ r, ∃ H, lines (x ++ r) = H ++ lines r ∧ SizesBelow w H

theorem SizesBelow.append {w : Nat} {a b : List Bytes} (ha : SizesBelow w a) (hb : SizesBelow w b) : SizesBelow w (a ++ b) := by
  unfold SizesBelow at *
  intro v hv
  rw [values_append, values_append] at hv
  simp only [List.mem_append] at hv ha hb
  rcases hv with (h | h) | (h | h)
  · exact ha v (.inl h)
  · exact hb v (.inl h)
  · exact ha v (.inr h)
  · exact hb v (.inr h)

theorem Sized.append {w : Nat} {x y : Bytes} (hx : Sized w x) (hy : Sized w y) : Sized w (x ++ y) := by
  intro r
  obtain ⟨H1, e1, h1⟩ := hx (y ++ r)
  obtain ⟨H2, e2, h2⟩ := hy r
  exact ⟨H1 ++ H2, by rw [List.append_assoc, e1, e2, List.append_assoc], h1.append h2⟩

theorem sized_of_safe {w : Nat} {x : Bytes} (h : Safe [b!"FileSize", b!"NarSize"] x) : Sized w x := by
  intro r
  obtain ⟨H, e, h⟩ := h r
  refine ⟨H, e, ?_⟩
  unfold SizesBelow
  rw [values_eq_nil (fun l hl => h l hl _ (by simp)), values_eq_nil (fun l hl => h l hl _ (by simp))]
  simp

theorem sized_line {w : Nat} {pre k : Bytes} {x : Nat} (hpre : pre = k ++ b!": ") (hk : (58 : UInt8) ∉ k ∧ (10 : UInt8) ∉ k)
    (hx : x < 2 ^ 64) (hw : x < 2 ^ w) : Sized w (pre ++ (formatUint x ++ b!"\n")) := by
  subst hpre
  intro r
  have hv := uint_text hx
  have e : k ++ b!": " ++ (formatUint x ++ b!"\n") ++ r = (k ++ b!": " ++ formatUint x) ++ 10 :: r := by simp
  have h10 : (10 : UInt8) ∉ k ++ b!": " ++ formatUint x := by
    simp only [List.mem_append, not_or]
    exact ⟨⟨hk.2, by decide⟩, hv.noLF⟩
  have hcr : dropCR (k ++ b!": " ++ formatUint x) = k ++ b!": " ++ formatUint x := by
    rw [dropCR_line]
    have : dropCR (formatUint x) = formatUint x := by unfold dropCR; rw [if_neg hv.noCR]
    rw [this]
  refine ⟨[k ++ b!": " ++ formatUint x], ?_, ?_⟩
  · unfold lines
    rw [e, splitByte_append h10, List.map_cons, hcr]
    rfl
  · have hs := splitsAs_of hk.1 hv.noSep
    have hd : decValue (formatUint x) < 2 ^ w := by
      have := ((parseUint_digits _ _).1 (parseUint_formatUint hx)).2.2
      omega
    unfold SizesBelow
    rw [values_split hs, values_split hs]
    intro v hv
    rcases List.mem_append.1 hv with h | h <;>
    · split at h
      · rw [List.mem_singleton.1 h]; exact hd
      · simp at h

/-- C161: what `String` prints for a well-formed value whose sizes are below 2^w is read back also where `int` has `w` bits. -/
theorem C161_printed (w : Nat) (n : NarInfo) (hw : WellFormed n) (hf : n.fileSize < 2 ^ w) (hs : n.narSize < 2 ^ w) :
    ∃ text, n.string = .ok text ∧ parseW w ⟨text, .eof⟩ = .ok n := by
  obtain ⟨text, h, hp⟩ := C49_roundtrip n hw
  refine ⟨text, h, (C161_exact _ _ _).2 ⟨hp, ?_⟩⟩
  suffices hsz : Sized w text by
    obtain ⟨H, e, hb⟩ := hsz []
    rw [List.append_nil] at e
    have : SizesBelow w (lines text) := by
      rw [e]
      refine hb.append ?_
      have e0 : lines [] = [[]] := rfl
      rw [e0]
      unfold SizesBelow
      rw [values_nil_line, values_nil_line]
      simp
    exact this
  obtain ⟨nh, hnh, hnok⟩ := hw.narHash
  obtain ⟨nt, hnt, hnv, hnp⟩ := hash_text hnok
  have hfile : ∃ ft, fileLines n = .ok ft ∧ Sized w ft := by
    rcases hw.file with ⟨h1, h2⟩ | ⟨h, h1, h2, h3, h4⟩
    · exact ⟨[], by unfold fileLines; rw [h1], sized_of_safe (safe_nil _)⟩
    · obtain ⟨t, a, b, c⟩ := hash_text h2
      refine ⟨_, by unfold fileLines; rw [h1]; simp only []; rw [if_pos (by omega), a]; rfl, ?_⟩
      have l1 : Sized w (b!"FileHash: " ++ (t ++ b!"\n")) := sized_of_safe (safe_line (k := b!"FileHash") rfl (by decide) b.noLF (by decide))
      have l2 : Sized w (b!"FileSize: " ++ (formatUint n.fileSize ++ b!"\n")) := sized_line (k := b!"FileSize") rfl (by decide) h4 hf
      have := l1.append l2
      simpa using this
  obtain ⟨ft, hft, hfs⟩ := hfile
  unfold NarInfo.string at h
  rw [hft, hnh] at h
  unfold hashString at h
  simp only [Res.bind_ok, hnt] at h
  have h := Res.ok.inj h
  have er : b!"References:" ++ refsText n.references = b!"References: " ++ join n.references [32] := by
    rw [refsText_eq]; rfl
  have line : ∀ {pre k v : Bytes}, pre = k ++ b!": " → (58 : UInt8) ∉ k ∧ (10 : UInt8) ∉ k → (10 : UInt8) ∉ v →
      (∀ k' ∈ [b!"FileSize", b!"NarSize"], (58 : UInt8) ∉ k' ∧ k' ≠ k) → Sized w (pre ++ (v ++ b!"\n")) :=
    fun h1 h2 h3 h4 => sized_of_safe (safe_line h1 h2 h3 h4)
  have opt : ∀ {pre k v : Bytes}, pre = k ++ b!": " → (58 : UInt8) ∉ k ∧ (10 : UInt8) ∉ k → (10 : UInt8) ∉ v →
      (∀ k' ∈ [b!"FileSize", b!"NarSize"], (58 : UInt8) ∉ k' ∧ k' ≠ k) → Sized w (optLine pre v) := by
    intro pre k v h1 h2 h3 h4
    unfold optLine
    split
    · exact sized_of_safe (safe_nil _)
    · have := line h1 h2 h3 h4
      simpa using this
  have hsigs : Sized w (n.signatures.flatMap fun s => b!"Sig: " ++ encode s ++ b!"\n") := by
    have hall := hw.signatures
    generalize n.signatures = sigs at hall ⊢
    induction sigs with
    | nil => exact sized_of_safe (safe_nil _)
    | cons s sigs ih =>
      obtain ⟨h1, h2⟩ := List.forall_mem_cons.1 hall
      have l1 : Sized w (b!"Sig: " ++ (encode s ++ b!"\n")) := line (k := b!"Sig") rfl (by decide) (sig_text h1).1.noLF (by decide)
      rw [List.flatMap_cons, List.append_assoc b!"Sig: "]
      exact l1.append (ih h2)
  have l1 : Sized w (b!"StorePath: " ++ (n.storePath ++ b!"\n")) := line (k := b!"StorePath") rfl (by decide) hw.storePath.noLF (by decide)
  have l2 : Sized w (b!"URL: " ++ (n.url ++ b!"\n")) := line (k := b!"URL") rfl (by decide) hw.url.noLF (by decide)
  have l3 : Sized w (b!"Compression: " ++ (n.compression ++ b!"\n")) := line (k := b!"Compression") rfl (by decide) hw.compression.1.noLF (by decide)
  have l4 : Sized w (b!"NarHash: " ++ (nt ++ b!"\n")) := line (k := b!"NarHash") rfl (by decide) hnv.noLF (by decide)
  have l5 : Sized w (b!"NarSize: " ++ (formatUint n.narSize ++ b!"\n")) := sized_line (k := b!"NarSize") rfl (by decide) hw.narSize hs
  have l6 : Sized w (b!"References: " ++ (join n.references [32] ++ b!"\n")) := line (k := b!"References") rfl (by decide) (refs_text hw).noLF (by decide)
  have l7 : Sized w (optLine b!"Deriver: " n.deriver) := opt (k := b!"Deriver") rfl (by decide) hw.deriver.1.noLF (by decide)
  have l8 : Sized w (optLine b!"System: " n.system) := opt (k := b!"System") rfl (by decide) hw.system.noLF (by decide)
  have l9 : Sized w (optLine b!"CA: " n.ca) := opt (k := b!"CA") rfl (by decide) hw.ca.noLF (by decide)
  have hall := ((((((((l1.append l2).append l3).append hfs).append l4).append l5).append l6).append l7).append l8).append (hsigs.append l9)
  rw [← h]
  simp only [List.append_assoc] at hall ⊢
  rw [← List.append_assoc b!"References:", er, List.append_assoc b!"References: "]
  exact hall

/-- A `NarInfo` for an archive of 5 GB. -/
def bigInfo : NarInfo := { sampleInfo with narSize := 5000000000 }

theorem bigInfo_wellFormed : WellFormed bigInfo := by
  have v : ∀ x : Bytes, (10 : UInt8) ∉ x → x.getLast? ≠ some 13 → contains x b!": " = false →
      x.length < 1048000 → ValueOk x := fun x a b c d => ⟨a, b, noSep_of c, d⟩
  constructor
  · exact v _ (by decide) (by decide) (by decide) (by decide)
  · exact v _ (by decide) (by decide) (by decide) (by decide)
  · exact ⟨v _ (by decide) (by decide) (by decide) (by decide), by decide⟩
  · exact .inr ⟨_, rfl, ⟨⟨b!"sha256", by decide⟩, by decide, rfl⟩, by decide, by decide⟩
  · exact ⟨_, rfl, ⟨b!"sha256", by decide⟩, by decide, rfl⟩
  · decide
  · decide
  · exact ⟨v _ (by decide) (by decide) (by decide) (by decide), by decide⟩
  · exact v _ (by decide) (by decide) (by decide) (by decide)
  · decide
  · exact v _ (by decide) (by decide) (by decide) (by decide)

example := C161_printed 33 bigInfo bigInfo_wellFormed (by decide) (by decide)
example := C161_refuted bigInfo bigInfo_wellFormed (by decide)
example : (parse ⟨b!"StorePath: x\nNarSize: 4294967296\n", .eof⟩).isOk ∧
    ¬ (parseW 32 ⟨b!"StorePath: x\nNarSize: 4294967296\n", .eof⟩).isOk ∧
    (parseW 32 ⟨b!"StorePath: x\nNarSize: 4294967295\n", .eof⟩).isOk ∧
    ¬ (parseW 32 ⟨b!"NarSize: 4294967296\nNarSize: 1\n", .eof⟩).isOk := by decide +kernel

end Verif.Props
