import Verif.Lemmas.DrvRead

/-! # Properties of reading, writing and validating derivations -/

namespace Verif.Props
open Verif.GoLib Verif.Wire Verif.Derivation

/-! ## A sample -/

/-- a hash part -/
def dHash : Bytes := b!"00000000000000000000000000000000"

/-- a derivation with two outputs, two inputs, a source and an environment that needs escaping -/
def sampleDrv : Derivation where
  name := []
  outputs := [(b!"out", ⟨b!"/nix/store/" ++ dHash ++ b!"-x", [], []⟩), (b!"dev", ⟨b!"/nix/store/" ++ dHash ++ b!"-x-dev", [], []⟩)]
  inputSources := [b!"/nix/store/" ++ dHash ++ b!"-s.sh"]
  inputDerivations := [(b!"/nix/store/" ++ dHash ++ b!"-b.drv", [b!"out"]), (b!"/nix/store/" ++ dHash ++ b!"-a.drv", [b!"dev", b!"out"])]
  platform := b!"x86_64-linux"
  builder := b!"/bin/sh"
  arguments := [b!"-e", b!"a\\nb"]
  env := [(b!"name", b!"x"), (b!"cmd", b!"echo \"a\tb\\\n\"")]

theorem closed_of_plain {s : Bytes} (h : s.all (fun c => c != 34 && c != 92) = true) : Closed s := by
  induction s with
  | nil => exact .nil
  | cons c s ih =>
    simp only [List.all_cons, Bool.and_eq_true, bne_iff_ne] at h
    exact .plain c s h.1.1 h.1.2 (ih (by simpa using h.2))

theorem sampleDrv_maps : Maps sampleDrv := ⟨by decide +kernel, by decide +kernel, by decide +kernel⟩

theorem sampleDrv_valid : sampleDrv.validate = .ok () := by decide +kernel

theorem sampleDrv_raw : RawClosed sampleDrv where
  outputs := by
    have : ∀ o ∈ sampleDrv.outputs, ∀ s ∈ [o.1, o.2.path, o.2.hashAlgorithm, o.2.hash], s.all (fun c => c != 34 && c != 92) = true := by
      decide +kernel
    intro o ho
    exact ⟨closed_of_plain (this o ho _ (by simp)), closed_of_plain (this o ho _ (by simp)),
      closed_of_plain (this o ho _ (by simp)), closed_of_plain (this o ho _ (by simp))⟩
  inputDrvs := by
    have : ∀ i ∈ sampleDrv.inputDerivations, ∀ s ∈ i.1 :: i.2, s.all (fun c => c != 34 && c != 92) = true := by
      decide +kernel
    intro i hi
    exact ⟨closed_of_plain (this i hi _ (by simp)), fun s hs => closed_of_plain (this i hi _ (by simp [hs]))⟩
  inputSrcs := by
    have : ∀ s ∈ sampleDrv.inputSources, s.all (fun c => c != 34 && c != 92) = true := by decide +kernel
    exact fun s hs => closed_of_plain (this s hs)
  platform := by decide +kernel
  builder := by decide +kernel
  args := by
    intro s hs
    simp only [sampleDrv, List.mem_cons, List.not_mem_nil, or_false] at hs
    rcases hs with rfl | rfl
    · exact closed_of_plain (by decide)
    · exact .plain _ _ (by decide) (by decide) (.esc _ _ (.plain _ _ (by decide) (by decide) .nil))
  env := by
    have : ∀ e ∈ sampleDrv.env, e.1.all (fun c => c != 34 && c != 92) = true := by decide +kernel
    exact fun e he => closed_of_plain (this e he)

/-! ## C59 -/

/-- C59: a value survives escaping and unescaping; the escaped form has no newline, carriage return
and tab, and quotes and backslashes in escape sequences only. -/
theorem C59_escape (s : Bytes) :
    unquote (escapeString s) = .ok s ∧
    ∃ e, escapeString s = quoted e ∧ Closed e ∧ (10 : UInt8) ∉ e ∧ (13 : UInt8) ∉ e ∧ (9 : UInt8) ∉ e := by
  have hc : ∀ x ∈ b!"\n\x0d\t", x ∉ escaped s := by
    intro x hx hm
    obtain ⟨c, _, hc⟩ := List.mem_flatMap.1 hm
    have key : ∀ n : Fin 256, ∀ x ∈ b!"\n\x0d\t", x ∉ escapedChar (UInt8.ofNat n) := by decide +kernel
    have := key ⟨c.toNat, c.toNat_lt⟩ x hx
    simp at this
    exact this hc
  refine ⟨?_, escaped s, escapeString_eq s, closed_escaped s, hc 10 (by decide), hc 13 (by decide), hc 9 (by decide)⟩
  rw [escapeString_eq, unquote_quoted, unescape_escaped]

example : escapeString b!"a\"\\\n" = b!"\"a\\\"\\\\\\n\"" := by decide

/-! ## C57 -/

/-- C57: what `WriteDerivation` writes is the ATerm text of the derivation with the keys of all maps
in strictly increasing order; -/
theorem C57_sorted (d : Derivation) (hm : Maps d) :
    ∃ t : DrvText, Prints d t ∧ ∀ o, d.write ⟨o, none⟩ = (.ok (), ⟨o ++ t.text, none⟩) := by
  refine ⟨_, printed_prints hm, ?_⟩
  intro o
  obtain ⟨cs, h1, h2⟩ := write_chunks d
  unfold Derivation.write
  rw [h1]
  show writeChunks cs _ = _
  rw [writeChunks_none, h2]

/-- hence it does not depend on the order in which Go visits the maps, for any sink. -/
theorem C57_order (d d' : Derivation) (hm : Maps d) (h : Same d d') :
    ∀ w, (d.write w).1 = (d'.write w).1 ∧ (d.write w).2.out = (d'.write w).2.out := by
  intro w
  obtain ⟨cs, h1, h2⟩ := write_chunks d
  obtain ⟨cs', h1', h2'⟩ := write_chunks d'
  rw [← printed_congr h hm false h.inputDerivations hm.inputDerivations, ← h2] at h2'
  unfold Derivation.write
  rw [h1, h1']
  show (writeChunks cs w).1 = (writeChunks cs' w).1 ∧ (writeChunks cs w).2.out = (writeChunks cs' w).2.out
  obtain ⟨o, b⟩ := w
  cases b with
  | none => rw [writeChunks_none, writeChunks_none, h2']; exact ⟨rfl, rfl⟩
  | some k => rw [writeChunks_some, writeChunks_some, h2']; exact ⟨rfl, rfl⟩

example : Maps sampleDrv ∧ Same sampleDrv { sampleDrv with env := sampleDrv.env.reverse } :=
  ⟨sampleDrv_maps, { Same.refl sampleDrv with env := (List.reverse_perm _).symm }⟩

/-- C83: if the writer given to `WriteDerivation` fails after `k` bytes, the error is returned and
the first `k` bytes of the text have been written; otherwise the whole text. -/
theorem C83_sink_failure (d : Derivation) : ∃ b, d.write ⟨[], none⟩ = (.ok (), ⟨b, none⟩) ∧
    ∀ k, if b.length ≤ k then d.write ⟨[], some k⟩ = (.ok (), ⟨b, some (k - b.length)⟩)
      else d.write ⟨[], some k⟩ = (.err .io, ⟨b.take k, some 0⟩) := by
  obtain ⟨cs, h1, h2⟩ := write_chunks d
  refine ⟨cs.flatten, ?_, ?_⟩
  · unfold Derivation.write
    rw [h1]
    show writeChunks cs _ = _
    rw [writeChunks_none]; rfl
  · intro k
    unfold Derivation.write
    rw [h1]
    show if _ then writeChunks cs _ = _ else writeChunks cs _ = _
    rw [writeChunks_some]
    by_cases h : cs.flatten.length ≤ k
    · simp [h]
    · simp [h]

/-! ## C62 -/

/-- C62 is false as stated: the verdict on a derivation with the environment variables `name` and
`__json`, whose JSON has no name, depends on which of them Go visits last. -/
theorem C62_refuted : ∃ d d' : Derivation, Maps d ∧ Same d d' ∧ d.validate = .ok () ∧
    d'.validate = .err (.msg "env 'name' not found") :=
  ⟨{ sampleDrv with env := [(b!"__json", b!"{}"), (b!"name", b!"x")] },
    { sampleDrv with env := [(b!"name", b!"x"), (b!"__json", b!"{}")] },
    ⟨by decide +kernel, by decide +kernel, by decide +kernel⟩,
    { Same.refl sampleDrv with env := List.Perm.swap _ _ _ }, by decide +kernel, by decide +kernel⟩

/-- C62, what holds: in all other cases the verdict does not depend on the order. (Missing: the case of
C62_refuted.) -/
theorem C62_verdict_partial (d d' : Derivation) (h : Same d d')
    (hc : ¬ (b!"name" ∈ d.env.keys ∧ b!"__json" ∈ d.env.keys ∧ d.name = [])) :
    (d.validate = .ok () ↔ d'.validate = .ok ()) ∧ d.validate ≠ .panic :=
  ⟨validate_same h hc, validate_ne_panic d⟩

/-- C62: the exact meaning of `Validate`, in all other cases. -/
theorem C62_validate_partial (d : Derivation)
    (hc : ¬ (b!"name" ∈ d.env.keys ∧ b!"__json" ∈ d.env.keys ∧ d.name = [])) :
    d.validate = .ok () ↔ WellFormed d ∧
      ((b!"__json" ∈ d.env.keys ∧ d.name ≠ []) ∨ (b!"name" ∈ d.env.keys ∧ b!"__json" ∉ d.env.keys)) := by
  rw [validate_iff']
  refine and_congr_right fun _ => ?_
  by_cases hn : d.name = []
  · rw [hn]
    by_cases hj : b!"__json" ∈ d.env.keys
    · have : b!"name" ∉ d.env.keys := fun e => hc ⟨e, hj, hn⟩
      rw [nameEnv_noname this]
      simp [this]
    · rw [nameEnv_nojson _ hj]
      simp [hj]
  · rw [nameEnv_ne hn]
    by_cases hj : b!"__json" ∈ d.env.keys
    · simp [hj, hn]
    · simp [hj, hn]

example : sampleDrv.validate = .ok () ∧ b!"name" ∈ sampleDrv.env.keys ∧ b!"__json" ∉ sampleDrv.env.keys := by
  decide +kernel

/-! ## C56 -/

/-- C56: `ReadDerivation` of what `WriteDerivation` wrote gives the derivation back (with the maps in
some order), for every derivation that passes `Validate` and whose strings in the positions that are
not unescaped need no escaping. The private field `name` must be what the parser computes: the name in
the JSON object `__json`, nothing without it; the case without a name is that of C62_refuted. -/
theorem C56_roundtrip (jsonName : Bytes → Res (Option Bytes)) (d : Derivation) (hm : Maps d) (hv : d.validate = .ok ())
    (hr : RawClosed d)
    (hj : ∀ j, (b!"__json", j) ∈ d.env → jsonName j = .ok (some d.name) ∧ d.name ≠ [])
    (hn : b!"__json" ∉ d.env.keys → d.name = []) :
    ∃ b d', d.write ⟨[], none⟩ = (.ok (), ⟨b, none⟩) ∧ readDerivation jsonName ⟨b, .eof⟩ = .ok d' ∧ Same d d' := by
  obtain ⟨cs, h1, h2⟩ := write_chunks d
  have hp := printed_prints hm
  have hw := ((validate_iff' d).1 hv).1
  have hcl := printed_closed hm hr.quotable d.inputDerivations hr.inputDrvs hm.inputDerivations false
  have hord := prints_ordered hp hw
  have hs := prints_drv hp hr
  generalize ht : printed d false d.inputDerivations = t at *
  have hget : t.drv.env.get? b!"__json" = d.env.get? b!"__json" := by
    rw [← GoMap.get?_perm hm.env hs.env]
  have hsame : Same d { t.drv with name := d.name } :=
    ⟨rfl, hs.outputs, hs.inputSources, hs.inputDerivations, hs.platform, hs.builder, hs.arguments, hs.env⟩
  have hname : withName jsonName t.drv = .ok { t.drv with name := d.name } := by
    unfold withName
    rw [hget]
    cases hg : d.env.get? b!"__json" with
    | none =>
      have hk : b!"__json" ∉ d.env.keys := by
        intro hk
        have := (GoMap.get?_isSome d.env b!"__json").2 hk
        rw [hg] at this; cases this
      have : d.name = t.drv.name := hn hk
      show Res.ok _ = _
      rw [this]
    | some j =>
      have := (hj j (GoMap.get?_mem hg)).1
      show (attrsName (jsonName j) >>= fun n => Res.ok { t.drv with name := n }) = _
      rw [this]; rfl
  refine ⟨cs.flatten, { t.drv with name := d.name }, ?_, ?_, hsame⟩
  · unfold Derivation.write
    rw [h1]
    show writeChunks cs _ = _
    rw [writeChunks_none]; rfl
  · have hval : ({ t.drv with name := d.name } : Derivation).validate = .ok () := by
      refine (validate_same hsame ?_).1 hv
      rintro ⟨_, hk, he⟩
      obtain ⟨e, hmem, hke⟩ := List.mem_map.1 hk
      obtain ⟨k, j⟩ := e
      simp only at hke
      subst hke
      exact (hj j hmem).2 he
    unfold readDerivation
    rw [if_neg (by simp)]
    show (parseDerivation jsonName cs.flatten >>= _) = _
    rw [h2, (parseDerivation_text jsonName hcl _).2 ⟨hord, hname⟩, Res.bind_ok, hval]
    rfl

example : Maps sampleDrv ∧ sampleDrv.validate = .ok () ∧ RawClosed sampleDrv ∧ b!"__json" ∉ sampleDrv.env.keys ∧
    sampleDrv.name = [] := ⟨sampleDrv_maps, sampleDrv_valid, sampleDrv_raw, by decide +kernel, rfl⟩

/-- C84: derivations with different contents are written differently. -/
theorem C84_write_injective (d d' : Derivation) (hm : Maps d) (hm' : Maps d') (hr : Quotable d) (hr' : Quotable d')
    (hn : d.name = d'.name) (h : (d.write ⟨[], none⟩).2.out = (d'.write ⟨[], none⟩).2.out) : Same d d' := by
  obtain ⟨cs, h1, h2⟩ := write_chunks d
  obtain ⟨cs', h1', h2'⟩ := write_chunks d'
  have e : ∀ {d : Derivation} {cs : List Bytes}, writeDerivation d false [] = .ok cs → (d.write ⟨[], none⟩).2.out = cs.flatten := by
    intro d cs h
    unfold Derivation.write
    rw [h]
    show (writeChunks cs _).2.out = _
    rw [writeChunks_none]; rfl
  rw [e h1, e h1', h2, h2'] at h
  have := text_inj (printed_closed hm hr _ hr.inputDrvs hm.inputDerivations false)
    (printed_closed hm' hr' _ hr'.inputDrvs hm'.inputDerivations false) h
  exact prints_same (this ▸ printed_prints hm) (printed_prints hm') hn

/-- A derivation with a quote in its builder and a newline in its platform is among them. -/
example : Quotable { sampleDrv with builder := b!"/bin/\"sh\"", platform := b!"x\ny" } :=
  ⟨sampleDrv_raw.outputs, sampleDrv_raw.inputDrvs, sampleDrv_raw.inputSrcs, sampleDrv_raw.args, sampleDrv_raw.env⟩

/-! ## C60 -/

/-- C60: a well-formed text is accepted by the parser only if the names of the outputs, the paths of
the input derivations and the environment keys are strictly increasing and not empty, and then all of
them, and nothing else, are in the result. -/
theorem C60_order (jsonName : Bytes → Res (Option Bytes)) (t : DrvText) (h : t.Closed) (d : Derivation)
    (hd : readDerivation jsonName ⟨t.text, .eof⟩ = .ok d) :
    t.Ordered ∧ d.outputs = t.outputs.map (fun o => (o.1, ⟨o.2.1, o.2.2.1, o.2.2.2⟩)) ∧ d.inputDerivations = t.inputDrvs ∧
      d.env = t.env.map (fun e => (e.1, unescape e.2)) ∧ d.inputSources = t.inputSrcs ∧ d.platform = t.platform ∧
      d.builder = t.builder ∧ d.arguments = t.args := by
  unfold readDerivation at hd
  rw [if_neg (by simp), Res.bind_eq_ok] at hd
  obtain ⟨d', h1, h2⟩ := hd
  rw [Res.bind_eq_ok] at h2
  obtain ⟨_, _, h3⟩ := h2
  cases Res.ok.inj h3
  obtain ⟨ho, hn⟩ := (parseDerivation_text jsonName h _).1 h1
  refine ⟨ho, ?_⟩
  unfold withName at hn
  split at hn
  · cases Res.ok.inj hn
    exact ⟨rfl, rfl, rfl, rfl, rfl, rfl, rfl⟩
  · rw [Res.bind_eq_ok] at hn
    obtain ⟨n, _, hn⟩ := hn
    cases Res.ok.inj hn
    exact ⟨rfl, rfl, rfl, rfl, rfl, rfl, rfl⟩

theorem callEach_inv {σ : Type} (P : σ → Prop) (f : σ → Bytes → Nat → Res σ)
    (hf : ∀ s v i s', P s → f s v i = .ok s' → P s') (l : List Bytes) : ∀ s i r, P s → callEach f s i l = .ok r → P r := by
  induction l with
  | nil => intro s i r hs h; cases Res.ok.inj h; exact hs
  | cons v l ih =>
    intro s i r hs h
    rw [callEach, Res.bind_eq_ok] at h
    obtain ⟨s', h1, h2⟩ := h
    exact ih s' (i + 1) r (hf s v i s' hs h1) h2

theorem arrayEach_inv {σ : Type} (P : σ → Prop) (f : σ → Bytes → Nat → Res σ)
    (hf : ∀ s v i s', P s → f s v i = .ok s' → P s') {v : Bytes} {s r : σ} (hs : P s) (h : arrayEach v s f = .ok r) : P r := by
  unfold arrayEach at h
  rw [Res.bind_eq_ok] at h
  obtain ⟨items, _, h⟩ := h
  exact callEach_inv P f hf items s 0 r hs h

/-- the state of a list of keyed items: an empty key or increasing keys -/
def KeyInv {α : Type} (s : GoMap α × Bytes) : Prop :=
  ([] : Bytes) ∈ s.1.keys ∨ (Increasing s.1.keys ∧ ∀ k ∈ s.1.keys, k ≤ s.2)

theorem keyInv_insert {α : Type} {s : GoMap α × Bytes} (h : KeyInv s) {k : Bytes} (v : α) (hk : k = [] ∨ s.2 < k) :
    KeyInv (s.1.insert k v, k) := by
  rcases hk with rfl | hlt
  · exact .inl ((GoMap.keys_insert_mem _ _ _ _).2 (.inl rfl))
  · rcases h with h | ⟨h1, h2⟩
    · exact .inl ((GoMap.keys_insert_mem _ _ _ _).2 (.inr h))
    · refine .inr ⟨?_, ?_⟩
      · have hnot : k ∉ s.1.keys := fun hm => absurd (h2 k hm) (List.not_le.2 hlt)
        show Increasing (s.1.insert k v).keys
        rw [insert_append _ _ _ hnot]
        have hke : GoMap.keys (s.1 ++ [(k, v)]) = s.1.keys ++ [k] := by simp [GoMap.keys]
        rw [hke]
        unfold Increasing at h1 ⊢
        rw [← List.cons_append, List.pairwise_append]
        refine ⟨h1, by simp, ?_⟩
        intro a ha b hb
        simp at hb
        subst hb
        rcases List.mem_cons.1 ha with rfl | ha
        · cases b with
          | nil => exact absurd hlt (List.not_lt.2 (List.nil_le _))
          | cons x b => exact List.nil_lt_cons x b
        · exact List.lt_of_le_of_lt (h2 a ha) hlt
      · intro k' hk'
        rcases (GoMap.keys_insert_mem _ _ _ _).1 hk' with rfl | hk'
        · exact List.le_refl _
        · exact List.le_of_lt (List.lt_of_le_of_lt (h2 k' hk') hlt)

theorem order_check {k prev : Bytes} {α : Type} {e : Err} {a r : α} (h : (if strLe k prev then Res.err e else .ok a) = .ok r) :
    prev < k ∧ r = a := by
  by_cases hle : strLe k prev = true
  · rw [if_pos hle] at h; cases h
  · rw [if_neg hle] at h
    exact ⟨List.not_le.1 fun e => hle ((strLe_iff _ _).2 e), (Res.ok.inj h).symm⟩

theorem outputItem_inv {s s' : GoMap Output × Bytes} {v : Bytes} {i : Nat} (hs : KeyInv s) (h : outputItem s v i = .ok s') :
    KeyInv s' := by
  unfold outputItem at h
  rw [Res.bind_eq_ok] at h
  obtain ⟨o, h1, h2⟩ := h
  have hk : o.1 = [] ∨ s.2 < o.1 := by
    refine arrayEach_inv (fun o : Bytes × Output => o.1 = [] ∨ s.2 < o.1) _ ?_ (.inl rfl) h1
    intro x v i x' hx hf
    unfold outputField at hf
    split at hf
    · rw [Res.bind_eq_ok] at hf
      obtain ⟨n, _, hf⟩ := hf
      obtain ⟨hlt, rfl⟩ := order_check hf
      exact .inr hlt
    split at hf
    · rw [Res.bind_eq_ok] at hf; obtain ⟨n, _, hf⟩ := hf; cases Res.ok.inj hf; exact hx
    split at hf
    · rw [Res.bind_eq_ok] at hf; obtain ⟨n, _, hf⟩ := hf; cases Res.ok.inj hf; exact hx
    split at hf
    · rw [Res.bind_eq_ok] at hf; obtain ⟨n, _, hf⟩ := hf; cases Res.ok.inj hf; exact hx
    · cases hf
  split at h2
  · cases h2
  · cases Res.ok.inj h2
    exact keyInv_insert hs _ hk

theorem inputDrvItem_inv {s s' : GoMap (List Bytes) × Bytes} {v : Bytes} {i : Nat} (hs : KeyInv s)
    (h : inputDrvItem s v i = .ok s') : KeyInv s' := by
  unfold inputDrvItem at h
  rw [Res.bind_eq_ok] at h
  obtain ⟨o, h1, h2⟩ := h
  have hk : o.1 = [] ∨ s.2 < o.1 := by
    refine arrayEach_inv (fun o : Bytes × List Bytes => o.1 = [] ∨ s.2 < o.1) _ ?_ (.inl rfl) h1
    intro x v i x' hx hf
    unfold inputDrvField at hf
    split at hf
    · rw [Res.bind_eq_ok] at hf
      obtain ⟨n, _, hf⟩ := hf
      obtain ⟨hlt, rfl⟩ := order_check hf
      exact .inr hlt
    split at hf
    · rw [Res.bind_eq_ok] at hf; obtain ⟨n, _, hf⟩ := hf; cases Res.ok.inj hf; exact hx
    · cases hf
  cases Res.ok.inj h2
  exact keyInv_insert hs _ hk

theorem envItem_inv {s s' : GoMap Bytes × Bytes} {v : Bytes} {i : Nat} (hs : KeyInv s)
    (h : envItem s v i = .ok s') : KeyInv s' := by
  unfold envItem at h
  rw [Res.bind_eq_ok] at h
  obtain ⟨o, h1, h2⟩ := h
  have hk : o.1 = [] ∨ s.2 < o.1 := by
    refine arrayEach_inv (fun o : Bytes × Bytes => o.1 = [] ∨ s.2 < o.1) _ ?_ (.inl rfl) h1
    intro x v i x' hx hf
    unfold envField at hf
    split at hf
    · rw [Res.bind_eq_ok] at hf
      obtain ⟨n, _, hf⟩ := hf
      obtain ⟨hlt, rfl⟩ := order_check hf
      exact .inr hlt
    split at hf
    · rw [Res.bind_eq_ok] at hf; obtain ⟨n, _, hf⟩ := hf; cases Res.ok.inj hf; exact hx
    · cases hf
  cases Res.ok.inj h2
  exact keyInv_insert hs _ hk

/-- C60, for arbitrary input: whatever the bytes, if `ReadDerivation` succeeds then the names of the
outputs, the paths of the input derivations and the environment keys were found in strictly increasing
order (the lists that model the maps are in the order of insertion). -/
theorem C60_any_input (jsonName : Bytes → Res (Option Bytes)) (s : Stream) (d : Derivation)
    (hd : readDerivation jsonName s = .ok d) :
    Increasing d.outputs.keys ∧ Increasing d.inputDerivations.keys ∧ Increasing d.env.keys := by
  unfold readDerivation at hd
  split at hd
  · cases hd
  rw [Res.bind_eq_ok] at hd
  obtain ⟨d', h1, h2⟩ := hd
  rw [Res.bind_eq_ok] at h2
  obtain ⟨_, hv, h3⟩ := h2
  cases Res.ok.inj h3
  have hw := ((validate_iff' d).1 hv).1
  -- the maps that the parser builds
  have hinv : (([] : Bytes) ∈ d.outputs.keys ∨ Increasing d.outputs.keys) ∧
      (([] : Bytes) ∈ d.inputDerivations.keys ∨ Increasing d.inputDerivations.keys) ∧
      (([] : Bytes) ∈ d.env.keys ∨ Increasing d.env.keys) := by
    unfold parseDerivation at h1
    split at h1
    · cases h1
    split at h1
    · cases h1
    rw [Res.bind_eq_ok] at h1
    obtain ⟨d1, hp, hn⟩ := h1
    have h0 : Increasing ([] : List Bytes) := by simp [Increasing]
    have k0 : ∀ {α : Type}, KeyInv (([], []) : GoMap α × Bytes) := .inr ⟨h0, by simp [GoMap.keys]⟩
    have weak : ∀ {α : Type} {s : GoMap α × Bytes}, KeyInv s → ([] : Bytes) ∈ s.1.keys ∨ Increasing s.1.keys :=
      fun h => h.imp id And.left
    have hp := arrayEach_inv (fun d : Derivation => (([] : Bytes) ∈ d.outputs.keys ∨ Increasing d.outputs.keys) ∧
      (([] : Bytes) ∈ d.inputDerivations.keys ∨ Increasing d.inputDerivations.keys) ∧
      (([] : Bytes) ∈ d.env.keys ∨ Increasing d.env.keys)) drvField (by
        intro x v i x' hx hf
        unfold drvField at hf
        split at hf
        · rw [Res.bind_eq_ok] at hf; obtain ⟨m, hm, hf⟩ := hf; cases Res.ok.inj hf
          exact ⟨weak (arrayEach_inv KeyInv _ (fun _ _ _ _ => outputItem_inv) k0 hm), hx.2⟩
        split at hf
        · rw [Res.bind_eq_ok] at hf; obtain ⟨m, hm, hf⟩ := hf; cases Res.ok.inj hf
          exact ⟨hx.1, weak (arrayEach_inv KeyInv _ (fun _ _ _ _ => inputDrvItem_inv) k0 hm), hx.2.2⟩
        split at hf
        · rw [Res.bind_eq_ok] at hf; obtain ⟨m, hm, hf⟩ := hf; cases Res.ok.inj hf; exact hx
        split at hf
        · rw [Res.bind_eq_ok] at hf; obtain ⟨m, hm, hf⟩ := hf; cases Res.ok.inj hf; exact hx
        split at hf
        · rw [Res.bind_eq_ok] at hf; obtain ⟨m, hm, hf⟩ := hf; cases Res.ok.inj hf; exact hx
        split at hf
        · rw [Res.bind_eq_ok] at hf; obtain ⟨m, hm, hf⟩ := hf; cases Res.ok.inj hf; exact hx
        split at hf
        · rw [Res.bind_eq_ok] at hf; obtain ⟨m, hm, hf⟩ := hf; cases Res.ok.inj hf
          exact ⟨hx.1, hx.2.1, weak (arrayEach_inv KeyInv _ (fun _ _ _ _ => envItem_inv) k0 hm)⟩
        · cases hf) (s := emptyDrv) ⟨.inr h0, .inr h0, .inr h0⟩ hp
    split at hn
    · cases Res.ok.inj hn; exact hp
    · rw [Res.bind_eq_ok] at hn
      obtain ⟨n, _, hn⟩ := hn
      cases Res.ok.inj hn
      exact hp
  refine ⟨hinv.1.resolve_left ?_, hinv.2.1.resolve_left ?_, hinv.2.2.resolve_left ?_⟩
  · intro hm
    obtain ⟨o, ho, he⟩ := List.mem_map.1 hm
    exact (hw.outputs o ho).1 he
  · intro hm
    obtain ⟨o, ho, he⟩ := List.mem_map.1 hm
    exact storepath_ne_nil (hw.inputDerivations o ho).1 he
  · intro hm
    obtain ⟨o, ho, he⟩ := List.mem_map.1 hm
    exact hw.env o ho he

example : (match aterm sampleDrv false [] with
    | .ok b => (readDerivation (fun _ => .panic) ⟨b, .eof⟩).isOk
    | _ => false) = true := by decide +kernel

/-! ## C61 -/

/-- a text with an escape sequence in the builder -/
def escapedBuilder : DrvText where
  outputs := [(b!"out", b!"/nix/store/" ++ dHash ++ b!"-x", [], [])]
  inputDrvs := []
  inputSrcs := []
  platform := b!"x"
  builder := b!"a\\nb"
  args := []
  env := [(b!"name", b!"x")]

/-- C61 is false as stated: escape sequences in the platform and the builder are not undone when
reading, but backslashes are escaped when writing; in environment values, unknown escape sequences and
raw newlines are accepted, and written differently. -/
theorem C61_refuted :
    (∃ b d, readDerivation (fun _ => .panic) ⟨b, .eof⟩ = .ok d ∧ ∃ b', d.write ⟨[], none⟩ = (.ok (), ⟨b', none⟩) ∧ b' ≠ b) ∧
    (∃ t : DrvText, t.platform = b!"x" ∧ t.builder = b!"x" ∧
      ∃ d, readDerivation (fun _ => .panic) ⟨t.text, .eof⟩ = .ok d ∧ ∃ b', d.write ⟨[], none⟩ = (.ok (), ⟨b', none⟩) ∧ b' ≠ t.text) := by
  constructor
  · refine ⟨escapedBuilder.text, escapedBuilder.drv, by decide +kernel, ?_⟩
    exact ⟨(escapedBuilder.drv.write ⟨[], none⟩).2.out, by decide +kernel, by decide +kernel⟩
  · refine ⟨{ escapedBuilder with builder := b!"x", env := [(b!"name", b!"a\\x")] }, rfl, rfl,
      ({ escapedBuilder with builder := b!"x", env := [(b!"name", b!"a\\x")] } : DrvText).drv, by decide +kernel, ?_⟩
    exact ⟨(Derivation.write (DrvText.drv { escapedBuilder with builder := b!"x", env := [(b!"name", b!"a\\x")] }) ⟨[], none⟩).2.out,
      by decide +kernel, by decide +kernel⟩

theorem escaped_fixed {s : Bytes} (h : escaped s = s) : ∀ e ∈ escapes, e.1 ∉ s := by
  have hlen : ∀ c : UInt8, 1 ≤ (escapedChar c).length ∧ ((∃ e ∈ escapes, e.1 = c) → (escapedChar c).length = 2) := by
    intro c
    have key : ∀ n : Fin 256, 1 ≤ (escapedChar (UInt8.ofNat n)).length ∧
      ((∃ e ∈ escapes, e.1 = UInt8.ofNat n) → (escapedChar (UInt8.ofNat n)).length = 2) := by decide +kernel
    have := key ⟨c.toNat, c.toNat_lt⟩
    simpa using this
  have hge : ∀ s : Bytes, s.length ≤ (escaped s).length := by
    intro s
    induction s with
    | nil => simp
    | cons c s ih =>
      show _ ≤ (escapedChar c ++ escaped s).length
      have := (hlen c).1
      simp; omega
  intro e he hm
  obtain ⟨a, b, hab⟩ := List.append_of_mem hm
  have h1 : (escaped s).length = s.length := by rw [h]
  rw [hab] at h1
  have h2 : escaped (a ++ e.1 :: b) = escaped a ++ (escapedChar e.1 ++ escaped b) := by simp [escaped]
  rw [h2] at h1
  have := (hlen e.1).2 ⟨e, he, rfl⟩
  have := hge a
  have := hge b
  simp at h1
  omega

/-- C61, what holds: for a well-formed text that `ReadDerivation` accepts, `WriteDerivation` of the
result gives the text back exactly if platform and builder contain no character that needs escaping
and each environment value is the escaped form of some value. Missing: the other texts (refuted). -/
theorem C61_rewrite_partial (jsonName : Bytes → Res (Option Bytes)) (t : DrvText) (h : t.Closed) (d : Derivation)
    (hd : readDerivation jsonName ⟨t.text, .eof⟩ = .ok d) :
    d.write ⟨[], none⟩ = (.ok (), ⟨t.text, none⟩) ↔
      (∀ e ∈ escapes, e.1 ∉ t.platform) ∧ (∀ e ∈ escapes, e.1 ∉ t.builder) ∧ ∀ e ∈ t.env, ∃ v, e.2 = escaped v := by
  obtain ⟨⟨o1, o2, o3⟩, e1, e2, e3, e4, e5, e6, e7⟩ := C60_order jsonName t h d hd
  obtain ⟨cs, h1, h2⟩ := write_chunks d
  have lt : ∀ {l : List Bytes}, Increasing l → l.Pairwise (· < ·) := fun h => (List.pairwise_cons.1 h).2
  have ho : sortedEntries ⟨[], [], []⟩ d.outputs = d.outputs := sortedEntries_self _ (by
    rw [e1]
    have : GoMap.keys (t.outputs.map (fun o => (o.1, (⟨o.2.1, o.2.2.1, o.2.2.2⟩ : Output)))) = t.outputs.map (·.1) := by
      simp [GoMap.keys, Function.comp_def]
    rw [this]; exact lt o1)
  have hi : sortedEntries [] d.inputDerivations = d.inputDerivations := sortedEntries_self _ (by rw [e2]; exact lt o2)
  have he : sortedEntries [] d.env = d.env := sortedEntries_self _ (by
    rw [e3]
    have : GoMap.keys (t.env.map (fun e => (e.1, unescape e.2))) = t.env.map (·.1) := by
      simp [GoMap.keys, Function.comp_def]
    rw [this]; exact lt o3)
  have hpr : printed d false d.inputDerivations =
      { t with platform := escaped t.platform, builder := escaped t.builder,
               env := t.env.map fun e => (e.1, escaped (unescape e.2)) } := by
    unfold printed
    rw [ho, hi, he, e1, e2, e3, e4, e5, e6, e7]
    simp [Function.comp_def]
  have hw : d.write ⟨[], none⟩ = (.ok (), ⟨(printed d false d.inputDerivations).text, none⟩) := by
    unfold Derivation.write
    rw [h1]
    show writeChunks cs _ = _
    rw [writeChunks_none, h2]; rfl
  rw [hw, hpr]
  constructor
  · intro heq
    have ht := congrArg (fun p => p.2.out) heq
    simp only at ht
    have hc' : DrvText.Closed ⟨t.outputs, t.inputDrvs, t.inputSrcs, escaped t.platform, escaped t.builder, t.args,
        t.env.map fun e => (e.1, escaped (unescape e.2))⟩ := by
      refine ⟨h.outputs, h.inputDrvs, h.inputSrcs, closed_escaped _, closed_escaped _, h.args, ?_⟩
      intro e he
      obtain ⟨x, hx, rfl⟩ := List.mem_map.1 he
      exact ⟨(h.env x hx).1, closed_escaped _⟩
    have hte := text_inj hc' h ht
    refine ⟨escaped_fixed (congrArg DrvText.platform hte), escaped_fixed (congrArg DrvText.builder hte), ?_⟩
    have henv : (t.env.map fun e => (e.1, escaped (unescape e.2))) = t.env := congrArg DrvText.env hte
    intro e hmem
    rw [← henv] at hmem
    obtain ⟨x, _, rfl⟩ := List.mem_map.1 hmem
    exact ⟨_, rfl⟩
  · rintro ⟨hp, hb, hv⟩
    rw [escaped_plain hp, escaped_plain hb]
    have henv : (t.env.map fun e => (e.1, escaped (unescape e.2))) = t.env := by
      conv => rhs; rw [← List.map_id t.env]
      apply List.map_congr_left
      intro e hmem
      obtain ⟨v, hv⟩ := hv e hmem
      rw [hv, unescape_escaped, ← hv]; rfl
    rw [henv]

example : ∃ t : DrvText, t.Closed ∧ (∃ d, readDerivation (fun _ => .panic) ⟨t.text, .eof⟩ = .ok d) ∧
    ∀ e ∈ t.env, ∃ v, e.2 = escaped v := by
  refine ⟨printed sampleDrv false sampleDrv.inputDerivations, printed_closed sampleDrv_maps sampleDrv_raw.quotable _ sampleDrv_raw.inputDrvs
    sampleDrv_maps.inputDerivations false, ?_, ?_⟩
  · obtain ⟨b, d', h1, h2, _⟩ := C56_roundtrip (fun _ => .panic) sampleDrv sampleDrv_maps sampleDrv_valid sampleDrv_raw
      (fun j hj => absurd (List.mem_map.2 ⟨_, hj, rfl⟩) (show b!"__json" ∉ sampleDrv.env.keys by decide +kernel)) (fun _ => rfl)
    obtain ⟨t, hp, hw⟩ := C57_sorted sampleDrv sampleDrv_maps
    rw [hw []] at h1
    have : t = printed sampleDrv false sampleDrv.inputDerivations := prints_unique hp (printed_prints sampleDrv_maps)
    simp at h1
    exact ⟨d', by rw [← this, h1]; exact h2⟩
  · intro e he
    obtain ⟨x, _, rfl⟩ := List.mem_map.1 he
    exact ⟨_, rfl⟩

/-! ## C85 -/

theorem callEach_ne_panic {σ : Type} (f : σ → Bytes → Nat → Res σ) (hf : ∀ s v i, f s v i ≠ .panic) (l : List Bytes) :
    ∀ s i, callEach f s i l ≠ .panic := by
  induction l with
  | nil => intro s i; simp [callEach]
  | cons v l ih =>
    intro s i
    rw [callEach]
    exact res_bind_ne_panic (hf _ _ _) fun _ _ => ih _ _

theorem arrayItems_ne_panic (v : Bytes) : arrayItems v ≠ .panic := by
  unfold arrayItems
  repeat' split
  all_goals simp

theorem arrayEach_ne_panic {σ : Type} (f : σ → Bytes → Nat → Res σ) (hf : ∀ s v i, f s v i ≠ .panic) (v : Bytes) (s : σ) :
    arrayEach v s f ≠ .panic :=
  res_bind_ne_panic (arrayItems_ne_panic v) fun _ _ => callEach_ne_panic f hf _ _ _

theorem unquoteSlice_ne_panic (b : Bytes) : unquoteSlice b ≠ .panic := by
  unfold unquoteSlice
  repeat' split
  all_goals simp

theorem unquote_ne_panic (b : Bytes) : unquote b ≠ .panic := by
  unfold unquote
  refine res_bind_ne_panic (unquoteSlice_ne_panic b) fun _ _ => ?_
  split <;> simp

theorem stringList_ne_panic (v : Bytes) : stringList v ≠ .panic :=
  arrayEach_ne_panic _ (fun _ v _ => res_bind_ne_panic (unquoteSlice_ne_panic v) fun _ _ => by simp) _ _

theorem fields_ne_panic (b : Bytes) : arrayEach b emptyDrv drvField ≠ .panic := by
  refine arrayEach_ne_panic _ (fun d v i => ?_) _ _
  have he : ∀ {α : Type} {c : Bool} {e : Err} {a : α}, (if c then Res.err e else .ok a) ≠ .panic := by
    intro α c e a; cases c <;> simp
  unfold drvField
  split
  · refine res_bind_ne_panic (arrayEach_ne_panic _ (fun s v i => ?_) _ _) fun _ _ => by simp
    unfold outputItem
    refine res_bind_ne_panic (arrayEach_ne_panic _ (fun x v i => ?_) _ _) fun _ _ => by split <;> simp
    unfold outputField
    repeat' split
    all_goals first
      | (exact res_bind_ne_panic (unquoteSlice_ne_panic _) fun _ _ => he)
      | (exact res_bind_ne_panic (unquoteSlice_ne_panic _) fun _ _ => by simp)
      | simp
  split
  · refine res_bind_ne_panic (arrayEach_ne_panic _ (fun s v i => ?_) _ _) fun _ _ => by simp
    unfold inputDrvItem
    refine res_bind_ne_panic (arrayEach_ne_panic _ (fun x v i => ?_) _ _) fun _ _ => by simp
    unfold inputDrvField
    repeat' split
    all_goals first
      | (exact res_bind_ne_panic (unquoteSlice_ne_panic _) fun _ _ => he)
      | (exact res_bind_ne_panic (stringList_ne_panic _) fun _ _ => by simp)
      | simp
  split
  · exact res_bind_ne_panic (stringList_ne_panic _) fun _ _ => by simp
  split
  · exact res_bind_ne_panic (unquoteSlice_ne_panic _) fun _ _ => by simp
  split
  · exact res_bind_ne_panic (unquoteSlice_ne_panic _) fun _ _ => by simp
  split
  · exact res_bind_ne_panic (stringList_ne_panic _) fun _ _ => by simp
  split
  · refine res_bind_ne_panic (arrayEach_ne_panic _ (fun s v i => ?_) _ _) fun _ _ => by simp
    unfold envItem
    refine res_bind_ne_panic (arrayEach_ne_panic _ (fun x v i => ?_) _ _) fun _ _ => by simp
    unfold envField
    repeat' split
    all_goals first
      | (exact res_bind_ne_panic (unquoteSlice_ne_panic _) fun _ _ => he)
      | (exact res_bind_ne_panic (unquote_ne_panic _) fun _ _ => by simp)
      | simp
  · simp

/-- A derivation whose structured attributes are `null`. -/
def nullAttrs : DrvText where
  outputs := [(b!"out", b!"/nix/store/7bb7asrn3rmnlmzr1cwyhyq9bk1iqrcq-x", [], [])]
  inputDrvs := []
  inputSrcs := []
  platform := b!"x"
  builder := b!"x"
  args := []
  env := [(b!"__json", b!"null"), (b!"name", b!"x")]

/-- C85 is false as stated: `encoding/json` decodes `null` by setting the pointer it is given to nil, and the
parser then reads a field through that pointer. A file in the store can make `ReadDerivation` panic. -/
theorem C85_refuted (jsonName : Bytes → Res (Option Bytes)) (hnull : jsonName b!"null" = .ok none) :
    readDerivation jsonName ⟨nullAttrs.text, .eof⟩ = .panic := by
  have h1 : arrayEach (nullAttrs.text.drop 6) emptyDrv drvField = .ok nullAttrs.drv := by decide +kernel
  unfold readDerivation parseDerivation
  rw [if_neg (by simp), if_neg (by decide +kernel), if_neg (by decide +kernel)]
  simp only
  rw [h1, Res.bind_ok]
  have h2 : nullAttrs.drv.env.get? b!"__json" = some b!"null" := by decide +kernel
  rw [h2]
  simp only
  rw [hnull]
  rfl

/-- C85, what holds: that is the only way to make it panic. `ReadDerivation` panics exactly on the texts that
parse (up to the structured attributes, whose name is irrelevant here) and have an environment variable
`__json` that JSON decodes to a nil pointer. Missing: those (refuted). `hj`: `json.Unmarshal` itself does not
panic. -/
theorem C85_read_no_panic_partial (jsonName : Bytes → Res (Option Bytes)) (hj : ∀ j, jsonName j ≠ .panic) (s : Stream) :
    readDerivation jsonName s = .panic ↔ s.term = .eof ∧ ∃ d j, parseDerivation (fun _ => .ok (some [])) s.data = .ok d ∧
      d.env.get? b!"__json" = some j ∧ jsonName j = .ok none := by
  unfold readDerivation
  by_cases ht : s.term = .eof
  case neg => rw [if_pos ht]; simp [ht]
  rw [if_neg (by simp [ht])]
  simp only [ht, true_and]
  unfold parseDerivation
  by_cases h8 : s.data.length < 8
  · rw [if_pos h8, if_pos h8]; simp
  rw [if_neg h8, if_neg h8]
  by_cases hp : s.data.take 6 ≠ b!"Derive"
  · rw [if_pos hp, if_pos hp]; simp
  rw [if_neg hp, if_neg hp]
  cases ha : arrayEach (s.data.drop 6) emptyDrv drvField with
  | panic => exact absurd ha (fields_ne_panic _)
  | err e => simp
  | ok d =>
    rw [Res.bind_ok, Res.bind_ok]
    have hv : ∀ d : Derivation, (d.validate >>= fun _ => Res.ok d) ≠ .panic :=
      fun d => res_bind_ne_panic (validate_ne_panic d) fun _ _ => by simp
    cases hg : d.env.get? b!"__json" with
    | none =>
      simp only [Res.bind_ok]
      refine ⟨fun h => absurd h (hv d), ?_⟩
      rintro ⟨d', j, h1, h2, _⟩
      cases Res.ok.inj h1
      rw [hg] at h2; cases h2
    | some j =>
      simp only
      have hr : (attrsName (.ok (some [])) >>= fun n => Res.ok { d with name := n }) = .ok { d with name := [] } := rfl
      rw [hr]
      cases hn : jsonName j with
      | panic => exact absurd hn (hj j)
      | err e =>
        refine ⟨(by intro h; cases h), ?_⟩
        rintro ⟨d', j', h1, h2, h3⟩
        cases Res.ok.inj h1
        rw [hg] at h2; cases h2
        rw [hn] at h3; cases h3
      | ok o =>
        cases o with
        | none => exact ⟨fun _ => ⟨_, j, rfl, hg, hn⟩, fun _ => rfl⟩
        | some n =>
          refine ⟨fun h => absurd h (hv { d with name := n }), ?_⟩
          rintro ⟨d', j', h1, h2, h3⟩
          cases Res.ok.inj h1
          rw [hg] at h2; cases h2
          rw [hn] at h3; cases h3

end Verif.Props
