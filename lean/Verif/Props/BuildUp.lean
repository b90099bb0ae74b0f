import Verif.Spec.BuildUp
import Verif.Props.Complete

/-!
# A program that makes a graph of derivations from the bottom up (C164)
-/

namespace Verif.Props
open Verif.GoLib Verif.Spec Verif.Derivation Verif.Store Verif.Storepath Verif.Nixhash

theorem history_snoc (H : Bytes → Bytes) (ds : List Derivation) (d : Derivation) :
    ∀ ms, (MapStore.history H ms (ds ++ [d])).2 = (MapStore.put H d (MapStore.history H ms ds).2).2 := by
  induction ds with
  | nil => intro ms; rfl
  | cons e ds ih => intro ms; exact ih _

theorem buildUp_snoc (H : Bytes → Bytes) (fs : List (List (Bytes × Derivation) → Derivation)) (f : List (Bytes × Derivation) → Derivation) :
    ∀ b b', buildUp H fs b = .ok b' → buildUp H (fs ++ [f]) b = buildNext H (f b'.built) b' := by
  induction fs with
  | nil =>
    intro b b' h
    cases h
    show (match buildNext H (f b.built) b with | .ok b' => Res.ok b' | .err e => .err e | .panic => .panic) = _
    cases buildNext H (f b.built) b <;> rfl
  | cons g fs ih =>
    intro b b' h
    simp only [List.cons_append, buildUp] at h ⊢
    cases hg : buildNext H (g b.built) b with
    | err e => rw [hg] at h; cases h
    | panic => rw [hg] at h; cases h
    | ok c => rw [hg] at h; exact ih c b' h

/-- What holds of the program between two derivations. -/
structure BInv (H : Bytes → Bytes) (b : Builder) : Prop where
  history : ∃ ds, b.store = (MapStore.history H newMapStore ds).2
  repl : b.repl = b.store.drvReplacements
  valid : ∀ e ∈ b.built, e.2.validate = .ok () ∧ drvPath H e.2 = .ok e.1
  got : ∀ e ∈ b.built, ∃ d, (e.1, d) ∈ b.built ∧ b.store.get e.1 = .ok d
  only : ∀ p, b.store.has p = .ok true → ∃ d, (p, d) ∈ b.built

theorem buildNext_ok (H : Bytes → Bytes) (d : Derivation) (b : Builder) (hb : BInv H b) (hd : Buildable d b.built) :
    ∃ m p b', calculateOutputPaths H d b.repl = .ok m ∧ buildNext H d b = .ok b' ∧ b'.built = b.built ++ [(p, completed d m)] ∧ BInv H b' := by
  obtain ⟨ds, hst⟩ := hb.history
  have hin : ∀ i ∈ d.inputDerivations, (MapStore.history H newMapStore ds).2.has i.1 = .ok true := by
    intro i hi
    obtain ⟨full, hf⟩ := hd.inputs i hi
    obtain ⟨x, _, hx⟩ := hb.got _ hf
    rw [← hst]
    unfold MapStore.get at hx
    unfold MapStore.has
    cases h : b.store.drvs.get? i.1 with
    | none => rw [h] at hx; cases hx
    | some y => rfl
  obtain ⟨m, p, h1, h2, h3, _⟩ := C163_put H ds d hd.maps (fun h => by
      obtain ⟨o, ho, e⟩ := List.mem_map.1 h
      exact (hd.outputs o ho).2 e) hd.named hd.name (fun o ho => (hd.outputs o ho).1) hd.valid hin
  have hmc : Maps (completed d m) := by
    refine ⟨?_, hd.maps.inputDerivations, ?_⟩
    · have : (completed d m).outputs.keys = d.outputs.keys := by simp [completed, withOutputs, GoMap.keys]
      rw [this]; exact hd.maps.outputs
    · have : (completed d m).env.keys = d.env.keys := by simp [completed, withOutputs, GoMap.keys]
      rw [this]; exact hd.maps.env
  rw [← hst] at h1 h2 h3
  have hinv : MInv b.store := by rw [hst]; exact history_inv H ds _ mInv_new
  have hput := (C67_put_iff H ds (completed d m) hmc p).1 (by rw [← hst]; exact h2)
  rcases put_cases H hinv (completed d m) with ⟨q, r, _, h4, h5⟩ | ⟨_, h4, _⟩
  · have hq : q = p := by rw [h5] at h2; cases h2; rfl
    subst hq
    refine ⟨m, q, ⟨b.repl.insert q r, b.built ++ [(q, completed d m)], (MapStore.put H (completed d m) b.store).2⟩, by rw [hb.repl]; exact h1,
      ?_, rfl, ?_⟩
    · unfold buildNext
      rw [hb.repl, h1]
      simp only [Res.bind_ok, h2, h4]
    · refine ⟨⟨ds ++ [completed d m], by rw [history_snoc, ← hst]⟩, by rw [h5, hb.repl], ?_, ?_, ?_⟩
      · intro e he
        rcases List.mem_append.1 he with he | he
        · exact hb.valid e he
        · rw [List.mem_singleton.1 he]
          exact ⟨hput.1, hput.2.2.2⟩
      · intro e he
        by_cases hq : e.1 = q
        · refine ⟨completed d m, ?_, by rw [hq]; exact h3⟩
          rw [hq]; exact List.mem_append_right _ (List.mem_singleton.2 rfl)
        · have he' : e ∈ b.built := by
            rcases List.mem_append.1 he with he | he
            · exact he
            · rw [List.mem_singleton.1 he] at hq; exact absurd rfl hq
          obtain ⟨x, hx1, hx2⟩ := hb.got e he'
          refine ⟨x, List.mem_append_left _ hx1, ?_⟩
          rw [h5]
          unfold MapStore.get at hx2 ⊢
          simp only [GoMap.get?_insert, if_neg (Ne.symm hq)]
          exact hx2
      · intro p' hp'
        rw [h5] at hp'
        by_cases hq : p' = q
        · subst hq; exact ⟨_, List.mem_append_right _ (List.mem_singleton.2 rfl)⟩
        · obtain ⟨x, hx⟩ := hb.only p' (by
            unfold MapStore.has at hp' ⊢
            simp only [GoMap.get?_insert, if_neg (Ne.symm hq)] at hp'
            exact hp')
          exact ⟨x, List.mem_append_left _ hx⟩
  · exact absurd h2 (h4 p)

/-- C164: a program that makes derivations from the bottom up, each in any way from those before, calculates and fills in their output
paths with the replacement strings that it has calculated itself and puts them in a new store, never fails, if nothing else is wrong with
the derivations; the store then contains exactly these derivations, valid, under their paths. -/
theorem C164_build (H : Bytes → Bytes) (fs : List (List (Bytes × Derivation) → Derivation))
    (hf : ∀ pre f post, fs = pre ++ f :: post → ∀ b, buildUp H pre ⟨[], [], newMapStore⟩ = .ok b → Buildable (f b.built) b.built) :
    ∃ b, buildUp H fs ⟨[], [], newMapStore⟩ = .ok b ∧ b.built.length = fs.length ∧
      (∀ e ∈ b.built, e.2.validate = .ok () ∧ drvPath H e.2 = .ok e.1) ∧
      (∀ p, b.store.has p = .ok true ↔ ∃ d, (p, d) ∈ b.built) ∧
      (∀ e ∈ b.built, (∀ d, (e.1, d) ∈ b.built → d = e.2) → b.store.get e.1 = .ok e.2) ∧
      (∀ p d, b.store.get p = .ok d → (p, d) ∈ b.built) := by
  have key : ∃ b, buildUp H fs ⟨[], [], newMapStore⟩ = .ok b ∧ b.built.length = fs.length ∧ BInv H b := by
    have gen : ∀ pre post, fs = pre ++ post → ∃ b, buildUp H pre ⟨[], [], newMapStore⟩ = .ok b ∧ b.built.length = pre.length ∧ BInv H b := by
      intro pre
      induction h : pre.length generalizing pre with
      | zero =>
        intro post _
        have : pre = [] := List.length_eq_zero_iff.1 h
        subst this
        exact ⟨_, rfl, rfl, ⟨⟨[], rfl⟩, rfl, by simp, by simp, by intro p hp; simp [MapStore.has, newMapStore, GoMap.get?] at hp⟩⟩
      | succ n ih =>
        intro post e
        obtain ⟨pre', f, rfl⟩ : ∃ pre' f, pre = pre' ++ [f] :=
          ⟨pre.dropLast, pre.getLast (by rintro rfl; simp at h), (List.dropLast_concat_getLast _).symm⟩
        obtain ⟨b, h1, h2, h3⟩ := ih pre' (by simpa using h) (f :: post) (by simpa using e)
        obtain ⟨m, p, b', _, h4, h5, h6⟩ := buildNext_ok H _ b h3 (hf pre' f post (by simpa using e) b h1)
        exact ⟨b', by rw [buildUp_snoc H pre' f _ b h1, h4], by rw [h5]; simp [h2], h6⟩
    exact gen fs [] (by simp)
  obtain ⟨b, h1, h2, h3⟩ := key
  refine ⟨b, h1, h2, h3.valid, fun p => ⟨h3.only p, ?_⟩, ?_, ?_⟩
  · rintro ⟨d, hd⟩
    obtain ⟨x, _, hx⟩ := h3.got _ hd
    unfold MapStore.get at hx
    unfold MapStore.has
    cases h : b.store.drvs.get? p with
    | none => simp only [h] at hx; cases hx
    | some y => rfl
  · intro e he hu
    obtain ⟨x, h4, h5⟩ := h3.got e he
    rw [hu x h4] at h5
    exact h5
  · intro p d hp
    have hh : b.store.has p = .ok true := by
      unfold MapStore.get at hp
      unfold MapStore.has
      cases h : b.store.drvs.get? p with
      | none => rw [h] at hp; cases hp
      | some y => rfl
    obtain ⟨x, hx⟩ := h3.only p hh
    obtain ⟨y, h4, h5⟩ := h3.got _ hx
    rw [hp] at h5
    cases h5
    exact h4

/-- A toy derivation that uses the output `dev` of all derivations before. -/
def unfinishedUser (paths : List Bytes) : Derivation :=
  ⟨[], [(b!"out", ⟨[], [], []⟩)], [], paths.map fun p => (p, [b!"dev"]), b!"x86_64-linux", b!"/bin/sh", [b!"-c"],
    [(b!"name", b!"user"), (b!"out", [])]⟩

theorem two_built (b : Builder) (h : buildUp zeroHash [fun _ => unfinished] ⟨[], [], newMapStore⟩ = .ok b) :
    b.built.map (·.1) = [b!"/nix/store/" ++ dHash ++ b!"-hello.drv"] := by
  have e : (match buildUp zeroHash [fun _ => unfinished] ⟨[], [], newMapStore⟩ with
      | .ok b => b.built.map (·.1)
      | _ => []) = [b!"/nix/store/" ++ dHash ++ b!"-hello.drv"] := by decide +kernel
  rw [h] at e
  exact e

example := C164_build zeroHash [fun _ => unfinished, fun built => unfinishedUser (built.map (·.1))] (by
  intro pre f post h b hb
  have first : Buildable unfinished [] :=
    ⟨unfinished_ok.1, by decide, by decide, by decide, unfinished_ok.2.2.2.2.2, by simp [unfinished]⟩
  match pre, h with
  | [], h =>
    cases h
    cases hb
    exact first
  | [g], h =>
    cases h
    have e := two_built b hb
    show Buildable (unfinishedUser (b.built.map (·.1))) _
    rw [e]
    refine ⟨⟨by decide, by decide, by decide⟩, by decide, by decide, by decide,
      ⟨fun _ => b!"/nix/store/" ++ dHash ++ b!"-user", fun _ => [], by decide +kernel⟩, ?_⟩
    intro i hi
    rw [List.mem_singleton.1 hi]
    obtain ⟨x, hx, hp⟩ := List.mem_map.1 (show b!"/nix/store/" ++ dHash ++ b!"-hello.drv" ∈ b.built.map (·.1) by rw [e]; simp)
    exact ⟨x.2, by rw [← hp]; exact hx⟩
  | _ :: _ :: pre, h =>
    simp at h)

end Verif.Props
