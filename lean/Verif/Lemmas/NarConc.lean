import Verif.Model.NarConc
import Verif.Lemmas.NarReader

/-! # The processes of `pkg/nar` compute what the sequential models compute -/

namespace Verif.Nar
open Verif.GoLib Verif.Wire Verif.Conc

/-! ## The parser -/

theorem denote_rdP {α : Type} (m : M Stream α) : (rdP m).denote = (rd m).run := rfl
theorem denote_setContentP (n : Nat) : (setContentP n).denote = (setContent n).run := rfl
theorem denote_closeContentP : closeContentP.denote = closeContent.run := rfl

theorem denote_bind_eq {σ Y I α β : Type} {p : Prog σ Y I α} {m : Coro σ Y I α} {f : α → Prog σ Y I β} {g : α → Coro σ Y I β}
    (h : p.denote = m.run) (hf : ∀ a, (f a).denote = (g a).run) : (p >>= f).denote = (m >>= g).run := by
  funext s
  rw [Prog.denote_bind, h, Coro.run_bind]
  refine congrArg _ ?_
  funext a s'
  rw [hf a]

theorem denote_ite {σ Y I α : Type} {c : Prop} [Decidable c] {p q : Prog σ Y I α} {m n : Coro σ Y I α}
    (h : p.denote = m.run) (h' : q.denote = n.run) : (if c then p else q).denote = (if c then m else n).run := by
  split
  · exact h
  · exact h'

theorem denote_expectCloseP (tok : Bytes) : (expectCloseP tok).denote = (expectClose tok).run := by
  unfold expectCloseP expectClose
  exact denote_ite rfl rfl

theorem denote_parseContentsP (p : Bytes) (x : Bool) (tok : Bytes) : (parseContentsP p x tok).denote = (parseContents p x tok).run := by
  unfold parseContentsP parseContents
  refine denote_ite rfl (denote_bind_eq rfl fun n => denote_ite rfl (denote_bind_eq rfl fun _ => denote_bind_eq rfl fun next => denote_ite rfl ?_))
  exact denote_bind_eq rfl fun _ => denote_bind_eq rfl fun tok => denote_expectCloseP tok

theorem denote_parseRegularP (p : Bytes) : (parseRegularP p).denote = (parseRegular p).run := by
  unfold parseRegularP parseRegular
  refine denote_bind_eq rfl fun tok => denote_ite ?_ (denote_parseContentsP _ _ _)
  exact denote_bind_eq rfl fun _ => denote_bind_eq rfl fun tok => denote_parseContentsP _ _ _

theorem denote_parseSymlinkP (p : Bytes) : (parseSymlinkP p).denote = (parseSymlink p).run := by
  unfold parseSymlinkP parseSymlink
  refine denote_bind_eq rfl fun _ => denote_bind_eq rfl fun tgt => denote_bind_eq rfl fun _ => denote_bind_eq rfl fun next => denote_ite rfl ?_
  exact denote_bind_eq rfl fun tok => denote_expectCloseP tok

theorem denote_parse (fuel : Nat) :
    (∀ p, (parseNodeP fuel p).denote = (parseNode fuel p).run) ∧ ∀ p, (parseEntriesP fuel p).denote = (parseEntries fuel p).run := by
  induction fuel with
  | zero => exact ⟨fun p => by unfold parseNodeP parseNode; rfl, fun p => by unfold parseEntriesP parseEntries; rfl⟩
  | succ fuel ih =>
    constructor
    · intro p
      unfold parseNodeP parseNode
      refine denote_bind_eq rfl fun _ => denote_bind_eq rfl fun _ => denote_bind_eq rfl fun tok => denote_ite (denote_parseRegularP p)
        (denote_ite (denote_parseSymlinkP p) (denote_ite ?_ (denote_expectCloseP tok)))
      exact denote_bind_eq rfl fun _ => denote_bind_eq rfl fun next => denote_ite rfl (ih.2 p)
    · intro p
      unfold parseEntriesP parseEntries
      refine denote_bind_eq rfl fun tok => denote_ite ?_ (denote_ite rfl (ih.2 p))
      refine denote_bind_eq rfl fun _ => denote_bind_eq rfl fun _ => denote_bind_eq rfl fun name => denote_ite rfl ?_
      exact denote_bind_eq rfl fun _ => denote_bind_eq (ih.1 _) fun _ => denote_bind_eq rfl fun _ => denote_ite rfl (ih.2 p)

/-! ## The parser does not panic -/

theorem noPanic_rdP {α : Type} {m : M Stream α} (h : ∀ s, (m s).1 ≠ .panic) : (rdP m).NoPanic :=
  Prog.noPanic_lift fun s => h s.stream

theorem noPanic_ite {σ Y I α : Type} {c : Prop} [Decidable c] {p q : Prog σ Y I α} (h : p.NoPanic) (h' : q.NoPanic) :
    (if c then p else q).NoPanic := by
  split
  · exact h
  · exact h'

theorem noPanic_pure {σ Y I α : Type} (a : α) : (pure a : Prog σ Y I α).NoPanic := fun h => nomatch h
theorem noPanic_fail {σ Y I α : Type} (e : Err) : (Prog.fail e : Prog σ Y I α).NoPanic := fun h => nomatch h
theorem noPanic_hand {σ Y I : Type} (y : Y) : (Prog.hand y : Prog σ Y I I).NoPanic := fun _ h => nomatch h
theorem noPanic_setContentP (n : Nat) : (setContentP n).NoPanic := fun _ h => nomatch h
theorem noPanic_closeContentP : closeContentP.NoPanic := fun s => (fwd_bytesReaderClose s.rem s.len).noPanic s.stream
theorem noPanic_token (n : Nat) (h : n < 2 ^ 63) : (rdP (readString n)).NoPanic := noPanic_rdP (fwd_readString n h).noPanic
theorem noPanic_expect (e : Bytes) (h : e.length < 2 ^ 63) : (rdP (expectString e)).NoPanic := noPanic_rdP (fwd_expectString e h).noPanic

theorem noPanic_expectCloseP (tok : Bytes) : (expectCloseP tok).NoPanic := noPanic_ite (noPanic_pure _) (noPanic_fail _)

open Prog in
theorem noPanic_parseContentsP (p : Bytes) (x : Bool) (tok : Bytes) : (parseContentsP p x tok).NoPanic := by
  refine noPanic_ite (noPanic_fail _) (noPanic_bind (noPanic_rdP fwd_readUint64.noPanic) fun n => noPanic_ite (noPanic_fail _)
    (noPanic_bind (noPanic_setContentP n) fun _ => noPanic_bind (noPanic_hand _) fun next => noPanic_ite (noPanic_pure _) ?_))
  exact noPanic_bind noPanic_closeContentP fun _ => noPanic_bind (noPanic_token _ (by decide)) fun tok => noPanic_expectCloseP tok

open Prog in
theorem noPanic_parseRegularP (p : Bytes) : (parseRegularP p).NoPanic := by
  refine noPanic_bind (noPanic_token _ (by decide)) fun tok => noPanic_ite ?_ (noPanic_parseContentsP _ _ _)
  exact noPanic_bind (noPanic_rdP fwd_readPlaceholder.noPanic) fun _ => noPanic_bind (noPanic_token _ (by decide)) fun tok =>
    noPanic_parseContentsP _ _ _

open Prog in
theorem noPanic_parseSymlinkP (p : Bytes) : (parseSymlinkP p).NoPanic := by
  refine noPanic_bind (noPanic_expect _ (by decide)) fun _ => noPanic_bind (noPanic_token _ (by decide)) fun tgt =>
    noPanic_bind (noPanic_setContentP 0) fun _ => noPanic_bind (noPanic_hand _) fun next => noPanic_ite (noPanic_pure _) ?_
  exact noPanic_bind (noPanic_token _ (by decide)) fun tok => noPanic_expectCloseP tok

open Prog in
theorem noPanic_parse (fuel : Nat) : (∀ p, (parseNodeP fuel p).NoPanic) ∧ ∀ p, (parseEntriesP fuel p).NoPanic := by
  induction fuel with
  | zero => exact ⟨fun p => by unfold parseNodeP; exact noPanic_fail _, fun p => by unfold parseEntriesP; exact noPanic_fail _⟩
  | succ fuel ih =>
    constructor
    · intro p
      unfold parseNodeP
      refine noPanic_bind (noPanic_expect _ (by decide)) fun _ => noPanic_bind (noPanic_expect _ (by decide)) fun _ =>
        noPanic_bind (noPanic_token _ (by decide)) fun tok => noPanic_ite (noPanic_parseRegularP p)
        (noPanic_ite (noPanic_parseSymlinkP p) (noPanic_ite ?_ (noPanic_expectCloseP tok)))
      exact noPanic_bind (noPanic_setContentP 0) fun _ => noPanic_bind (noPanic_hand _) fun next => noPanic_ite (noPanic_pure _) (ih.2 p)
    · intro p
      unfold parseEntriesP
      refine noPanic_bind (noPanic_token _ (by decide)) fun tok => noPanic_ite ?_ (noPanic_ite (noPanic_pure _) (ih.2 p))
      refine noPanic_bind (noPanic_expect _ (by decide)) fun _ => noPanic_bind (noPanic_expect _ (by decide)) fun _ =>
        noPanic_bind (noPanic_token _ (by decide)) fun name => noPanic_ite (noPanic_fail _) ?_
      exact noPanic_bind (noPanic_expect _ (by decide)) fun _ => noPanic_bind (ih.1 _) fun _ =>
        noPanic_bind (noPanic_expect _ (by decide)) fun _ => noPanic_ite (noPanic_pure _) (ih.2 p)

/-! ## The writer -/

/-- A goroutine program that does what `m` does. -/
def Lifts {α : Type} (p : WProg α) (m : M WState α) : Prop := ∀ s, p.denote s = .done (m s).1 (m s).2

theorem lifts_lift {α : Type} (m : M WState α) : Lifts (Prog.lift m) m := fun _ => rfl
theorem lifts_wrP {α : Type} (m : M Sink α) : Lifts (wrP m) (wr m) := fun _ => rfl
theorem lifts_pure {α : Type} (a : α) : Lifts (pure a) (pure a) := fun _ => rfl

theorem lifts_bind {α β : Type} {p : WProg α} {m : M WState α} {f : α → WProg β} {g : α → M WState β} (h : Lifts p m) (hf : ∀ a, Lifts (f a) (g a)) :
    Lifts (p >>= f) (m >>= g) := by
  intro s
  rw [Prog.denote_bind, h s]
  show _ = Step.done (M.bind m g s).1 (M.bind m g s).2
  unfold M.bind
  rcases m s with ⟨_ | _ | _, s'⟩
  · exact hf _ s'
  · rfl
  · rfl

theorem lifts_ite {α : Type} {c : Prop} [Decidable c] {p q : WProg α} {m n : M WState α} (h : Lifts p m) (h' : Lifts q n) :
    Lifts (if c then p else q) (if c then m else n) := by
  split
  · exact h
  · exact h'

theorem lifts_emitStartP (h : Header) : Lifts (emitStartP h) (emitStart h) := by
  unfold emitStartP emitStart
  refine lifts_bind (lifts_wrP _) fun _ => lifts_bind (lifts_wrP _) fun _ => lifts_bind (lifts_wrP _) fun _ => lifts_ite (lifts_ite ?_ ?_) (lifts_ite ?_ (lifts_ite ?_ ?_))
  · exact lifts_bind (lifts_wrP _) fun _ => lifts_bind (lifts_wrP _) fun _ => lifts_bind (lifts_wrP _) fun _ => lifts_lift _
  · exact lifts_bind (lifts_wrP _) fun _ => lifts_lift _
  · exact lifts_bind (lifts_wrP _) fun _ => lifts_bind (lifts_wrP _) fun _ => lifts_lift _
  · exact lifts_lift _
  · exact lifts_pure _

theorem lifts_entryStartP (name : Bytes) : Lifts (entryStartP name) (entryStart name) :=
  lifts_bind (lifts_wrP _) fun _ => lifts_bind (lifts_wrP _) fun _ => lifts_bind (lifts_wrP _) fun _ => lifts_bind (lifts_wrP _) fun _ => lifts_wrP _

/-- The error the goroutine reports when `emitNode` returns. -/
def reports : Res (Option Header) → Option Err
  | .ok none => none
  | .ok (some _) => some (.msg "additional header detected")
  | .err e => some e
  | .panic => none

/-- What the goroutine did with the closing of `headers`, compared with the sequential model. -/
def ClosesAs (r : Res Unit × WState) (st : Step WState Unit (Option Header) (Option Header)) : Prop :=
  match r with
  | (.ok (), s) => st = .done (.ok none) s
  | (.err e, s) => ∃ y, st = .done y s ∧ reports y = some e
  | (.panic, s) => st = .done .panic s

/-- What it did with a header. -/
def PutsAs (B : List Header → (Option Header → WState → Step WState Unit (Option Header) (Option Header)) → Prop)
    (r : Res (List Header) × WState) (st : Step WState Unit (Option Header) (Option Header)) : Prop :=
  match r with
  | (.ok stack, s) => ∃ K, st = .yield () s K ∧ B stack K
  | (.err e, s) => ∃ y, st = .done y s ∧ reports y = some e
  | (.panic, s) => st = .done .panic s

/-- A goroutine that waits for a header and continues with `K` behaves, for the next `m` headers, as the sequential model with these activations. -/
def Behaves : Nat → List Header → (Option Header → WState → Step WState Unit (Option Header) (Option Header)) → Prop
  | 0, stack, K => ∀ s, ClosesAs (emitClose (.running stack) s) (K none s)
  | m + 1, stack, K => (∀ s, ClosesAs (emitClose (.running stack) s) (K none s)) ∧
      ∀ h s, PutsAs (Behaves m) (emitHeader h (.running stack) s) (K (some h) s)

theorem behaves_close {m : Nat} {stack : List Header} {K} (h : Behaves m stack K) (s : WState) : ClosesAs (emitClose (.running stack) s) (K none s) := by
  cases m with
  | zero => exact h s
  | succ m => exact h.1 s

theorem putsAs_done {B r y s} (h : PutsAs B r (.done y s)) :
    (∃ e, r = (.err e, s) ∧ reports y = some e) ∨ (r = (.panic, s) ∧ y = .panic) := by
  obtain ⟨_ | e | _, s'⟩ := r
  · obtain ⟨K, hK, _⟩ := h; cases hK
  · obtain ⟨y', hy, hr⟩ := h; cases hy; exact .inl ⟨e, rfl, hr⟩
  · cases h; exact .inr ⟨rfl, rfl⟩

theorem putsAs_yield {B r u s K} (h : PutsAs B r (.yield u s K)) : ∃ stack, r = (.ok stack, s) ∧ B stack K := by
  obtain ⟨stack | e | _, s'⟩ := r
  · obtain ⟨K', hK, hB⟩ := h; cases hK; exact ⟨stack, rfl, hB⟩
  · obtain ⟨y', hy, hr⟩ := h; cases hy
  · cases h

theorem closesAs_done {r y s} (h : ClosesAs r (.done y s)) :
    (r = (.ok (), s) ∧ y = .ok none) ∨ (∃ e, r = (.err e, s) ∧ reports y = some e) ∨ (r = (.panic, s) ∧ y = .panic) := by
  obtain ⟨_ | e | _, s'⟩ := r
  · cases h; exact .inl ⟨rfl, rfl⟩
  · obtain ⟨y', hy, hr⟩ := h; cases hy; exact .inr (.inl ⟨e, rfl, hr⟩)
  · cases h; exact .inr (.inr ⟨rfl, rfl⟩)

theorem closesAs_yield {r u s K} (h : ClosesAs r (.yield u s K)) : False := by
  obtain ⟨_ | e | _, s'⟩ := r
  · cases h
  · obtain ⟨y', hy, hr⟩ := h; cases hy
  · cases h

/-- What the callers of an activation do with the header it returns. -/
def outer : List (Nat × Header) → Option Header → WProg (Option Header)
  | [], x => pure x
  | (f, c) :: rest, x => do
    wrP (writeString b!")")
    let y ← emitLoopP f c x
    outer rest y

/-- What the innermost activation does with what it receives, and its callers. -/
def inner : List (Nat × Header) → Option Header → WProg (Option Header)
  | [], x => pure x
  | (f, c) :: rest, x => do
    Prog.lift contentClose
    let y ← emitLoopP f c x
    outer rest y

theorem emitLoopP_none {f : Nat} (hf : 0 < f) (c : Header) :
    emitLoopP f c none = (do wrP (writeString b!")"); pure none) := by
  cases f with
  | zero => cases hf
  | succ f => rfl

/-- The closing parentheses of all activations. -/
theorem unwind_outer (f : Nat) (c : Header) (rest : List (Nat × Header)) (hf : 0 < f) (hr : ∀ x ∈ rest, 0 < x.1) (s : WState) :
    ClosesAs (unwind (c :: rest.map (·.2)) s) ((emitLoopP f c none >>= outer rest).denote s) := by
  induction rest generalizing f c s with
  | nil =>
    rw [emitLoopP_none hf, Prog.denote_bind, Prog.denote_bind, lifts_wrP]
    show ClosesAs (M.bind (wr (writeString b!")")) (fun _ => pure ()) s) _
    unfold M.bind
    rcases wr (writeString b!")") s with ⟨_ | _ | _, s'⟩
    · rfl
    · exact ⟨_, rfl, rfl⟩
    · rfl
  | cons x rest ih =>
    obtain ⟨f', c'⟩ := x
    rw [emitLoopP_none hf, Prog.denote_bind, Prog.denote_bind, lifts_wrP]
    show ClosesAs (M.bind (wr (writeString b!")")) (fun _ => M.bind (wr (writeString b!")")) fun _ => unwind (c' :: rest.map (·.2))) s) _
    unfold M.bind
    rcases wr (writeString b!")") s with ⟨_ | _ | _, s'⟩
    · simp only [Step.bind_done_ok, Prog.denote_pure]
      show ClosesAs _ ((outer ((f', c') :: rest) none).denote s')
      unfold outer
      rw [Prog.denote_bind, lifts_wrP]
      rcases wr (writeString b!")") s' with ⟨_ | _ | _, s''⟩
      · exact ih f' c' (hr _ List.mem_cons_self) (fun x hx => hr x (List.mem_cons_of_mem _ hx)) s''
      · exact ⟨_, rfl, rfl⟩
      · rfl
    · exact ⟨_, rfl, rfl⟩
    · rfl

theorem emitNodeP_denote (f : Nat) (hf : 0 < f) (h : Header) (s : WState) :
    (emitNodeP (f + 1) h).denote s = (Step.done (emitStart h s).1 (emitStart h s).2).bind fun _ s' =>
      .yield () s' fun i t => (do Prog.lift contentClose; emitLoopP f h i).denote t := by
  unfold emitNodeP
  rw [Prog.denote_bind, lifts_emitStartP]
  refine congrArg _ ?_
  funext _ s'
  rw [Prog.denote_bind, Prog.denote_hand, Step.bind_yield]
  refine congrArg _ ?_
  funext i t
  rw [Step.bind_done_ok]
  cases i with
  | none => rw [emitLoopP_none hf]
  | some h' => rfl

theorem step_bind_done {α β : Type} (r : Res α) (s : WState) (f : α → WState → Step WState Unit (Option Header) β) :
    (Step.done r s).bind f = match r with | .ok a => f a s | .err e => .done (.err e) s | .panic => .done .panic s := by
  cases r <;> rfl

/-- The goroutine inside these activations behaves as the model says. -/
def Frames (m : Nat) (f : Nat) (c : Header) (rest : List (Nat × Header)) : Prop :=
  Behaves m (c :: rest.map (·.2)) fun i s => (inner ((f, c) :: rest) i).denote s

/-- The activations deal with a header. -/
theorem descend_outer (m : Nat) (hB : ∀ f c rest, 2 * m < f → (∀ x ∈ rest, 2 * m < x.1) → Frames m f c rest)
    (h : Header) (f : Nat) (c : Header) (rest : List (Nat × Header)) (hf : 2 * m + 2 < f) (hr : ∀ x ∈ rest, 2 * m + 2 < x.1) (s : WState) :
    PutsAs (Behaves m) (descend h (c :: rest.map (·.2)) s) ((emitLoopP f c (some h) >>= outer rest).denote s) := by
  induction rest generalizing f c s with
  | nil =>
    obtain ⟨f, rfl⟩ : ∃ g, f = g + 2 + 1 := ⟨f - 3, by omega⟩
    unfold emitLoopP descend
    rw [Prog.denote_bind, Prog.denote_bind, Prog.denote_ret]
    show PutsAs _ (M.bind (ret (place c h)) _ s) _
    unfold M.bind ret
    rcases place c h with (_ | name) | e | _
    · simp only [Step.bind_done_ok]
      rw [Prog.denote_bind, lifts_wrP]
      rw [M.bind_apply]
      rcases wr (writeString b!")") s with ⟨_ | _ | _, s'⟩
      · exact ⟨_, rfl, rfl⟩
      · exact ⟨_, rfl, rfl⟩
      · rfl
    · simp only [Step.bind_done_ok]
      rw [Prog.denote_bind, lifts_entryStartP, M.bind_apply]
      rcases entryStart name s with ⟨_ | _ | _, s'⟩
      · simp only [Step.bind_done_ok]
        rw [Prog.denote_bind, emitNodeP_denote _ (by omega), M.bind_apply]
        rcases emitStart h s' with ⟨_ | _ | _, s''⟩
        · refine ⟨_, rfl, ?_⟩
          have := hB (f + 1) h [(f + 2, c)] (by omega) (fun x hx => by rw [List.mem_singleton.1 hx]; show 2 * m < f + 2; omega)
          unfold Frames at this
          refine Eq.mp (congrArg _ ?_) this
          funext i t
          simp only [inner, outer, Prog.denote_bind, Step.bind_assoc]
        · exact ⟨_, rfl, rfl⟩
        · rfl
      · exact ⟨_, rfl, rfl⟩
      · rfl
    · exact ⟨_, rfl, rfl⟩
    · rfl
  | cons x rest ih =>
    obtain ⟨f', c'⟩ := x
    obtain ⟨f, rfl⟩ : ∃ g, f = g + 2 + 1 := ⟨f - 3, by omega⟩
    unfold emitLoopP descend
    rw [Prog.denote_bind, Prog.denote_bind, Prog.denote_ret]
    show PutsAs _ (M.bind (ret (place c h)) _ s) _
    unfold M.bind ret
    rcases place c h with (_ | name) | e | _
    · simp only [Step.bind_done_ok]
      rw [Prog.denote_bind, lifts_wrP]
      rw [M.bind_apply]
      rcases wr (writeString b!")") s with ⟨_ | _ | _, s'⟩
      · simp only [Step.bind_done_ok, Prog.denote_pure]
        show PutsAs _ (M.bind (wr (writeString b!")")) (fun _ => descend h (c' :: rest.map (·.2))) s') ((outer ((f', c') :: rest) (some h)).denote s')
        unfold M.bind outer
        rw [Prog.denote_bind, lifts_wrP]
        rcases wr (writeString b!")") s' with ⟨_ | _ | _, s''⟩
        · exact ih f' c' (hr _ List.mem_cons_self) (fun x hx => hr x (List.mem_cons_of_mem _ hx)) s''
        · exact ⟨_, rfl, rfl⟩
        · rfl
      · exact ⟨_, rfl, rfl⟩
      · rfl
    · simp only [Step.bind_done_ok]
      rw [Prog.denote_bind, lifts_entryStartP, M.bind_apply]
      rcases entryStart name s with ⟨_ | _ | _, s'⟩
      · simp only [Step.bind_done_ok]
        rw [Prog.denote_bind, emitNodeP_denote _ (by omega), M.bind_apply]
        rcases emitStart h s' with ⟨_ | _ | _, s''⟩
        · refine ⟨_, rfl, ?_⟩
          have := hB (f + 1) h ((f + 2, c) :: (f', c') :: rest) (by omega) (fun x hx => by
            rcases List.mem_cons.1 hx with rfl | hx
            · show 2 * m < f + 2; omega
            · have := hr x hx; omega)
          unfold Frames at this
          refine Eq.mp (congrArg _ ?_) this
          funext i t
          simp only [inner, outer, Prog.denote_bind, Step.bind_assoc]
        · exact ⟨_, rfl, rfl⟩
        · rfl
      · exact ⟨_, rfl, rfl⟩
      · rfl
    · exact ⟨_, rfl, rfl⟩
    · rfl

theorem frames_behave (m f : Nat) (c : Header) (rest : List (Nat × Header)) (hf : 2 * m < f) (hr : ∀ x ∈ rest, 2 * m < x.1) : Frames m f c rest := by
  have close : ∀ (f : Nat) (c : Header) (rest : List (Nat × Header)), 0 < f → (∀ x ∈ rest, 0 < x.1) → ∀ s,
      ClosesAs (emitClose (.running (c :: rest.map (·.2))) s) ((inner ((f, c) :: rest) none).denote s) := by
    intro f c rest hf hr s
    show ClosesAs ((contentClose >>= fun _ => unwind (c :: rest.map (·.2))) s)
      ((Prog.lift contentClose >>= fun _ => emitLoopP f c none >>= outer rest : WProg _).denote s)
    rw [Prog.denote_bind, M.bind_apply, lifts_lift]
    rcases contentClose s with ⟨_ | _ | _, s'⟩
    · exact unwind_outer f c rest hf hr s'
    · exact ⟨_, rfl, rfl⟩
    · rfl
  induction m generalizing f c rest with
  | zero => exact close f c rest hf hr
  | succ m ih =>
    refine ⟨close f c rest (by omega) (fun x hx => by have := hr x hx; omega), fun h s => ?_⟩
    show PutsAs _ ((contentClose >>= fun _ => descend h (c :: rest.map (·.2))) s)
      ((Prog.lift contentClose >>= fun _ => emitLoopP f c (some h) >>= outer rest : WProg _).denote s)
    rw [Prog.denote_bind, M.bind_apply, lifts_lift]
    rcases contentClose s with ⟨_ | _ | _, s'⟩
    · exact descend_outer m ih h f c rest (by omega) (fun x hx => by have := hr x hx; omega) s'
    · exact ⟨_, rfl, rfl⟩
    · rfl

/-- The first header. -/
theorem first_behaves (m fuel : Nat) (hf : 2 * m + 2 ≤ fuel) (h : Header) (s : WState) :
    PutsAs (Behaves m) (emitHeader h .start s)
      ((if h.path ≠ b!"/" then .ret (.err (.msg "first header always needs to have a / as path")) else emitNodeP fuel h : WProg (Option Header)).denote s) := by
  show PutsAs _ ((if h.path ≠ b!"/" then M.fail (.msg "first header always needs to have a / as path") else emitStart h >>= fun _ => pure [h] : M WState _) s) _
  split
  · exact ⟨_, rfl, rfl⟩
  · obtain ⟨f, rfl⟩ : ∃ g, fuel = g + 1 + 1 := ⟨fuel - 2, by omega⟩
    rw [emitNodeP_denote _ (by omega), M.bind_apply]
    rcases emitStart h s with ⟨_ | _ | _, s'⟩
    · refine ⟨_, rfl, ?_⟩
      have := frames_behave m (f + 1) h [] (by omega) (fun x hx => nomatch hx)
      unfold Frames at this
      refine Eq.mp (congrArg _ ?_) this
      funext i t
      simp only [inner, Prog.denote_bind]
      refine congrArg _ ?_
      funext _ t'
      generalize (emitLoopP (f + 1) h i).denote t' = st
      induction st with
      | done r s => cases r <;> rfl
      | yield y s k ih => simp only [Step.bind_yield]; congr 1; funext i s'; exact ih i s'
    · exact ⟨_, rfl, rfl⟩
    · rfl

end Verif.Nar
