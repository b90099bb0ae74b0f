import Verif.Props.NarConc

/-!
# Schedules of a `Writer` (C96)
-/

namespace Verif.Props
open Verif.Nar Verif.Conc Verif.GoLib Verif.Wire Verif.Spec

/-- The receives of `WriteHeader`. -/
def headerK (ops : List WOp) (closed : Bool) : WChan → Option WVal → WProc := fun c v =>
  match c, v with
  | .errors, some (.err e) => .emit (.unit (.err e)) (writerMain ops closed)
  | .errors, none => .emit (.unit (.ok ())) (writerMain ops closed)
  | .done, some .unit => .emit (.unit (.ok ())) (writerMain ops closed)
  | _, _ => .crash

/-- The receive of `Close`. -/
def closeK (ops : List WOp) : WChan → Option WVal → WProc := fun _ v =>
  match v with
  | some (.err e) => .emit (.unit (.err e)) (writerMain ops true)
  | none => .emit (.unit (.ok ())) (writerMain ops true)
  | _ => .crash

theorem writerMain_header_ok {h : Header} (hv : h.validate = .ok ()) (ops : List WOp) (closed : Bool) :
    writerMain (.header h :: ops) closed = .send .headers (.hdr h) (.recv [.errors, .done] (headerK ops closed)) := by
  unfold writerMain
  rw [hv]
  rfl

theorem writerMain_header_err {h : Header} {e : Err} (hv : h.validate = .err e) (ops : List WOp) (closed : Bool) :
    writerMain (.header h :: ops) closed = .emit (.unit (.err (.msg "unable to write header"))) (writerMain ops closed) := by
  rw [writerMain, hv]

theorem writerMain_header_panic {h : Header} (hv : h.validate = .panic) (ops : List WOp) (closed : Bool) :
    writerMain (.header h :: ops) closed = .crash := by
  rw [writerMain, hv]

theorem writerMain_close (ops : List WOp) :
    writerMain (.close :: ops) false = .close .headers (.recv [.errors] (closeK ops)) := rfl

theorem writerMain_closed (ops : List WOp) :
    writerMain (.close :: ops) true = .emit (.unit (.err (.msg "already closed"))) (writerMain ops true) := rfl

theorem contentWrite_eq (w : Writer) (p : Bytes) : w.write p = ((contentWrite w.st p).1, { w with st := (contentWrite w.st p).2 }) := by
  unfold contentWrite Writer.write
  cases w.st.cw with
  | none => rfl
  | some c =>
    simp only
    split <;> rfl

theorem write_noblock (w : Writer) (p : Bytes) : (∃ r, (w.write p).1 = .ok r) ∨ (w.write p).1 = .panic := by
  unfold Writer.write
  cases w.st.cw with
  | none => exact .inr rfl
  | some c =>
    left
    simp only
    split <;> exact ⟨_, rfl⟩

/-- A goroutine waiting for a header. -/
def waitW (kp : Option Header → WProg (Option Header)) : WProc := .recv [.headers] fun _ v => goW (kp (toHeader v))

/-- The goroutine before the first header is one. -/
def startK (fuel : Nat) : Option Header → WProg (Option Header)
  | none => .ret (.err (.msg "unexpected Close()"))
  | some h => if h.path ≠ b!"/" then .ret (.err (.msg "first header always needs to have a / as path")) else emitNodeP fuel h

theorem writerGo_eq (fuel : Nat) : writerGo fuel = waitW (startK fuel) := by
  unfold writerGo waitW
  refine congrArg _ ?_
  funext _ v
  cases toHeader v with
  | none => rfl
  | some h =>
    show (if h.path ≠ b!"/" then wTail (.msg "first header always needs to have a / as path") else goW (emitNodeP fuel h)) =
      goW (if h.path ≠ b!"/" then .ret (.err (.msg "first header always needs to have a / as path")) else emitNodeP fuel h)
    split
    · rfl
    · rfl

/-- A goroutine with this continuation is in this phase, at least for the next `m` headers. -/
def Waits (m : Nat) (phase : WPhase) (kp : Option Header → WProg (Option Header)) : Prop :=
  phase ≠ .ended ∧ (∀ s, ClosesAs (emitClose phase s) ((kp none).denote s)) ∧
  (∀ n, m = n + 1 → ∀ h s, PutsAs (Behaves n) (emitHeader h phase s) ((kp (some h)).denote s))

theorem waits_start (m fuel : Nat) (hf : 2 * m ≤ fuel) : Waits m .start (startK fuel) :=
  ⟨by decide, fun s => ⟨_, rfl, rfl⟩, fun n hn h s => first_behaves n fuel (by omega) h s⟩

theorem waits_running {m : Nat} {stack : List Header} {kp : Option Header → WProg (Option Header)}
    (h : Behaves m stack fun i s => (kp i).denote s) : Waits m (.running stack) kp := by
  refine ⟨fun h => (by cases h), fun s => behaves_close h s, fun n hn => ?_⟩
  subst hn
  exact h.2

/-- The goroutine between two calls. -/
inductive LiveW (w : Writer) (m : Nat) (closed : WChan → Bool) : WProc → Prop where
  | waiting (kp) : Waits m w.phase kp → closed .errors = false → w.closed = false → LiveW w m closed (waitW kp)
  | tail : w.phase = .ended → closed .errors = false → LiveW w m closed (.close .errors .stop)
  | gone : w.phase = .ended → closed .errors = true → LiveW w m closed .stop

structure GoRelW (w : Writer) (m : Nat) (x : Conf WChan WVal WState WOut) : Prop where
  headers : x.closed .headers = w.closed
  done : x.closed .done = false
  mem : x.mem = w.st
  live : LiveW w m x.closed x.go

/-- The caller's view from here on is `L`, and the writer afterwards `F`. -/
def SeesW (L : List WOut × Ending) (F : Writer) (log : List WOut) (rest : List WOut × Writer) : Prop :=
  (log ++ (seen WOut.ends rest.1).1, (seen WOut.ends rest.1).2) = L ∧ F = rest.2

/-- The goroutine after `headers` was closed. -/
inductive Closing (r : Res Unit × WState) (mem : WState) (closed : WChan → Bool) : WProc → Prop where
  | waiting (kp) : ClosesAs r ((kp none).denote mem) → closed .errors = false → Closing r mem closed (waitW kp)
  | running (p : WProg (Option Header)) : ClosesAs r (p.denote mem) → closed .errors = false → Closing r mem closed (goW p)
  | tail : r = (.ok (), mem) → closed .errors = false → Closing r mem closed (.close .errors .stop)
  | gone : r = (.ok (), mem) → closed .errors = true → Closing r mem closed .stop

/-- The invariant of the processes of a `Writer`. -/
inductive WI (L : List WOut × Ending) (F : Writer) (x : Conf WChan WVal WState WOut) : Prop where
  | boundary (w : Writer) (ops : List WOp) (m : Nat) : ops.length ≤ m → GoRelW w m x → x.main = writerMain ops w.closed →
      SeesW L F x.log (w.run ops) → WI L F x
  | pending (w : Writer) (ops : List WOp) (m : Nat) (o : WOut) : ops.length ≤ m → GoRelW w m x → x.main = .emit o (writerMain ops w.closed) →
      SeesW L F (x.log ++ [o]) (w.run ops) → WI L F x
  | inHeader (w : Writer) (h : Header) (ops : List WOp) (m : Nat) (p : WProg (Option Header)) : ops.length ≤ m → h.validate = .ok () →
      w.closed = false → w.phase ≠ .ended → (∀ c, x.closed c = false) → x.main = .recv [.errors, .done] (headerK ops false) → x.go = goW p →
      PutsAs (Behaves m) (emitHeader h w.phase w.st) (p.denote x.mem) → SeesW L F x.log (w.run (.header h :: ops)) → WI L F x
  | inClose (w : Writer) (ops : List WOp) (m : Nat) : w.closed = false → x.closed .headers = true → x.closed .done = false →
      x.main = .recv [.errors] (closeK ops) → Closing (emitClose w.phase w.st) x.mem x.closed x.go → SeesW L F x.log (w.run (.close :: ops)) → WI L F x
  | dead : x.main = .crash → L = (x.log, .panicked) → WI L F x

theorem run_consW (w : Writer) (o : WOp) (ops : List WOp) :
    w.run (o :: ops) = ((w.op o).1 :: ((w.op o).2.run ops).1, ((w.op o).2.run ops).2) := rfl

theorem seesW_cons {L : List WOut × Ending} {F : Writer} {log : List WOut} {w : Writer} {o : WOp} {ops : List WOp} (ho : (w.op o).1.ends = none) :
    SeesW L F log (w.run (o :: ops)) ↔ SeesW L F (log ++ [(w.op o).1]) ((w.op o).2.run ops) := by
  unfold SeesW
  simp only [run_consW, seen, ho, List.append_assoc, List.singleton_append]

theorem seesW_end {L : List WOut × Ending} {F : Writer} {log : List WOut} {w : Writer} {o : WOp} {ops : List WOp} {e : Ending} (ho : (w.op o).1.ends = some e)
    (h : SeesW L F log (w.run (o :: ops))) : L = (log, e) := by
  unfold SeesW at h
  simp only [run_consW, seen, ho, List.append_nil] at h
  exact h.1.symm

theorem liveW_step {w : Writer} {m : Nat} {closed : WChan → Bool} {mem : WState} {log : List WOut} {p : WProc} {c : Option WChan} {r}
    (h : LiveW w m closed p) (hc : closed .headers = w.closed) (hs : localStep closed mem log p c = some r) :
    LiveW w m r.2.1 r.1 ∧ r.2.1 .headers = closed .headers ∧ r.2.1 .done = closed .done ∧ r.2.2.1 = mem ∧ r.2.2.2 = log := by
  cases h with
  | waiting kp hk h1 h2 =>
    cases c with
    | none => cases hs
    | some c =>
      simp only [waitW, localStep, List.mem_singleton] at hs
      split at hs
      · rename_i hh; rw [hh.1, hc, h2] at hh; exact absurd hh.2 (by simp)
      · cases hs
  | tail h1 h2 =>
    cases c with
    | none =>
      simp only [localStep, h2] at hs
      cases hs
      exact ⟨.gone h1 (by simp [setClosed]), by simp [setClosed], by simp [setClosed], rfl, rfl⟩
    | some c => cases hs
  | gone h1 h2 => cases c <;> cases hs

theorem goRelW_go {w : Writer} {m : Nat} {x : Conf WChan WVal WState WOut} {c : Option WChan} {res}
    (h : GoRelW w m x) (hs : localStep x.closed x.mem x.log x.go c = some res) (main : WProc) :
    GoRelW w m ⟨main, res.1, res.2.1, res.2.2.1, res.2.2.2⟩ ∧ res.2.2.2 = x.log := by
  obtain ⟨h1, h2, h3, h4, h5⟩ := liveW_step h.live h.headers hs
  exact ⟨⟨by rw [← h.headers]; exact h2, by rw [← h.done]; exact h3, by rw [← h.mem]; exact h4, h1⟩, h5⟩

/-- The result of a header, if the goroutine has returned from `emitNode`. -/
theorem header_op {w : Writer} {h : Header} (hv : h.validate = .ok ()) (hc : w.closed = false) (hp : w.phase ≠ .ended) :
    w.op (.header h) = match emitHeader h w.phase w.st with
      | (.ok stack, st) => (.unit (.ok ()), { w with st := st, phase := .running stack })
      | (.err e, st) => (.unit (.err e), { w with st := st, phase := .ended })
      | (.panic, st) => (.unit .panic, { w with st := st, phase := .ended }) := by
  simp only [Writer.op, Writer.writeHeader, hv, hc, if_neg hp, Bool.false_eq_true, if_false]
  rcases emitHeader h w.phase w.st with ⟨_ | _ | _, s⟩ <;> rfl

theorem close_op {w : Writer} (hc : w.closed = false) :
    w.op .close = match emitClose w.phase w.st with
      | (.ok (), st) => (.unit (.ok ()), ⟨st, .ended, true⟩)
      | (.err e, st) => (.unit (.err e), ⟨st, .ended, true⟩)
      | (.panic, st) => (.unit .panic, ⟨st, .ended, true⟩) := by
  simp only [Writer.op, Writer.close, hc, Bool.false_eq_true, if_false]
  rcases emitClose w.phase w.st with ⟨_ | _ | _, s⟩ <;> rfl

/-- A step of the goroutine alone. -/
theorem wi_go {L : List WOut × Ending} {F : Writer} {x : Conf WChan WVal WState WOut} (h : WI L F x) (ha : alive x.main = true ∧ alive x.go = true)
    {c : Option WChan} {res} (hs : localStep x.closed x.mem x.log x.go c = some res) : WI L F ⟨x.main, res.1, res.2.1, res.2.2.1, res.2.2.2⟩ := by
  cases h with
  | boundary w ops m hm hg hmain hsee =>
    obtain ⟨h1, h2⟩ := goRelW_go hg hs x.main
    exact .boundary w ops m hm h1 hmain (by rw [h2]; exact hsee)
  | pending w ops m o hm hg hmain hsee =>
    obtain ⟨h1, h2⟩ := goRelW_go hg hs x.main
    exact .pending w ops m o hm h1 hmain (by rw [h2]; exact hsee)
  | inHeader w hd ops m p hm hv hc hp hcl hmain hgo hput hsee =>
    rw [hgo] at hs
    cases p with
    | ret y =>
      rcases y with (_ | y) | e | _
      · obtain ⟨e, _, hr⟩ | ⟨_, hr⟩ := putsAs_done hput <;> cases hr
      · cases c <;> simp [goW, wTail, localStep, hcl] at hs
      · cases c <;> simp [goW, wTail, localStep, hcl] at hs
      · cases c <;> cases hs
    | act f k =>
      cases c with
      | none => cases hs; exact .inHeader w hd ops m (k x.mem) hm hv hc hp hcl hmain rfl hput hsee
      | some c => cases hs
    | yield y k => cases c <;> simp [goW, localStep, hcl] at hs
  | inClose w ops m hc hh hd hmain hcls hsee =>
    generalize hq : x.go = q at hs hcls
    have keep : ∀ (r : WProc × (WChan → Bool) × WState × List WOut), r.2.1 .headers = true → r.2.1 .done = false → r.2.2.2 = x.log →
        Closing (emitClose w.phase w.st) r.2.2.1 r.2.1 r.1 → WI L F ⟨x.main, r.1, r.2.1, r.2.2.1, r.2.2.2⟩ := by
      intro r a b d e
      exact .inClose w ops m hc a b hmain e (by show SeesW L F r.2.2.2 _; rw [d]; exact hsee)
    cases hcls with
    | waiting kp hk he =>
      cases c with
      | none => cases hs
      | some c =>
        simp only [waitW, localStep, List.mem_singleton] at hs
        split at hs
        · cases hs
          exact keep (_, _, _, _) hh hd rfl (.running _ hk he)
        · cases hs
    | running p hp he =>
      cases p with
      | ret y =>
        rcases y with (_ | y) | e | _
        · have hr : emitClose w.phase w.st = (.ok (), x.mem) := by
            obtain ⟨hr, _⟩ | ⟨e, _, hr⟩ | ⟨_, hr⟩ := closesAs_done hp
            · exact hr
            · cases hr
            · cases hr
          cases c with
          | none =>
            simp only [goW, localStep, he] at hs
            cases hs
            exact keep (_, _, _, _) (by simp [setClosed, hh]) (by simp [setClosed, hd]) rfl (.gone hr (by simp [setClosed]))
          | some c => cases hs
        · cases c <;> simp [goW, wTail, localStep, he] at hs
        · cases c <;> simp [goW, wTail, localStep, he] at hs
        · cases c <;> cases hs
      | act f k =>
        cases c with
        | none => cases hs; exact keep (_, _, _, _) hh hd rfl (.running (k x.mem) hp he)
        | some c => cases hs
      | yield y k =>
        exact absurd hp closesAs_yield
    | tail hr he =>
      cases c with
      | none =>
        simp only [localStep, he] at hs
        cases hs
        exact keep (_, _, _, _) (by simp [setClosed, hh]) (by simp [setClosed, hd]) rfl (.gone hr (by simp [setClosed]))
      | some c => cases hs
    | gone hr he => cases c <;> cases hs
  | dead hd _ =>
    rw [hd] at ha
    cases ha.1

/-- A step of the caller alone. -/
theorem wi_main {L : List WOut × Ending} {F : Writer} {x : Conf WChan WVal WState WOut} (h : WI L F x) {c : Option WChan} {res}
    (hs : localStep x.closed x.mem x.log x.main c = some res) : WI L F ⟨res.1, x.go, res.2.1, res.2.2.1, res.2.2.2⟩ := by
  cases h with
  | boundary w ops m hm hg hmain hsee =>
    rw [hmain] at hs
    cases ops with
    | nil => cases c <;> cases hs
    | cons o ops =>
      have hm' : ops.length ≤ m := Nat.le_trans (Nat.le_succ _) hm
      cases o with
      | header hd =>
        cases hv : hd.validate with
        | ok u =>
          rw [writerMain_header_ok hv] at hs
          cases c with
          | none =>
            simp only [localStep] at hs
            split at hs
            · rename_i hc
              cases hs
              rw [hg.headers] at hc
              refine .dead rfl (seesW_end ?_ hsee)
              simp only [Writer.op, Writer.writeHeader, hv, hc, if_true]
              rfl
            · cases hs
          | some c => cases hs
        | err e =>
          rw [writerMain_header_err hv] at hs
          have hop : w.op (.header hd) = (.unit (.err (.msg "unable to write header")), w) := by
            simp only [Writer.op, Writer.writeHeader, hv]
          cases c with
          | none =>
            cases hs
            rw [seesW_cons (by rw [hop]; rfl), hop] at hsee
            exact .boundary w ops m hm' ⟨hg.headers, hg.done, hg.mem, hg.live⟩ rfl hsee
          | some c => cases hs
        | panic => rw [writerMain_header_panic hv] at hs; cases c <;> cases hs
      | write p =>
        cases c with
        | none =>
          have hop : w.op (.write p) = (.write (contentWrite w.st p).1, { w with st := (contentWrite w.st p).2 }) := by
            show (WOut.write (w.write p).1, (w.write p).2) = _
            rw [contentWrite_eq]
          cases hs
          simp only [hg.mem] at *
          rcases write_noblock w p with ⟨r, hr⟩ | hr
          · replace hr : (contentWrite w.st p).1 = .ok r := by rw [contentWrite_eq] at hr; exact hr
            rw [seesW_cons (by rw [hop, hr]; rfl), hop, hr] at hsee
            simp only [hr]
            refine .pending { w with st := (contentWrite w.st p).2 } ops m _ hm' ⟨hg.headers, hg.done, rfl, ?_⟩ rfl hsee
            have hl := hg.live
            generalize x.go = q at hl
            cases hl with
            | waiting kp a b c => exact .waiting kp a b c
            | tail a b => exact .tail a b
            | gone a b => exact .gone a b
          · replace hr : (contentWrite w.st p).1 = .panic := by rw [contentWrite_eq] at hr; exact hr
            simp only [hr]
            refine .dead rfl (seesW_end ?_ hsee)
            rw [hop, hr]
            rfl
        | some c => cases hs
      | close =>
        cases hc : w.closed with
        | true =>
          rw [hc, writerMain_closed] at hs
          have hop : w.op .close = (.unit (.err (.msg "already closed")), w) := by
            simp only [Writer.op, Writer.close, hc, if_true]
          cases c with
          | none =>
            cases hs
            rw [seesW_cons (by rw [hop]; rfl), hop] at hsee
            exact .boundary w ops m hm' ⟨hg.headers, hg.done, hg.mem, hg.live⟩ (by rw [hc]) hsee
          | some c => cases hs
        | false =>
          rw [hc, writerMain_close] at hs
          cases c with
          | none =>
            simp only [localStep, hg.headers, hc] at hs
            cases hs
            refine .inClose w ops m hc (by simp [setClosed]) (by simp [setClosed, hg.done]) rfl ?_ hsee
            have hl := hg.live
            show Closing _ x.mem _ x.go
            rw [hg.mem]
            generalize x.go = q at hl
            cases hl with
            | waiting kp a b _ => exact .waiting kp (a.2.1 w.st) (by simp [setClosed, b])
            | tail a b => exact .tail (by rw [a]; rfl) (by simp [setClosed, b])
            | gone a b => exact .gone (by rw [a]; rfl) (by simp [setClosed, b])
          | some c => cases hs
  | pending w ops m o hm hg hmain hsee =>
    rw [hmain] at hs
    cases c with
    | none =>
      cases hs
      exact .boundary w ops m hm ⟨hg.headers, hg.done, hg.mem, hg.live⟩ rfl hsee
    | some c => cases hs
  | inHeader w hd ops m p hm hv hc hp hcl hmain hgo hput hsee =>
    rw [hmain] at hs
    cases c with
    | none => cases hs
    | some c => simp [localStep, hcl] at hs
  | inClose w ops m hc hh hd hmain hcls hsee =>
    rw [hmain] at hs
    cases c with
    | none => cases hs
    | some c =>
      simp only [localStep, List.mem_singleton] at hs
      split at hs
      · rename_i he
        obtain ⟨rfl, he⟩ := he
        cases hs
        generalize hq : x.go = q at hcls
        cases hcls with
        | waiting kp _ he' => rw [he] at he'; cases he'
        | running p _ he' => rw [he] at he'; cases he'
        | tail _ he' => rw [he] at he'; cases he'
        | gone hr _ =>
          have hop := close_op hc
          rw [hr] at hop
          simp only at hop
          rw [seesW_cons (by rw [hop]; rfl), hop] at hsee
          exact .pending ⟨x.mem, .ended, true⟩ ops (max m ops.length) _ (Nat.le_max_right ..) ⟨hh, hd, rfl, .gone rfl he⟩ rfl hsee
      · cases hs
  | dead hd _ => rw [hd] at hs; cases c <;> cases hs

/-- A header goes from the caller to the goroutine. -/
theorem wi_mainToGo {L : List WOut × Ending} {F : Writer} {x : Conf WChan WVal WState WOut} (h : WI L F x) {r}
    (hs : handOver x.closed x.main x.go = some r) : WI L F { x with main := r.1, go := r.2 } := by
  obtain ⟨c, v, k, cs, k', hm0, hg0, hcs, hcl, rfl⟩ := handOver_inv hs
  cases h with
  | boundary w ops m hm hg hmain hsee =>
    rw [hmain] at hm0
    cases ops with
    | nil => cases hm0
    | cons o ops =>
      cases o with
      | header hd =>
        cases hv : hd.validate with
        | ok u =>
          rw [writerMain_header_ok hv] at hm0
          cases hm0
          have hl := hg.live
          generalize hq : x.go = q at hl hg0
          subst hg0
          generalize hq' : Proc.recv cs k' = q at hl
          cases hl with
          | waiting kp a b hc =>
            cases hq'
            obtain ⟨n, rfl⟩ : ∃ n, m = n + 1 := ⟨m - 1, by simp at hm; omega⟩
            refine .inHeader w hd ops n (kp (some hd)) (by simpa using hm) hv hc a.1 ?_ (by rw [hc]) rfl ?_ hsee
            · intro c
              cases c with
              | headers => exact hcl
              | done => exact hg.done
              | errors => exact b
            · show PutsAs _ _ ((kp (some hd)).denote x.mem)
              rw [hg.mem]
              exact a.2.2 n rfl hd w.st
          | tail _ _ => cases hq'
          | gone _ _ => cases hq'
        | err e => rw [writerMain_header_err hv] at hm0; cases hm0
        | panic => rw [writerMain_header_panic hv] at hm0; cases hm0
      | write p => cases hm0
      | close =>
        cases hc : w.closed with
        | true => rw [hc, writerMain_closed] at hm0; cases hm0
        | false => rw [hc, writerMain_close] at hm0; cases hm0
  | pending w ops m o hm hg hmain hsee => rw [hmain] at hm0; cases hm0
  | inHeader w hd ops m p hm hv hc hp hcl hmain hgo hput hsee => rw [hmain] at hm0; cases hm0
  | inClose w ops m hc hh hd hmain hcls hsee => rw [hmain] at hm0; cases hm0
  | dead hd _ => rw [hd] at hm0; cases hm0

theorem goW_report {y : Res (Option Header)} {e : Err} (h : reports y = some e) : goW (.ret y) = wTail e := by
  rcases y with (_ | y) | e' | _
  · cases h
  · cases h; rfl
  · cases h; rfl
  · cases h

/-- The goroutine answers. -/
theorem wi_goToMain {L : List WOut × Ending} {F : Writer} {x : Conf WChan WVal WState WOut} (h : WI L F x) {r}
    (hs : handOver x.closed x.go x.main = some r) : WI L F { x with main := r.2, go := r.1 } := by
  obtain ⟨c, v, k, cs, k', hg0, hm0, hcs, hcl, rfl⟩ := handOver_inv hs
  cases h with
  | boundary w ops m hm hg hmain hsee =>
    have hl := hg.live
    rw [hg0] at hl
    generalize hq' : Proc.send c v k = q at hl
    cases hl <;> cases hq'
  | pending w ops m o hm hg hmain hsee => rw [hmain] at hm0; cases hm0
  | inHeader w hd ops m p hm hv hc hp hcl' hmain hgo hput hsee =>
    rw [hmain] at hm0
    cases hm0
    rw [hgo] at hg0
    have hop := header_op hv hc hp
    cases p with
    | ret y =>
      obtain ⟨e, hr, hy⟩ | ⟨hr, hy⟩ := putsAs_done hput
      · rw [goW_report hy] at hg0
        cases hg0
        rw [hr] at hop
        simp only at hop
        rw [seesW_cons (by rw [hop]; rfl), hop] at hsee
        exact .pending { w with st := x.mem, phase := .ended } ops m _ hm
          ⟨by rw [hc]; exact hcl' _, hcl' _, rfl, .tail rfl (hcl' _)⟩ (by show Proc.emit _ _ = Proc.emit _ _; rw [hc]) hsee
      · rw [hy] at hg0; cases hg0
    | act f k => cases hg0
    | yield u k =>
      cases hg0
      obtain ⟨stack, hr, hB⟩ := putsAs_yield hput
      rw [hr] at hop
      simp only at hop
      rw [seesW_cons (by rw [hop]; rfl), hop] at hsee
      exact .pending { w with st := x.mem, phase := .running stack } ops m _ hm
        ⟨by rw [hc]; exact hcl' _, hcl' _, rfl, .waiting k (waits_running hB) (hcl' _) hc⟩ (by show Proc.emit _ _ = Proc.emit _ _; rw [hc]) hsee
  | inClose w ops m hc hh hd hmain hcls hsee =>
    rw [hmain] at hm0
    cases hm0
    have hop := close_op hc
    generalize hq : x.go = q at hcls hg0
    cases hcls with
    | waiting kp _ he' => cases hg0
    | running p hp he' =>
      cases p with
      | ret y =>
        obtain ⟨hr, hy⟩ | ⟨e, hr, hy⟩ | ⟨hr, hy⟩ := closesAs_done hp
        · rw [hy] at hg0; cases hg0
        · rw [goW_report hy] at hg0
          cases hg0
          rw [hr] at hop
          simp only at hop
          rw [seesW_cons (by rw [hop]; rfl), hop] at hsee
          exact .pending ⟨x.mem, .ended, true⟩ ops (max m ops.length) _ (Nat.le_max_right ..) ⟨hh, hd, rfl, .tail rfl he'⟩ rfl hsee
        · rw [hy] at hg0; cases hg0
      | act f k => cases hg0
      | yield u k => exact absurd hp closesAs_yield
    | tail _ he' => cases hg0
    | gone hr _ => cases hg0
  | dead hd _ => rw [hd] at hm0; cases hm0

theorem wi_step {L : List WOut × Ending} {F : Writer} {x y : Conf WChan WVal WState WOut} {l : Label WChan} (h : WI L F x) (hs : x.next l = some y) : WI L F y := by
  obtain ⟨ha, ⟨c, r, hl, rfl⟩ | ⟨c, r, hl, rfl⟩ | ⟨r, hl, rfl⟩ | ⟨r, hl, rfl⟩⟩ := next_inv hs
  · exact wi_main h hl
  · exact wi_go h ha hl
  · exact wi_mainToGo h hl
  · exact wi_goToMain h hl

theorem alive_crash {C V S O : Type} {p : Proc C V S O} (h : alive p = false) : p = .crash := by
  cases p <;> first | rfl | cases h

theorem ending_goCrash {C V S O : Type} {x : Conf C V S O} (h : x.go = .crash) : x.ending = .panicked := by
  unfold Conf.ending
  rw [h]
  cases x.main <;> rfl

theorem liveW_alive {w : Writer} {m : Nat} {closed : WChan → Bool} {p : WProc} (h : LiveW w m closed p) : alive p = true := by
  cases h <;> rfl

theorem liveW_act {w : Writer} {m : Nat} {closed : WChan → Bool} {f k} : ¬ LiveW w m closed (.act f k) := by
  intro h
  generalize hq : Proc.act f k = q at h
  cases h <;> cases hq

/-- What the invariant says about a process. -/
theorem wi_facts {L : List WOut × Ending} {F : Writer} {x : Conf WChan WVal WState WOut} (h : WI L F x) :
    x.log <+: L.1 ∧ ¬ x.Race ∧ (x.Final → (x.log, x.ending) = L) ∧ (x.main = .stop → (x.log, .finished) = L ∧ x.mem = F.st) := by
  cases h with
  | boundary w ops m hm hg hmain hsee =>
    have hal := liveW_alive hg.live
    refine ⟨?_, ?_, ?_, ?_⟩
    · rw [← hsee.1]; exact List.prefix_append ..
    · rintro ⟨_, g, k', hgo⟩
      have := hg.live
      rw [hgo] at this
      exact liveW_act this
    · intro hf
      cases ops with
      | nil =>
        rw [← hsee.1]
        show (x.log, x.ending) = (x.log ++ [], .finished)
        rw [List.append_nil, ending_stop hmain hal]
      | cons o ops =>
        cases ham : alive x.main with
        | false =>
          have hcr := alive_crash ham
          rw [ending_crash hcr]
          rw [hmain] at hcr
          cases o with
          | header hd =>
            cases hv : hd.validate with
            | ok u => rw [writerMain_header_ok hv] at hcr; cases hcr
            | err e => rw [writerMain_header_err hv] at hcr; cases hcr
            | panic =>
              refine (seesW_end ?_ hsee).symm
              simp only [Writer.op, Writer.writeHeader, hv]
              rfl
          | write p => cases hcr
          | close =>
            cases hc : w.closed with
            | true => rw [hc, writerMain_closed] at hcr; cases hcr
            | false => rw [hc, writerMain_close] at hcr; cases hcr
        | true =>
          have hno := final_main hf ham hal none
          rw [hmain] at hno
          cases o with
          | header hd =>
            cases hv : hd.validate with
            | ok u =>
              rw [writerMain_header_ok hv] at hno
              simp only [localStep] at hno
              have hcl : x.closed .headers = false := by
                cases hc : x.closed .headers with
                | false => rfl
                | true => rw [hc] at hno; cases hno
              have hh := final_mainToGo hf ham hal
              rw [hmain, writerMain_header_ok hv] at hh
              have hl := hg.live
              have hend : w.phase = .ended := by
                generalize hq : x.go = q at hl hh
                cases hl with
                | waiting kp _ _ _ => simp [handOver, waitW, hcl] at hh
                | tail a _ => exact a
                | gone a _ => exact a
              have hbl : x.ending = .blocked := by
                unfold Conf.ending
                rw [hmain, writerMain_header_ok hv]
                generalize hq : x.go = q at hl
                cases hl <;> rfl
              rw [hbl]
              refine (seesW_end ?_ hsee).symm
              rw [hg.headers] at hcl
              simp only [Writer.op, Writer.writeHeader, hv, hcl, Bool.false_eq_true, if_false, if_pos hend]
              rfl
            | err e => rw [writerMain_header_err hv] at hno; cases hno
            | panic => rw [hmain, writerMain_header_panic hv] at ham; cases ham
          | write p => cases hno
          | close =>
            cases hc : w.closed with
            | true => rw [hc, writerMain_closed] at hno; cases hno
            | false =>
              rw [hc, writerMain_close] at hno
              simp [localStep, hg.headers, hc] at hno
    · intro hm
      rw [hmain] at hm
      cases ops with
      | nil =>
        refine ⟨?_, by rw [hsee.2, hg.mem]; rfl⟩
        rw [← hsee.1]
        show (x.log, _) = (x.log ++ [], Ending.finished)
        rw [List.append_nil]
      | cons o ops =>
        cases o with
        | header hd =>
          cases hv : hd.validate with
          | ok u => rw [writerMain_header_ok hv] at hm; cases hm
          | err e => rw [writerMain_header_err hv] at hm; cases hm
          | panic => rw [writerMain_header_panic hv] at hm; cases hm
        | write p => cases hm
        | close =>
          cases hc : w.closed with
          | true => rw [hc, writerMain_closed] at hm; cases hm
          | false => rw [hc, writerMain_close] at hm; cases hm
  | pending w ops m o hm hg hmain hsee =>
    refine ⟨?_, ?_, ?_, ?_⟩
    · rw [← hsee.1, List.append_assoc]; exact List.prefix_append ..
    · rintro ⟨⟨f, k, hm⟩, _⟩
      rw [hmain] at hm; cases hm
    · intro hf
      have hno := final_main hf (by rw [hmain]; rfl) (liveW_alive hg.live) none
      rw [hmain] at hno
      cases hno
    · intro hm; rw [hmain] at hm; cases hm
  | inHeader w hd ops m p hm hv hc hp hcl hmain hgo hput hsee =>
    have ham : alive x.main = true := by rw [hmain]; rfl
    refine ⟨?_, ?_, ?_, ?_⟩
    · rw [← hsee.1]; exact List.prefix_append ..
    · rintro ⟨⟨f, k, hm⟩, _⟩
      rw [hmain] at hm; cases hm
    · intro hf
      have hop := header_op hv hc hp
      cases hag : alive x.go with
      | false =>
        rw [ending_goCrash (alive_crash hag)]
        have hcr := alive_crash hag
        rw [hgo] at hcr
        cases p with
        | ret y =>
          obtain ⟨e, hr, hy⟩ | ⟨hr, hy⟩ := putsAs_done hput
          · rw [goW_report hy] at hcr; cases hcr
          · rw [hr] at hop
            exact (seesW_end (by rw [hop]; rfl) hsee).symm
        | act f k => cases hcr
        | yield u k => cases hcr
      | true =>
        have h1 := final_go hf ham hag none
        have h2 := final_goToMain hf ham hag
        rw [hgo] at h1
        rw [hgo, hmain] at h2
        cases p with
        | ret y =>
          obtain ⟨e, hr, hy⟩ | ⟨hr, hy⟩ := putsAs_done hput
          · rw [goW_report hy] at h2; simp [wTail, handOver, hcl] at h2
          · rw [hgo, hy] at hag; cases hag
        | act f k => cases h1
        | yield u k => simp [goW, handOver, hcl] at h2
    · intro hm; rw [hmain] at hm; cases hm
  | inClose w ops m hc hh hd hmain hcls hsee =>
    have ham : alive x.main = true := by rw [hmain]; rfl
    refine ⟨?_, ?_, ?_, ?_⟩
    · rw [← hsee.1]; exact List.prefix_append ..
    · rintro ⟨⟨f, k, hm⟩, _⟩
      rw [hmain] at hm; cases hm
    · intro hf
      have hop := close_op hc
      cases hag : alive x.go with
      | false =>
        rw [ending_goCrash (alive_crash hag)]
        have hcr := alive_crash hag
        generalize hq : x.go = q at hcls hcr
        cases hcls with
        | waiting _ _ _ => cases hcr
        | running p hp _ =>
          cases p with
          | ret y =>
            obtain ⟨hr, hy⟩ | ⟨e, hr, hy⟩ | ⟨hr, hy⟩ := closesAs_done hp
            · rw [hy] at hcr; cases hcr
            · rw [goW_report hy] at hcr; cases hcr
            · rw [hr] at hop
              exact (seesW_end (by rw [hop]; rfl) hsee).symm
          | act f k => cases hcr
          | yield u k => cases hcr
        | tail _ _ => cases hcr
        | gone _ _ => cases hcr
      | true =>
        exfalso
        have h1 := final_go hf ham hag none
        have h1' := final_go hf ham hag (some .headers)
        have h2 := final_goToMain hf ham hag
        have h3 := final_main hf ham hag (some .errors)
        rw [hmain] at h2 h3
        generalize hq : x.go = q at hcls h1 h1' h2 hag
        cases hcls with
        | waiting _ _ _ => simp [waitW, localStep, hh] at h1'
        | running p hp he =>
          cases p with
          | ret y =>
            obtain ⟨hr, hy⟩ | ⟨e, hr, hy⟩ | ⟨hr, hy⟩ := closesAs_done hp
            · rw [hy] at h1; simp [goW, localStep, he] at h1
            · rw [goW_report hy] at h2; simp [wTail, handOver, he] at h2
            · rw [hy] at hag; cases hag
          | act f k => cases h1
          | yield u k => exact closesAs_yield hp
        | tail _ he => simp [localStep, he] at h1
        | gone _ he => simp [localStep, he] at h3
    · intro hm; rw [hmain] at hm; cases hm
  | dead hmain hL =>
    subst hL
    refine ⟨List.prefix_refl _, ?_, ?_, ?_⟩
    · rintro ⟨⟨f, k, hm⟩, _⟩
      rw [hmain] at hm; cases hm
    · intro _; rw [ending_crash hmain]
    · intro hm; rw [hmain] at hm; cases hm

/-- C96: whatever the scheduler does, the calls return what they return in the sequential model, the process ends as it says, the
goroutines never access the shared state at the same time, and when the calls have returned the bytes written are those of the
sequential model. -/
theorem C96_writer (s s' : Sink) (w : Writer) (hw : newWriter s = (.ok w, s')) (ops : List WOp) (fuel : Nat) (hf : 2 * ops.length ≤ fuel)
    (x : Conf WChan WVal WState WOut) (hx : Reach (writerInit fuel w.st ops) x) :
    x.log <+: (seen WOut.ends (w.run ops).1).1 ∧ ¬ x.Race ∧
    (x.Final → (x.log, x.ending) = seen WOut.ends (w.run ops).1) ∧
    (x.main = .stop → (x.log, .finished) = seen WOut.ends (w.run ops).1 ∧ x.mem = (w.run ops).2.st) := by
  apply wi_facts
  have hinit : WI (seen WOut.ends (w.run ops).1) (w.run ops).2 (writerInit fuel w.st ops) := by
    have hw' : w = ⟨w.st, .start, false⟩ := by
      unfold newWriter at hw
      split at hw <;> cases hw
      rfl
    refine .boundary w ops ops.length (Nat.le_refl _) ⟨by rw [hw']; rfl, rfl, rfl, ?_⟩ (by rw [hw']; rfl) ⟨rfl, rfl⟩
    show LiveW w _ _ (writerGo fuel)
    rw [writerGo_eq]
    exact .waiting _ (by rw [hw']; exact waits_start _ _ hf) rfl (by rw [hw'])
  induction hx with
  | refl => exact hinit
  | step l _ hs ih => exact wi_step ih hs

/-- The calls that write `dirTree`. -/
def dirOps : List WOp := [.header ⟨b!"/", typeDirectory, [], 0, false⟩, .header ⟨b!"/f", typeRegular, [], 12, false⟩, .write b!"hello, ",
  .write b!"world", .close]

def someSchedule : List (Label WChan) :=
  [.go none, .main none, .mainToGo, .goToMain, .go (some .headers), .main (some .errors)]

/-- `C96_writer` has instances: these calls write the archive, and a schedule exists in which they return; after an error `WriteHeader` blocks, as in
the sequential model. -/
example : ∃ w s', newWriter ⟨[], none⟩ = (.ok w, s') ∧
    (∃ x, Reach (writerInit 10 w.st dirOps) x ∧ x.ending = .finished ∧ x.log.length = 5 ∧ x.mem.sink.out = dirTree.nar) ∧
    (∃ x, Reach (writerInit 10 w.st [.header ⟨b!"/a", typeRegular, [], 0, false⟩, .header ⟨b!"/", typeRegular, [], 0, false⟩]) x ∧ x.ending = .blocked ∧
      x.log = [.unit (.err (.msg "first header always needs to have a / as path"))]) := by
  refine ⟨⟨⟨⟨str narVersionMagic1, none⟩, none⟩, .start, false⟩, ⟨str narVersionMagic1, none⟩, by decide +kernel, ?_, ?_⟩
  · exact ⟨(writerInit 10 _ dirOps).auto someSchedule 200, reach_auto .., by decide +kernel, by decide +kernel, by decide +kernel⟩
  · exact ⟨(writerInit 10 _ _).auto someSchedule 200, reach_auto .., by decide +kernel, by decide +kernel⟩

end Verif.Props
