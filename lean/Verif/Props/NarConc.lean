import Verif.Spec.NarConc
import Verif.Lemmas.NarConc
import Verif.Props.NarReader

/-!
# Schedules (C37)
-/

namespace Verif.Props
open Verif.Nar Verif.Conc Verif.GoLib Verif.Wire

/-! ## The machine -/

theorem next_inv {C V S O : Type} [DecidableEq C] {x y : Conf C V S O} {l : Label C} (h : x.next l = some y) :
    (alive x.main = true ∧ alive x.go = true) ∧
    ((∃ c r, localStep x.closed x.mem x.log x.main c = some r ∧ y = ⟨r.1, x.go, r.2.1, r.2.2.1, r.2.2.2⟩) ∨
     (∃ c r, localStep x.closed x.mem x.log x.go c = some r ∧ y = ⟨x.main, r.1, r.2.1, r.2.2.1, r.2.2.2⟩) ∨
     (∃ r, handOver x.closed x.main x.go = some r ∧ y = { x with main := r.1, go := r.2 }) ∨
     (∃ r, handOver x.closed x.go x.main = some r ∧ y = { x with main := r.2, go := r.1 })) := by
  unfold Conf.next at h
  split at h
  · cases h
  · rename_i ha
    simp only [Bool.not_eq_true, Bool.not_eq_false', Bool.and_eq_true] at ha
    refine ⟨ha, ?_⟩
    cases l with
    | main c =>
      obtain ⟨r, h1, h2⟩ := Option.map_eq_some_iff.1 h
      exact .inl ⟨c, r, h1, h2.symm⟩
    | go c =>
      obtain ⟨r, h1, h2⟩ := Option.map_eq_some_iff.1 h
      exact .inr (.inl ⟨c, r, h1, h2.symm⟩)
    | mainToGo =>
      obtain ⟨r, h1, h2⟩ := Option.map_eq_some_iff.1 h
      exact .inr (.inr (.inl ⟨r, h1, h2.symm⟩))
    | goToMain =>
      obtain ⟨r, h1, h2⟩ := Option.map_eq_some_iff.1 h
      exact .inr (.inr (.inr ⟨r, h1, h2.symm⟩))

theorem handOver_inv {C V S O : Type} [DecidableEq C] {closed : C → Bool} {p q : Proc C V S O} {r} (h : handOver closed p q = some r) :
    ∃ c v k cs k', p = .send c v k ∧ q = .recv cs k' ∧ c ∈ cs ∧ closed c = false ∧ r = (k, k' c (some v)) := by
  unfold handOver at h
  split at h
  · rename_i c v k cs k'
    split at h
    · rename_i hc
      exact ⟨c, v, k, cs, k', rfl, rfl, hc.1, hc.2, (Option.some.inj h).symm⟩
    · cases h
  · cases h

/-- What a goroutine can become in one step. -/
inductive Smaller {C V S O : Type} : Proc C V S O → Proc C V S O → Prop where
  | act (f : S → S) (k : S → Proc C V S O) (s : S) : Smaller (k s) (.act f k)
  | emit (o : O) (k : Proc C V S O) : Smaller k (.emit o k)
  | send (c : C) (v : V) (k : Proc C V S O) : Smaller k (.send c v k)
  | recv (cs : List C) (k : C → Option V → Proc C V S O) (c : C) (v : Option V) : Smaller (k c v) (.recv cs k)
  | close (c : C) (k : Proc C V S O) : Smaller k (.close c k)
  | sendCrash (c : C) (v : V) (k : Proc C V S O) : Smaller .crash (.send c v k)
  | closeCrash (c : C) (k : Proc C V S O) : Smaller .crash (.close c k)

theorem smaller_acc {C V S O : Type} (p : Proc C V S O) : Acc Smaller p := by
  have crash : Acc Smaller (.crash : Proc C V S O) := ⟨_, fun y h => by cases h⟩
  induction p with
  | stop => exact ⟨_, fun y h => by cases h⟩
  | crash => exact crash
  | act f k ih => exact ⟨_, fun y h => by cases h; exact ih _⟩
  | emit o k ih => exact ⟨_, fun y h => by cases h; exact ih⟩
  | send c v k ih => exact ⟨_, fun y h => by cases h <;> assumption⟩
  | recv cs k ih => exact ⟨_, fun y h => by cases h; exact ih _ _⟩
  | close c k ih => exact ⟨_, fun y h => by cases h <;> assumption⟩

theorem smaller_local {C V S O : Type} [DecidableEq C] {closed : C → Bool} {mem : S} {log : List O} {p : Proc C V S O} {c : Option C} {r}
    (h : localStep closed mem log p c = some r) : Smaller r.1 p := by
  unfold localStep at h
  split at h
  · cases h; exact .act ..
  · cases h; exact .emit ..
  · split at h <;> cases h; exact .sendCrash ..
  · split at h <;> cases h
    · exact .closeCrash ..
    · exact .close ..
  · split at h <;> cases h; exact .recv ..
  · cases h

/-- C37: no schedule goes on for ever. -/
theorem C37_terminates {C V S O : Type} [DecidableEq C] : WellFounded fun (y x : Conf C V S O) => ∃ l, x.next l = some y := by
  constructor
  intro ⟨m, g, cl, mem, log⟩
  induction smaller_acc m generalizing g cl mem log with
  | intro m _ ihm =>
    induction smaller_acc g generalizing cl mem log with
    | intro g _ ihg =>
      constructor
      rintro y ⟨l, h⟩
      obtain ⟨_, ⟨c, r, hl, rfl⟩ | ⟨c, r, hl, rfl⟩ | ⟨r, hl, rfl⟩ | ⟨r, hl, rfl⟩⟩ := next_inv h
      · exact ihm _ (smaller_local hl) _ _ _ _
      · exact ihg _ (smaller_local hl) _ _ _
      · obtain ⟨c, v, k, cs, k', hm, _, _, _, rfl⟩ := handOver_inv hl
        simp only at hm
        subst hm
        exact ihm _ (.send ..) _ _ _ _
      · obtain ⟨c, v, k, cs, k', _, hm, _, _, rfl⟩ := handOver_inv hl
        simp only at hm
        subst hm
        exact ihm _ (.recv ..) _ _ _ _

/-! ## Reader -/

theorem goR_alive {p : RProg Unit} (h : p.NoPanic) : alive (goR p) = true := by
  cases p with
  | ret r =>
    cases r with
    | ok a => rfl
    | err e => rfl
    | panic => exact absurd rfl h
  | act f k => rfl
  | yield y k => rfl

/-- A goroutine waiting for `next`. -/
def waitR (kp : Bool → RProg Unit) : RProc := .recv [.next] fun _ v => goR (kp (v = some (.bool true)))

/-- What the goroutine may be doing while the caller is not in `Next`. -/
inductive Live (r : Reader) (closed : RChan → Bool) : RProc → Prop where
  | start : r.phase = .start → r.err = none → closed .headers = false → closed .errors = false → Live r closed readerGo
  | waiting (k) (kp : Bool → RProg Unit) : r.phase = .waiting k → (∀ i s, (kp i).denote s = k i s) → (∀ i, (kp i).NoPanic) →
      closed .headers = false → closed .errors = false → Live r closed (waitR kp)
  | tail1 : r.phase = .finished → r.err ≠ none → closed .headers = false → closed .errors = false → Live r closed rTail
  | tail2 : r.phase = .finished → r.err ≠ none → closed .errors = false → Live r closed (.close .errors .stop)
  | tail3 : r.phase = .finished → r.err ≠ none → Live r closed .stop

/-- What it may be doing after `Close`. -/
inductive Gone (closed : RChan → Bool) : RProc → Prop where
  | start : Gone closed readerGo
  | waiting (kp : Bool → RProg Unit) : (∀ i, (kp i).NoPanic) → closed .headers = false → closed .errors = false → Gone closed (waitR kp)
  | running (p : RProg Unit) : p.NoPanic → closed .headers = false → closed .errors = false → Gone closed (goR p)
  | tail1 : closed .headers = false → closed .errors = false → Gone closed rTail
  | tail2 : closed .errors = false → Gone closed (.close .errors .stop)
  | tail3 : Gone closed .stop

/-- No `Read`. -/
def noRead (ops : List ROp) : Prop := ∀ k, ROp.read k ∉ ops

/-- The goroutine while the caller is not in `Next`. -/
structure GoRel (r : Reader) (ops : List ROp) (x : Conf RChan RVal RState ROut) : Prop where
  next : x.closed .next = r.closed
  open_ : r.closed = false → x.mem = r.st ∧ Live r x.closed x.go ∧ noReadAfterClose ops = true
  shut : r.closed = true → Gone x.closed x.go ∧ noRead ops

theorem setClosed_self {C : Type} [DecidableEq C] (closed : C → Bool) (c : C) : setClosed closed c c = true := by simp [setClosed]
theorem setClosed_ne {C : Type} [DecidableEq C] (closed : C → Bool) {c d : C} (h : d ≠ c) : setClosed closed c d = closed d := by simp [setClosed, h]

theorem gone_alive {closed : RChan → Bool} {p : RProc} (h : Gone closed p) : alive p = true := by
  cases h with
  | running p hp _ _ => exact goR_alive hp
  | _ => rfl

theorem live_alive {r : Reader} {closed : RChan → Bool} {p : RProc} (h : Live r closed p) : alive p = true := by
  cases h <;> rfl

theorem gone_step {closed : RChan → Bool} {mem : RState} {log : List ROut} {p : RProc} {c : Option RChan} {r}
    (h : Gone closed p) (hs : localStep closed mem log p c = some r) :
    Gone r.2.1 r.1 ∧ r.2.1 .next = closed .next ∧ r.2.2.2 = log := by
  cases h with
  | start =>
    cases c with
    | none => cases hs
    | some c =>
      simp only [readerGo, localStep] at hs
      split at hs
      · cases hs
        rw [if_neg (by simp)]
        exact ⟨.tail3, rfl, rfl⟩
      · cases hs
  | waiting kp hk h1 h2 =>
    cases c with
    | none => cases hs
    | some c =>
      simp only [waitR, localStep] at hs
      split at hs
      · cases hs
        exact ⟨.running _ (hk _) h1 h2, rfl, rfl⟩
      · cases hs
  | running p hp h1 h2 =>
    cases p with
    | ret x =>
      cases x with
      | ok a => cases c <;> simp [goR, localStep, h2] at hs
      | err e => cases c <;> simp [goR, localStep, h2] at hs
      | panic => exact absurd rfl hp
    | act f k =>
      cases c with
      | none => cases hs; exact ⟨.running _ (hp mem) h1 h2, rfl, rfl⟩
      | some c => cases hs
    | yield y k => cases c <;> simp [goR, localStep, h1] at hs
  | tail1 h1 h2 =>
    cases c with
    | none =>
      simp only [rTail, localStep, h1] at hs
      cases hs
      exact ⟨.tail2 (by simpa [setClosed] using h2), by simp [setClosed], rfl⟩
    | some c => cases hs
  | tail2 h2 =>
    cases c with
    | none =>
      simp only [localStep, h2] at hs
      cases hs
      exact ⟨.tail3, by simp [setClosed], rfl⟩
    | some c => cases hs
  | tail3 => cases c <;> cases hs

theorem live_step {x : Reader} {closed : RChan → Bool} {mem : RState} {log : List ROut} {p : RProc} {c : Option RChan} {r}
    (h : Live x closed p) (hn : closed .next = false) (hs : localStep closed mem log p c = some r) :
    Live x r.2.1 r.1 ∧ r.2.1 .next = closed .next ∧ r.2.2.1 = mem ∧ r.2.2.2 = log := by
  cases h with
  | start h1 h2 h3 h4 =>
    cases c with
    | none => cases hs
    | some c =>
      simp only [readerGo, localStep, List.mem_singleton] at hs
      split at hs
      · rename_i hc; rw [hc.1, hn] at hc; exact absurd hc.2 (by simp)
      · cases hs
  | waiting k kp hk _ _ _ _ =>
    cases c with
    | none => cases hs
    | some c =>
      simp only [waitR, localStep, List.mem_singleton] at hs
      split at hs
      · rename_i hc; rw [hc.1, hn] at hc; exact absurd hc.2 (by simp)
      · cases hs
  | tail1 h1 h2 h3 h4 =>
    cases c with
    | none =>
      simp only [rTail, localStep, h3] at hs
      cases hs
      exact ⟨.tail2 h1 h2 (by simpa [setClosed] using h4), by simp [setClosed], rfl, rfl⟩
    | some c => cases hs
  | tail2 h1 h2 h3 =>
    cases c with
    | none =>
      simp only [localStep, h3] at hs
      cases hs
      exact ⟨.tail3 h1 h2, by simp [setClosed], rfl, rfl⟩
    | some c => cases hs
  | tail3 h1 h2 => cases c <;> cases hs

theorem live_mem {r : Reader} {closed : RChan → Bool} {p : RProc} (h : Live r closed p) (s : RState) : Live { r with st := s } closed p := by
  cases h with
  | start a b c d => exact .start a b c d
  | waiting k kp a b c d e => exact .waiting k kp a b c d e
  | tail1 a b c d => exact .tail1 a b c d
  | tail2 a b c => exact .tail2 a b c
  | tail3 a b => exact .tail3 a b

/-- `Close` turns one into the other. -/
theorem live_gone {r : Reader} {closed closed' : RChan → Bool} {p : RProc} (h : Live r closed p)
    (h1 : closed' .headers = closed .headers) (h2 : closed' .errors = closed .errors) : Gone closed' p := by
  cases h with
  | start => exact .start
  | waiting k kp _ _ hp h3 h4 => exact .waiting kp hp (by rw [h1, h3]) (by rw [h2, h4])
  | tail1 _ _ h3 h4 => exact .tail1 (by rw [h1, h3]) (by rw [h2, h4])
  | tail2 _ _ h4 => exact .tail2 (by rw [h2, h4])
  | tail3 => exact .tail3

/-- A goroutine that does not interact with the caller makes a step. -/
theorem goRel_go {r : Reader} {ops : List ROp} {x : Conf RChan RVal RState ROut} {c : Option RChan} {res}
    (h : GoRel r ops x) (hs : localStep x.closed x.mem x.log x.go c = some res) (main : RProc) :
    GoRel r ops ⟨main, res.1, res.2.1, res.2.2.1, res.2.2.2⟩ ∧ res.2.2.2 = x.log := by
  cases hc : r.closed with
  | false =>
    obtain ⟨h1, h2, h3⟩ := h.open_ hc
    obtain ⟨g1, g2, g3, g4⟩ := live_step h2 (by rw [h.next, hc]) hs
    exact ⟨⟨by rw [← h.next]; exact g2, fun _ => ⟨by rw [← h1]; exact g3, g1, h3⟩, fun h' => by rw [hc] at h'; cases h'⟩, g4⟩
  | true =>
    obtain ⟨h1, h2⟩ := h.shut hc
    obtain ⟨g1, g2, g4⟩ := gone_step h1 hs
    exact ⟨⟨by rw [← h.next]; exact g2, fun h' => (by rw [hc] at h'; cases h'), fun _ => ⟨g1, h2⟩⟩, g4⟩

/-- The receives of `Next`. -/
def nextK (ops : List ROp) (prev : Bytes) : RChan → Option RVal → RProc := fun c v =>
  match c, v with
  | .headers, some (.hdr h) =>
    if pathIsLexicographicallyOrdered prev h.path then .emit (.next (.ok h)) (readerMain ops none h.path)
    else .emit (.next (.err (.msg "received header in the wrong order")))
      (readerMain ops (some (.msg "received header in the wrong order")) prev)
  | .errors, some (.err e) => .emit (.next (.err e)) (readerMain ops (some e) prev)
  | _, _ => .crash

theorem readerMain_next (ops : List ROp) (prev : Bytes) :
    readerMain (.next :: ops) none prev = .send .next (.bool true) (.recv [.headers, .errors] (nextK ops prev)) := rfl

/-- The caller's view from here on is `L`, ending with `E`. -/
def Sees (L : List ROut × Ending) (log : List ROut) (rest : List ROut) : Prop :=
  (log ++ (seen ROut.ends rest).1, (seen ROut.ends rest).2) = L

/-- The invariant of the processes of a `Reader`. -/
inductive RI (L : List ROut × Ending) (x : Conf RChan RVal RState ROut) : Prop where
  | boundary (r : Reader) (ops : List ROp) : GoRel r ops x → x.main = readerMain ops r.err r.prev → Sees L x.log (r.run ops).1 → RI L x
  | pending (r : Reader) (ops : List ROp) (o : ROut) : GoRel r ops x → x.main = .emit o (readerMain ops r.err r.prev) →
      Sees L (x.log ++ [o]) (r.run ops).1 → RI L x
  | inNext (r : Reader) (ops : List ROp) (p : RProg Unit) : r.err = none → r.closed = false → noReadAfterClose ops = true →
      (∀ c, x.closed c = false) → x.main = .recv [.headers, .errors] (nextK ops r.prev) → x.go = goR p → p.NoPanic →
      r.next = r.receive (p.denote x.mem) → Sees L x.log (r.run (.next :: ops)).1 → RI L x
  | dead : x.main = .crash → L = (x.log, .panicked) → RI L x

theorem sees_cons {L : List ROut × Ending} {log rest : List ROut} {o : ROut} (ho : o.ends = none) :
    Sees L log (o :: rest) ↔ Sees L (log ++ [o]) rest := by
  unfold Sees
  simp only [seen, ho, List.append_assoc, List.singleton_append]

theorem sees_end {L : List ROut × Ending} {log rest : List ROut} {o : ROut} {e : Ending} (ho : o.ends = some e) :
    Sees L log (o :: rest) ↔ L = (log, e) := by
  unfold Sees
  simp only [seen, ho, List.append_nil]
  exact eq_comm

theorem run_cons (r : Reader) (o : ROp) (ops : List ROp) : (r.run (o :: ops)).1 = (r.op o).1 :: ((r.op o).2.run ops).1 := rfl

theorem contentRead_eq (r : Reader) (k : Nat) : r.read k = ((contentRead r.st k).1, { r with st := (contentRead r.st k).2 }) := by
  unfold contentRead Reader.read
  split
  · rfl
  · simp only
    split <;> rfl

theorem read_ends (r : Reader) (k : Nat) : (ROut.read (r.read k).1).ends = none := by
  unfold Reader.read
  split
  · rfl
  · simp only
    split <;> rfl

/-- A step of the goroutine alone. -/
theorem ri_go {L : List ROut × Ending} {x : Conf RChan RVal RState ROut} (h : RI L x) (hm : alive x.main = true) {c : Option RChan} {res}
    (hs : localStep x.closed x.mem x.log x.go c = some res) : RI L ⟨x.main, res.1, res.2.1, res.2.2.1, res.2.2.2⟩ := by
  cases h with
  | boundary r ops hg hmain hsee =>
    obtain ⟨h1, h2⟩ := goRel_go hg hs x.main
    exact .boundary r ops h1 hmain (by rw [h2]; exact hsee)
  | pending r ops o hg hmain hsee =>
    obtain ⟨h1, h2⟩ := goRel_go hg hs x.main
    exact .pending r ops o h1 hmain (by rw [h2]; exact hsee)
  | inNext r ops p he hcl hq hc hmain hgo hp hn hsee =>
    rw [hgo] at hs
    cases p with
    | ret y =>
      cases y with
      | ok a => cases c <;> simp [goR, localStep, hc] at hs
      | err e => cases c <;> simp [goR, localStep, hc] at hs
      | panic => exact absurd rfl hp
    | act f k =>
      cases c with
      | none =>
        cases hs
        exact .inNext r ops (k x.mem) he hcl hq hc hmain rfl (hp x.mem) hn hsee
      | some c => cases hs
    | yield y k => cases c <;> simp [goR, localStep, hc] at hs
  | dead hmain _ => rw [hmain] at hm; cases hm

theorem goRel_mono {r : Reader} {o : ROp} {ops : List ROp} {x : Conf RChan RVal RState ROut} (h : GoRel r (o :: ops) x) (ho : o ≠ .close)
    (main : RProc) (log : List ROut) : GoRel r ops ⟨main, x.go, x.closed, x.mem, log⟩ := by
  refine ⟨h.next, fun hc => ?_, fun hc => ?_⟩
  · obtain ⟨h1, h2, h3⟩ := h.open_ hc
    refine ⟨h1, h2, ?_⟩
    cases o with
    | close => exact absurd rfl ho
    | next => exact h3
    | read k => exact h3
  · obtain ⟨h1, h2⟩ := h.shut hc
    exact ⟨h1, fun k hk => h2 k (List.mem_cons_of_mem _ hk)⟩

theorem next_err_eq {r : Reader} {e : Err} (h : r.err = some e) : r.next = (.err e, r) := by
  unfold Reader.next; rw [h]

theorem next_closed_eq {r : Reader} (h : r.err = none) (hc : r.closed = true) : r.next = (.panic, r) := by
  unfold Reader.next; rw [h]; simp [hc]

theorem noReadAfterClose_close {ops : List ROp} (h : noReadAfterClose (.close :: ops) = true) : noRead ops := by
  intro k hk
  simp only [noReadAfterClose, List.all_eq_true] at h
  exact absurd (h _ hk) (by simp)

theorem close_eof {r : Reader} (h : r.err = some .eof) : r.close = (.ok (), r) := by
  unfold Reader.close; rw [if_pos h]

theorem close_closed {r : Reader} (h : r.err ≠ some .eof) (hc : r.closed = true) : r.close = (.panic, r) := by
  unfold Reader.close; rw [if_neg h, if_pos hc]

theorem close_open {r : Reader} (h : r.err ≠ some .eof) (hc : r.closed = false) :
    r.close.1 = .ok () ∧ r.close.2.closed = true ∧ r.close.2.err = r.err ∧ r.close.2.prev = r.prev := by
  unfold Reader.close
  rw [if_neg h, if_neg (by simp [hc])]
  split <;> exact ⟨rfl, rfl, rfl, rfl⟩

/-- A step of the caller alone. -/
theorem ri_main {L : List ROut × Ending} {x : Conf RChan RVal RState ROut} (h : RI L x) {c : Option RChan} {res}
    (hs : localStep x.closed x.mem x.log x.main c = some res) : RI L ⟨res.1, x.go, res.2.1, res.2.2.1, res.2.2.2⟩ := by
  cases h with
  | boundary r ops hg hmain hsee =>
    rw [hmain] at hs
    cases ops with
    | nil => cases c <;> cases hs
    | cons o ops =>
      rw [run_cons] at hsee
      cases o with
      | next =>
        cases he : r.err with
        | some e =>
          rw [he] at hs
          cases c with
          | some c => cases hs
          | none =>
            cases hs
            rw [show r.op .next = (.next (.err e), r) by simp [Reader.op, next_err_eq he], sees_cons rfl] at hsee
            exact .boundary r ops (goRel_mono hg (by simp) _ _) (by rw [he]) hsee
        | none =>
          rw [he, readerMain_next] at hs
          cases c with
          | some c => cases hs
          | none =>
            simp only [localStep] at hs
            split at hs
            · rename_i hc
              cases hs
              rw [hg.next] at hc
              rw [show r.op .next = (.next .panic, r) by simp [Reader.op, next_closed_eq he hc], sees_end rfl] at hsee
              exact .dead rfl hsee
            · cases hs
      | read k =>
        cases c with
        | some c => cases hs
        | none =>
          cases hs
          have hcl : r.closed = false := by
            cases hc : r.closed with
            | false => rfl
            | true => exact absurd List.mem_cons_self ((hg.shut hc).2 k)
          obtain ⟨h1, h2, h3⟩ := hg.open_ hcl
          rw [h1]
          have hop : r.op (.read k) = (.read (contentRead r.st k).1, { r with st := (contentRead r.st k).2 }) := by
            simp only [Reader.op, contentRead_eq]
          have hends : (ROut.read (contentRead r.st k).1).ends = none := by
            have := read_ends r k
            rw [contentRead_eq] at this
            exact this
          rw [hop, sees_cons hends] at hsee
          refine .pending { r with st := (contentRead r.st k).2 } ops _ ⟨hg.next, fun _ => ⟨rfl, ?_, h3⟩, fun hc => ?_⟩ rfl hsee
          · exact live_mem h2 _
          · simp only at hc
            rw [hcl] at hc; cases hc
      | close =>
        unfold readerMain at hs
        by_cases he : r.err = some .eof
        · rw [if_pos he] at hs
          cases c with
          | some c => cases hs
          | none =>
            cases hs
            rw [show r.op .close = (.close (.ok ()), r) by simp [Reader.op, close_eof he], sees_cons rfl] at hsee
            refine .boundary r ops ⟨hg.next, fun hc => ?_, fun hc => ?_⟩ rfl hsee
            · obtain ⟨h1, h2, h3⟩ := hg.open_ hc
              refine ⟨h1, h2, ?_⟩
              have : ∀ ops : List ROp, noRead ops → noReadAfterClose ops = true := by
                intro ops
                induction ops with
                | nil => intro _; rfl
                | cons o ops ih =>
                  intro h
                  cases o with
                  | next => exact ih fun k hk => h k (List.mem_cons_of_mem _ hk)
                  | read k => exact absurd List.mem_cons_self (h k)
                  | close =>
                    simp only [noReadAfterClose, List.all_eq_true]
                    intro o ho
                    cases o with
                    | read k => exact absurd (List.mem_cons_of_mem _ ho) (h k)
                    | next => rfl
                    | close => rfl
              exact this ops (noReadAfterClose_close h3)
            · obtain ⟨h1, h2⟩ := hg.shut hc
              exact ⟨h1, fun k hk => h2 k (List.mem_cons_of_mem _ hk)⟩
        · rw [if_neg he] at hs
          cases c with
          | some c => cases hs
          | none =>
            simp only [localStep] at hs
            cases hcl : r.closed with
            | true =>
              rw [if_pos (by rw [hg.next, hcl])] at hs
              cases hs
              rw [show r.op .close = (.close .panic, r) by simp [Reader.op, close_closed he hcl], sees_end rfl] at hsee
              exact .dead rfl hsee
            | false =>
              rw [if_neg (by rw [hg.next, hcl]; simp)] at hs
              cases hs
              obtain ⟨h1, h2, h3⟩ := hg.open_ hcl
              obtain ⟨c1, c2, c3, c4⟩ := close_open he hcl
              rw [show r.op .close = (.close (.ok ()), r.close.2) by simp [Reader.op, c1], sees_cons rfl] at hsee
              refine .pending r.close.2 ops _ ⟨?_, fun hc => ?_, fun _ => ⟨?_, noReadAfterClose_close h3⟩⟩ ?_ hsee
              · rw [c2]; simp [setClosed]
              · rw [c2] at hc; cases hc
              · exact live_gone h2 (by simp [setClosed]) (by simp [setClosed])
              · rw [c3, c4]
  | pending r ops o hg hmain hsee =>
    rw [hmain] at hs
    cases c with
    | some c => cases hs
    | none =>
      cases hs
      exact .boundary r ops ⟨hg.next, hg.open_, hg.shut⟩ rfl hsee
  | inNext r ops p he hcl hq hc hmain hgo hp hn hsee =>
    rw [hmain] at hs
    cases c with
    | none => cases hs
    | some c =>
      simp [localStep, hc] at hs
  | dead hmain _ => rw [hmain] at hs; cases c <;> cases hs

/-- The caller is at a send only before a `Next`. -/
theorem readerMain_send {ops : List ROp} {err : Option Err} {prev : Bytes} {c v k} (h : readerMain ops err prev = .send c v k) :
    ∃ ops', ops = .next :: ops' ∧ err = none ∧ c = .next ∧ v = .bool true ∧ k = .recv [.headers, .errors] (nextK ops' prev) := by
  cases ops with
  | nil => cases h
  | cons o ops =>
    cases o with
    | next =>
      cases err with
      | some e => cases h
      | none =>
        rw [readerMain_next] at h
        cases h
        exact ⟨ops, rfl, rfl, rfl, rfl, rfl⟩
    | read k => cases h
    | close =>
      unfold readerMain at h
      split at h <;> cases h

theorem readerMain_recv {ops : List ROp} {err : Option Err} {prev : Bytes} {cs k} : readerMain ops err prev ≠ .recv cs k := by
  cases ops with
  | nil => intro h; cases h
  | cons o ops =>
    cases o with
    | next => cases err <;> intro h <;> cases h
    | read k => intro h; cases h
    | close =>
      unfold readerMain
      split <;> intro h <;> cases h

/-- The caller resumes the goroutine. -/
theorem ri_mainToGo {L : List ROut × Ending} {x : Conf RChan RVal RState ROut} (h : RI L x) {res}
    (hs : handOver x.closed x.main x.go = some res) : RI L { x with main := res.1, go := res.2 } := by
  obtain ⟨c, v, k, cs, k', hmain', hgo', hc, hcl, rfl⟩ := handOver_inv hs
  cases h with
  | boundary r ops hg hmain hsee =>
    rw [hmain] at hmain'
    obtain ⟨ops, rfl, he, rfl, rfl, rfl⟩ := readerMain_send hmain'
    have hrc : r.closed = false := by rw [← hg.next]; exact hcl
    obtain ⟨h1, h2, h3⟩ := hg.open_ hrc
    rw [hgo'] at h2
    generalize hq : Proc.recv cs k' = q at h2
    cases h2 with
    | start a b c d =>
      cases hq
      refine .inNext r ops (.act id fun s => parseNodeP (s.stream.data.length + 1) b!"/") he hrc h3 ?_ rfl rfl ?_ ?_ hsee
      · intro ch; cases ch <;> assumption
      · intro s; exact (noPanic_parse _).1 _
      · unfold Reader.next Reader.resume
        rw [he, a]
        simp only [hrc, Prog.denote, id, h1]
        rw [(denote_parse _).1]
        rfl
    | waiting kk kp a b c d e =>
      cases hq
      refine .inNext r ops (kp true) he hrc h3 ?_ rfl (by simp) (c true) ?_ hsee
      · intro ch; cases ch <;> assumption
      · unfold Reader.next Reader.resume
        rw [he, a]
        simp only [hrc, b, h1]
        rfl
    | tail1 => cases hq
    | tail2 => cases hq
    | tail3 => cases hq
  | pending r ops o hg hmain hsee => rw [hmain] at hmain'; cases hmain'
  | inNext r ops p he hcl hq hc hmain hgo hp hn hsee => rw [hmain] at hmain'; cases hmain'
  | dead hmain _ => rw [hmain] at hmain'; cases hmain'

/-- `Next` receives from the goroutine. -/
theorem ri_goToMain {L : List ROut × Ending} {x : Conf RChan RVal RState ROut} (h : RI L x) {res}
    (hs : handOver x.closed x.go x.main = some res) : RI L { x with main := res.2, go := res.1 } := by
  obtain ⟨c, v, k, cs, k', hgo', hmain', hc, hcl, rfl⟩ := handOver_inv hs
  cases h with
  | boundary r ops hg hmain hsee => rw [hmain] at hmain'; exact absurd hmain' readerMain_recv
  | pending r ops o hg hmain hsee => rw [hmain] at hmain'; cases hmain'
  | inNext r ops p he hrc hq hcs hmain hgo hp hn hsee =>
    rw [hmain] at hmain'
    cases hmain'
    rw [hgo] at hgo'
    rw [run_cons] at hsee
    have fin : ∀ e : Err, r.next = (.err e, { r with st := x.mem, phase := .finished, err := some e }) →
        RI L ⟨.emit (.next (.err e)) (readerMain ops (some e) r.prev), rTail, x.closed, x.mem, x.log⟩ := by
      intro e hne
      rw [show r.op .next = (.next (.err e), { r with st := x.mem, phase := .finished, err := some e }) by simp [Reader.op, hne], sees_cons rfl] at hsee
      refine .pending { r with st := x.mem, phase := .finished, err := some e } ops _ ⟨?_, fun _ => ⟨rfl, ?_, hq⟩, fun h' => ?_⟩ rfl hsee
      · simp only [hrc, hcs]
      · exact .tail1 rfl (by simp) (hcs _) (hcs _)
      · simp only at h'; rw [hrc] at h'; cases h'
    cases p with
    | ret y =>
      cases y with
      | ok a => cases hgo'; exact fin .eof hn
      | err e => cases hgo'; exact fin e hn
      | panic => exact absurd rfl hp
    | act f k => cases hgo'
    | yield hd kp =>
      cases hgo'
      simp only [Prog.denote, Reader.receive] at hn
      show RI L ⟨nextK ops r.prev .headers (some (.hdr hd)), waitR kp, x.closed, x.mem, x.log⟩
      unfold nextK
      split at hn
      · rename_i hord
        simp only [hord, if_true]
        rw [show r.op .next = _ by simp only [Reader.op, hn]; rfl, sees_cons rfl] at hsee
        refine .pending { r with st := x.mem, phase := .waiting _, prev := hd.path } ops _ ⟨?_, fun _ => ⟨rfl, ?_, hq⟩, fun h' => ?_⟩ ?_ hsee
        · simp only [hrc, hcs]
        · exact .waiting _ kp rfl (fun _ _ => rfl) hp (hcs _) (hcs _)
        · simp only at h'; rw [hrc] at h'; cases h'
        · simp only [he]
      · rename_i hord
        simp only [hord]
        rw [show r.op .next = _ by simp only [Reader.op, hn]; rfl, sees_cons rfl] at hsee
        refine .pending { r with st := x.mem, phase := .waiting _, err := some (.msg "received header in the wrong order") } ops _
          ⟨?_, fun _ => ⟨rfl, ?_, hq⟩, fun h' => ?_⟩ ?_ hsee
        · simp only [hrc, hcs]
        · exact .waiting _ kp rfl (fun _ _ => rfl) hp (hcs _) (hcs _)
        · simp only at h'; rw [hrc] at h'; cases h'
        · rfl
  | dead hmain _ => rw [hmain] at hmain'; cases hmain'

theorem ri_step {L : List ROut × Ending} {x y : Conf RChan RVal RState ROut} {l : Label RChan} (h : RI L x) (hs : x.next l = some y) :
    RI L y := by
  obtain ⟨⟨h1, h2⟩, ⟨c, r, hl, rfl⟩ | ⟨c, r, hl, rfl⟩ | ⟨r, hl, rfl⟩ | ⟨r, hl, rfl⟩⟩ := next_inv hs
  · exact ri_main h hl
  · exact ri_go h h1 hl
  · exact ri_mainToGo h hl
  · exact ri_goToMain h hl

theorem final_main {C V S O : Type} [DecidableEq C] {x : Conf C V S O} (hf : x.Final) (h1 : alive x.main = true) (h2 : alive x.go = true)
    (c : Option C) : localStep x.closed x.mem x.log x.main c = none := by
  have := hf (.main c)
  unfold Conf.next at this
  simpa [h1, h2] using this

theorem final_go {C V S O : Type} [DecidableEq C] {x : Conf C V S O} (hf : x.Final) (h1 : alive x.main = true) (h2 : alive x.go = true)
    (c : Option C) : localStep x.closed x.mem x.log x.go c = none := by
  have := hf (.go c)
  unfold Conf.next at this
  simpa [h1, h2] using this

theorem final_mainToGo {C V S O : Type} [DecidableEq C] {x : Conf C V S O} (hf : x.Final) (h1 : alive x.main = true) (h2 : alive x.go = true) :
    handOver x.closed x.main x.go = none := by
  have := hf .mainToGo
  unfold Conf.next at this
  simpa [h1, h2] using this

theorem final_goToMain {C V S O : Type} [DecidableEq C] {x : Conf C V S O} (hf : x.Final) (h1 : alive x.main = true) (h2 : alive x.go = true) :
    handOver x.closed x.go x.main = none := by
  have := hf .goToMain
  unfold Conf.next at this
  simpa [h1, h2] using this

theorem goRel_alive {r : Reader} {ops : List ROp} {x : Conf RChan RVal RState ROut} (h : GoRel r ops x) : alive x.go = true := by
  cases hc : r.closed with
  | false => exact live_alive (h.open_ hc).2.1
  | true => exact gone_alive (h.shut hc).1

theorem ending_stop {C V S O : Type} {x : Conf C V S O} (h : x.main = .stop) (hg : alive x.go = true) : x.ending = .finished := by
  unfold Conf.ending
  rw [h]
  cases hgo : x.go with
  | crash => rw [hgo] at hg; cases hg
  | _ => rfl

theorem ending_crash {C V S O : Type} {x : Conf C V S O} (h : x.main = .crash) : x.ending = .panicked := by
  unfold Conf.ending
  rw [h]

/-- What the invariant says about a process. -/
theorem ri_facts {L : List ROut × Ending} {x : Conf RChan RVal RState ROut} (h : RI L x) :
    x.log <+: L.1 ∧ ¬ x.Race ∧ (x.Final → (x.log, x.ending) = L) ∧ (x.main = .stop → x.log = L.1 ∧ L.2 = .finished) := by
  cases h with
  | boundary r ops hg hmain hsee =>
    have hal := goRel_alive hg
    refine ⟨?_, ?_, ?_, ?_⟩
    · rw [← hsee]; exact List.prefix_append ..
    · rintro ⟨⟨f, k, hm⟩, g, k', hgo⟩
      rw [hmain] at hm
      have hcl : r.closed = false := by
        cases hc : r.closed with
        | false => rfl
        | true =>
          have hno := (hg.shut hc).2
          cases ops with
          | nil => cases hm
          | cons o ops =>
            cases o with
            | next => cases he : r.err <;> rw [he] at hm <;> cases hm
            | read k => exact absurd List.mem_cons_self (hno k)
            | close =>
              unfold readerMain at hm
              split at hm <;> cases hm
      have hl := (hg.open_ hcl).2.1
      rw [hgo] at hl
      generalize hq : Proc.act g k' = q at hl
      cases hl <;> cases hq
    · intro hf
      cases ops with
      | nil =>
        rw [← hsee]
        show (x.log, x.ending) = (x.log ++ [], .finished)
        rw [List.append_nil, ending_stop hmain hal]
      | cons o ops =>
        exfalso
        have ham : alive x.main = true := by
          rw [hmain]
          cases o with
          | next => cases r.err <;> rfl
          | read k => rfl
          | close => unfold readerMain; split <;> rfl
        have hno := final_main hf ham hal none
        rw [hmain] at hno
        cases o with
        | next =>
          cases he : r.err with
          | some e => rw [he] at hno; cases hno
          | none =>
            rw [he, readerMain_next] at hno
            simp only [localStep] at hno
            have hcl : x.closed .next = false := by
              cases hc : x.closed .next with
              | false => rfl
              | true => rw [hc] at hno; cases hno
            have hl := (hg.open_ (by rw [← hg.next]; exact hcl)).2.1
            have hh := final_mainToGo hf ham hal
            rw [hmain, he, readerMain_next] at hh
            generalize hq : x.go = q at hl hh
            cases hl with
            | start => simp [handOver, readerGo, hcl] at hh
            | waiting => simp [handOver, waitR, hcl] at hh
            | tail1 _ h2 => exact h2 he
            | tail2 _ h2 => exact h2 he
            | tail3 _ h2 => exact h2 he
        | read k => cases hno
        | close =>
          unfold readerMain at hno
          split at hno
          · cases hno
          · simp only [localStep] at hno
            split at hno <;> cases hno
    · intro hm
      rw [hmain] at hm
      cases ops with
      | nil => rw [← hsee]; exact ⟨by simp [Reader.run, seen], rfl⟩
      | cons o ops =>
        cases o with
        | next => cases he : r.err <;> rw [he] at hm <;> cases hm
        | read k => cases hm
        | close =>
          unfold readerMain at hm
          split at hm <;> cases hm
  | pending r ops o hg hmain hsee =>
    refine ⟨?_, ?_, ?_, ?_⟩
    · rw [← hsee, List.append_assoc]; exact List.prefix_append ..
    · rintro ⟨⟨f, k, hm⟩, _⟩
      rw [hmain] at hm; cases hm
    · intro hf
      have hno := final_main hf (by rw [hmain]; rfl) (goRel_alive hg) none
      rw [hmain] at hno
      cases hno
    · intro hm; rw [hmain] at hm; cases hm
  | inNext r ops p he hcl hq hc hmain hgo hp hn hsee =>
    have hal : alive x.go = true := by rw [hgo]; exact goR_alive hp
    have ham : alive x.main = true := by rw [hmain]; rfl
    refine ⟨?_, ?_, ?_, ?_⟩
    · rw [← hsee]; exact List.prefix_append ..
    · rintro ⟨⟨f, k, hm⟩, _⟩
      rw [hmain] at hm; cases hm
    · intro hf
      have h1 := final_go hf ham hal none
      have h2 := final_goToMain hf ham hal
      rw [hgo] at h1
      rw [hgo, hmain] at h2
      cases p with
      | ret y =>
        cases y with
        | ok a => simp [goR, handOver, hc] at h2
        | err e => simp [goR, handOver, hc] at h2
        | panic => exact absurd rfl hp
      | act f k => cases h1
      | yield hd k => simp [goR, handOver, hc] at h2
    · intro hm; rw [hmain] at hm; cases hm
  | dead hmain hL =>
    subst hL
    refine ⟨List.prefix_refl _, ?_, ?_, ?_⟩
    · rintro ⟨⟨f, k, hm⟩, _⟩
      rw [hmain] at hm; cases hm
    · intro _; rw [ending_crash hmain]
    · intro hm; rw [hmain] at hm; cases hm

/-- C37 for the `Reader`: whatever the scheduler does, the calls return what they return in the sequential model, the process ends as it says (it
does not deadlock), and the goroutines never access the shared state at the same time; provided that `Read` is not called
after `Close`. -/
theorem C37_reader_partial (s s' : Stream) (r : Reader) (hr : newReader s = (.ok r, s')) (ops : List ROp) (hq : noReadAfterClose ops = true)
    (x : Conf RChan RVal RState ROut) (hx : Reach (readerInit r.st ops) x) :
    x.log <+: (seen ROut.ends (r.run ops).1).1 ∧ ¬ x.Race ∧
    (x.Final → (x.log, x.ending) = seen ROut.ends (r.run ops).1) ∧
    (x.main = .stop → x.log = (seen ROut.ends (r.run ops).1).1 ∧ (seen ROut.ends (r.run ops).1).2 = .finished) := by
  apply ri_facts
  have hinit : RI (seen ROut.ends (r.run ops).1) (readerInit r.st ops) := by
    have hr' : r = ⟨r.st, .start, none, [], false⟩ := by
      unfold newReader at hr
      split at hr <;> cases hr
      rfl
    refine .boundary r ops ⟨by rw [hr']; rfl, fun _ => ⟨rfl, ?_, hq⟩, fun h => ?_⟩ ?_ ?_
    · exact .start (by rw [hr']) (by rw [hr']) rfl rfl
    · rw [hr'] at h; cases h
    · rw [hr']; rfl
    · rfl
  induction hx with
  | refl => exact hinit
  | step l _ hs ih => exact ri_step ih hs

/-- A directory with one file. -/
def dirTree : Spec.Tree := .directory (.cons b!"f" (.regular false b!"hello, world") .nil)

/-- Two calls of `Next`, then `Close`, then `Read`. -/
def readAfterClose : List ROp := [.next, .next, .close, .read 12]

def preferMain : List (Label RChan) := [.main none, .mainToGo, .goToMain, .go none, .go (some .next)]
def preferGo : List (Label RChan) := [.go (some .next), .go none, .goToMain, .mainToGo, .main none]

theorem reach_trans {C V S O : Type} [DecidableEq C] {x y z : Conf C V S O} (h : Reach x y) (h' : Reach y z) : Reach x z := by
  induction h' with
  | refl => exact h
  | step l _ hs ih => exact .step l ih hs

def isAct {C V S O : Type} : Proc C V S O → Bool
  | .act _ _ => true
  | _ => false

theorem race_of {C V S O : Type} {x : Conf C V S O} (h : isAct x.main = true ∧ isAct x.go = true) : x.Race := by
  obtain ⟨h1, h2⟩ := h
  constructor
  · cases hm : x.main with
    | act f k => exact ⟨f, k, rfl⟩
    | _ => rw [hm] at h1; cases h1
  · cases hm : x.go with
    | act f k => exact ⟨f, k, rfl⟩
    | _ => rw [hm] at h2; cases h2

/-- The state of a new reader of `dirTree`. -/
def dirState : RState := ⟨⟨dirTree.node, .eof⟩, 0, 0⟩

/-- C37 without that restriction is false: after `Close` the goroutine goes on reading inside a directory. A `Read` then races with it: there is
a schedule in which both are about to access the shared state, and what `Read` returns depends on the schedule. -/
theorem C37_reader_refuted : ∃ r s', newReader ⟨dirTree.nar, .eof⟩ = (.ok r, s') ∧
    (∃ x, Reach (readerInit r.st readAfterClose) x ∧ x.Race) ∧
    (∃ x, Reach (readerInit r.st readAfterClose) x ∧ x.ending = .finished ∧ x.log.getLast? = some (.read (.ok b!"hello, world"))) ∧
    (∃ x, Reach (readerInit r.st readAfterClose) x ∧ x.ending = .finished ∧ x.log.getLast? = some (.read (.ok (b!"orld" ++ [0, 0, 0, 0, 1, 0, 0, 0])))) := by
  refine ⟨⟨dirState, .start, none, [], false⟩, dirState.stream, newReader_nar' dirTree .eof, ?_, ?_, ?_⟩
  · exact ⟨((readerInit dirState readAfterClose).auto preferMain 24).auto [.go (some .next)] 1,
      reach_trans (reach_auto ..) (reach_auto ..), race_of (by decide +kernel)⟩
  · exact ⟨(readerInit dirState readAfterClose).auto preferMain 200, reach_auto .., by decide +kernel, by decide +kernel⟩
  · exact ⟨(readerInit dirState readAfterClose).auto preferGo 200, reach_auto .., by decide +kernel, by decide +kernel⟩

/-- A complete reading of an archive, followed by `Close`, is an instance of `C37_reader_partial`. -/
example : ∃ r s', newReader ⟨dirTree.nar, .eof⟩ = (.ok r, s') ∧ noReadAfterClose [.next, .next, .read 5, .next, .next, .close] = true ∧
    (seen ROut.ends (r.run [.next, .next, .read 5, .next, .next, .close]).1).1.length = 6 ∧
    ∃ x, Reach (readerInit r.st [.next, .next, .read 5, .next, .next, .close]) x ∧ x.ending = .finished ∧ x.log.length = 6 :=
  ⟨⟨dirState, .start, none, [], false⟩, dirState.stream, newReader_nar' dirTree .eof, rfl, by decide +kernel,
    (readerInit dirState _).auto preferGo 200, reach_auto .., by decide +kernel, by decide +kernel⟩

end Verif.Props
