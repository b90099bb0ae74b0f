import Verif.Coro

/-!
# Two goroutines with unbuffered channels

`Proc` is the text of a goroutine as far as other goroutines can notice it: accesses to shared memory, channel
operations and panics. `Conf` are two of them (the caller of an API and the background goroutine it started) with the
channels and the shared memory; `Conf.next` is one step of the Go scheduler's choice. Nothing is assumed about the
scheduler. A panic of either ends the process.
-/

namespace Verif.Conc

/-- A goroutine. `C`: channels, `V`: values sent, `S`: shared memory, `O`: what calls of the API returned. -/
inductive Proc (C V S O : Type) : Type where
  /-- returned -/
  | stop
  /-- panicked -/
  | crash
  /-- one access to the shared memory: in state `s` it becomes `f s`, and the goroutine continues with `k s` -/
  | act (f : S → S) (k : S → Proc C V S O)
  /-- a call of the API returned -/
  | emit (o : O) (k : Proc C V S O)
  /-- `c <- v` -/
  | send (c : C) (v : V) (k : Proc C V S O)
  /-- `<-c`, or a `select` of receives from the channels `cs`; `none` comes from a closed channel -/
  | recv (cs : List C) (k : C → Option V → Proc C V S O)
  /-- `close(c)` -/
  | close (c : C) (k : Proc C V S O)

/-- A process: the calling goroutine, the background goroutine, which channels are closed, the memory, and the
results of the API calls so far. -/
structure Conf (C V S O : Type) where
  main : Proc C V S O
  go : Proc C V S O
  closed : C → Bool
  mem : S
  log : List O

/-- What the scheduler may choose: a step of one goroutine alone (for a receive from a closed channel: which one), or a hand-over. -/
inductive Label (C : Type) where
  | main (c : Option C)
  | go (c : Option C)
  | mainToGo
  | goToMain
  deriving DecidableEq, Repr

variable {C V S O : Type} [DecidableEq C]

/-- Mark a channel as closed. -/
def setClosed (closed : C → Bool) (c : C) : C → Bool := fun x => if x = c then true else closed x

/-- A step of a goroutine that needs no partner. Sending on a closed channel and closing it again panic; receiving from it
succeeds at once. -/
def localStep (closed : C → Bool) (mem : S) (log : List O) : Proc C V S O → Option C → Option (Proc C V S O × (C → Bool) × S × List O)
  | .act f k, none => some (k mem, closed, f mem, log)
  | .emit o k, none => some (k, closed, mem, log ++ [o])
  | .send c _ _, none => if closed c then some (.crash, closed, mem, log) else none
  | .close c k, none => if closed c then some (.crash, closed, mem, log) else some (k, setClosed closed c, mem, log)
  | .recv cs k, some c => if c ∈ cs ∧ closed c then some (k c none, closed, mem, log) else none
  | _, _ => none

/-- A send of the first goroutine meets a receive of the second. -/
def handOver (closed : C → Bool) : Proc C V S O → Proc C V S O → Option (Proc C V S O × Proc C V S O)
  | .send c v k, .recv cs k' => if c ∈ cs ∧ closed c = false then some (k, k' c (some v)) else none
  | _, _ => none

/-- The process has not panicked. -/
def alive : Proc C V S O → Bool
  | .crash => false
  | _ => true

/-- One step, if the scheduler's choice is possible. -/
def Conf.next (x : Conf C V S O) (l : Label C) : Option (Conf C V S O) :=
  if !(alive x.main && alive x.go) then none
  else match l with
    | .main c => (localStep x.closed x.mem x.log x.main c).map fun r => ⟨r.1, x.go, r.2.1, r.2.2.1, r.2.2.2⟩
    | .go c => (localStep x.closed x.mem x.log x.go c).map fun r => ⟨x.main, r.1, r.2.1, r.2.2.1, r.2.2.2⟩
    | .mainToGo => (handOver x.closed x.main x.go).map fun r => { x with main := r.1, go := r.2 }
    | .goToMain => (handOver x.closed x.go x.main).map fun r => { x with main := r.2, go := r.1 }

/-- Some scheduler gets from one configuration to the other. -/
inductive Reach (x : Conf C V S O) : Conf C V S O → Prop where
  | refl : Reach x x
  | step {y z : Conf C V S O} (l : Label C) : Reach x y → y.next l = some z → Reach x z

/-- No step is possible any more. -/
def Conf.Final (x : Conf C V S O) : Prop := ∀ l, x.next l = none

/-- Both goroutines are about to access the shared memory. -/
def Conf.Race (x : Conf C V S O) : Prop := (∃ f k, x.main = .act f k) ∧ ∃ f k, x.go = .act f k

/-- How a process ended. -/
inductive Ending where
  | finished
  | panicked
  | blocked
  deriving DecidableEq, Repr

/-- The ending of a final configuration, seen from the caller. -/
def Conf.ending (x : Conf C V S O) : Ending :=
  match x.main, x.go with
  | .crash, _ => .panicked
  | _, .crash => .panicked
  | .stop, _ => .finished
  | _, _ => .blocked

/-- A scheduler that always takes the first possible choice of a list, for `n` steps. -/
def Conf.auto (prefer : List (Label C)) : Nat → Conf C V S O → Conf C V S O
  | 0, x => x
  | n + 1, x =>
    match prefer.findSome? x.next with
    | none => x
    | some y => Conf.auto prefer n y

theorem reach_auto (prefer : List (Label C)) (n : Nat) (x : Conf C V S O) : Reach x (x.auto prefer n) := by
  have key : ∀ (n : Nat) (z : Conf C V S O), Reach x z → Reach x (z.auto prefer n) := by
    intro n
    induction n with
    | zero => intro z hz; exact hz
    | succ n ih =>
      intro z hz
      unfold Conf.auto
      split
      · exact hz
      · rename_i y hy
        obtain ⟨l, _, hl⟩ := List.exists_of_findSome?_eq_some hy
        exact ih y (.step l hz hl)
  exact key n x .refl

end Verif.Conc

namespace Verif

/-- A function run in a goroutine, with its accesses to the shared memory as single steps; compare `Step`. -/
inductive Prog (σ Y I α : Type) : Type where
  | ret (r : Res α)
  | act (f : σ → σ) (k : σ → Prog σ Y I α)
  | yield (y : Y) (k : I → Prog σ Y I α)

namespace Prog
variable {σ Y I α β : Type}

/-- Sequencing with `if err != nil { return err }`. -/
protected def bind : Prog σ Y I α → (α → Prog σ Y I β) → Prog σ Y I β
  | ret (.ok a), f => f a
  | ret (.err e), _ => ret (.err e)
  | ret .panic, _ => ret .panic
  | act g k, f => act g (fun s => (k s).bind f)
  | yield y k, f => yield y (fun i => (k i).bind f)

instance : Monad (Prog σ Y I) where
  pure a := ret (.ok a)
  bind := Prog.bind

/-- One access to the shared memory. -/
def lift (m : M σ α) : Prog σ Y I α := act (fun s => (m s).2) (fun s => ret (m s).1)

/-- Return an error. -/
def fail (e : Err) : Prog σ Y I α := ret (.err e)

/-- Hand over to the caller and wait for its input. -/
def hand (y : Y) : Prog σ Y I I := yield y fun i => ret (.ok i)

/-- The same function when nothing interferes between two hand-overs. -/
def denote : Prog σ Y I α → σ → Step σ Y I α
  | ret r, s => .done r s
  | act f k, s => denote (k s) (f s)
  | yield y k, s => .yield y s fun i s' => denote (k i) s'

theorem denote_bind (p : Prog σ Y I α) (f : α → Prog σ Y I β) (s : σ) :
    (p >>= f).denote s = (p.denote s).bind fun a s' => (f a).denote s' := by
  show (p.bind f).denote s = _
  induction p generalizing s with
  | ret r => cases r <;> rfl
  | act g k ih => exact ih s (g s)
  | yield y k ih =>
    show Step.yield _ _ _ = Step.yield _ _ _
    refine congrArg (Step.yield y s) ?_
    funext i s'
    exact ih i s'

@[simp] theorem denote_ret (r : Res α) (s : σ) : (ret r : Prog σ Y I α).denote s = .done r s := rfl
@[simp] theorem denote_pure (a : α) (s : σ) : (pure a : Prog σ Y I α).denote s = .done (.ok a) s := rfl
@[simp] theorem denote_fail (e : Err) (s : σ) : (fail e : Prog σ Y I α).denote s = .done (.err e) s := rfl
@[simp] theorem denote_lift (m : M σ α) (s : σ) : (lift m : Prog σ Y I α).denote s = .done (m s).1 (m s).2 := rfl
@[simp] theorem denote_hand (y : Y) (s : σ) : (hand y : Prog σ Y I I).denote s = .yield y s fun i s' => .done (.ok i) s' := rfl

/-- It does not panic. -/
def NoPanic : Prog σ Y I α → Prop
  | ret r => r ≠ .panic
  | act _ k => ∀ s, NoPanic (k s)
  | yield _ k => ∀ i, NoPanic (k i)

theorem noPanic_bind {p : Prog σ Y I α} {f : α → Prog σ Y I β} (hp : p.NoPanic) (hf : ∀ a, (f a).NoPanic) : (p >>= f).NoPanic := by
  show (p.bind f).NoPanic
  induction p with
  | ret r =>
    cases r with
    | ok a => exact hf a
    | err e => exact fun h => nomatch h
    | panic => exact absurd rfl hp
  | act g k ih => intro s; exact ih s (hp s)
  | yield y k ih => intro i; exact ih i (hp i)

theorem noPanic_lift {m : M σ α} (h : ∀ s, (m s).1 ≠ .panic) : (lift m : Prog σ Y I α).NoPanic := h

end Prog

end Verif
