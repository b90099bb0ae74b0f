import Verif.Basic

/-!
# Goroutines used as coroutines

`nar.Reader` and `nar.Writer` run a recursive function in a goroutine that hands control back and
forth with the caller over unbuffered channels. A `Step` is what such a goroutine does next:
return, or hand a value `Y` to the caller and wait for an input `I`; the shared state `σ` may have
been changed by the caller in between.
-/

namespace Verif

/-- What a goroutine does next. -/
inductive Step (σ Y I α : Type) : Type where
  /-- the function returned -/
  | done (r : Res α) (s : σ)
  /-- hand `y` to the caller, wait for an input, continue with `k` -/
  | yield (y : Y) (s : σ) (k : I → σ → Step σ Y I α)

namespace Step
variable {σ Y I α β γ : Type}

/-- Sequencing with `if err != nil { return err }`. -/
def bind (st : Step σ Y I α) (f : α → σ → Step σ Y I β) : Step σ Y I β :=
  match st with
  | done (.ok a) s => f a s
  | done (.err e) s => done (.err e) s
  | done .panic s => done .panic s
  | yield y s k => yield y s (fun i s' => (k i s').bind f)

@[simp] theorem bind_done_ok (a : α) (s : σ) (f : α → σ → Step σ Y I β) :
    (done (.ok a) s).bind f = f a s := rfl
@[simp] theorem bind_done_err (e : Err) (s : σ) (f : α → σ → Step σ Y I β) :
    (done (.err e) s).bind f = done (.err e) s := rfl
@[simp] theorem bind_done_panic (s : σ) (f : α → σ → Step σ Y I β) :
    (done (.panic) s).bind f = done (.panic) s := rfl
@[simp] theorem bind_yield (y : Y) (s : σ) (k : I → σ → Step σ Y I α) (f : α → σ → Step σ Y I β) :
    (yield y s k).bind f = yield y s (fun i s' => (k i s').bind f) := rfl

theorem bind_assoc (st : Step σ Y I α) (f : α → σ → Step σ Y I β) (g : β → σ → Step σ Y I γ) :
    (st.bind f).bind g = st.bind (fun a s => (f a s).bind g) := by
  induction st with
  | done r s => cases r <;> rfl
  | yield y s k ih => simp only [bind_yield]; congr 1; funext i s'; exact ih i s'

end Step

/-- A computation that may hand over to the caller. -/
structure Coro (σ Y I α : Type) : Type where
  run : σ → Step σ Y I α

namespace Coro
variable {σ Y I α β : Type}

instance : Monad (Coro σ Y I) where
  pure a := ⟨fun s => .done (.ok a) s⟩
  bind m f := ⟨fun s => (m.run s).bind (fun a s' => (f a).run s')⟩

/-- A computation without hand-over. -/
def lift (m : M σ α) : Coro σ Y I α := ⟨fun s => .done (m s).1 (m s).2⟩

/-- Return an error. -/
def fail (e : Err) : Coro σ Y I α := ⟨fun s => .done (.err e) s⟩

/-- Hand over to the caller and wait for its input. -/
def yield (y : Y) : Coro σ Y I I := ⟨fun s => .yield y s (fun i s' => .done (.ok i) s')⟩

@[simp] theorem run_pure (a : α) (s : σ) : (pure a : Coro σ Y I α).run s = .done (.ok a) s := rfl
@[simp] theorem run_bind (m : Coro σ Y I α) (f : α → Coro σ Y I β) (s : σ) :
    (m >>= f).run s = (m.run s).bind (fun a s' => (f a).run s') := rfl
@[simp] theorem run_fail (e : Err) (s : σ) : (fail e : Coro σ Y I α).run s = .done (.err e) s := rfl
@[simp] theorem run_yield (y : Y) (s : σ) :
    (yield y : Coro σ Y I I).run s = .yield y s (fun i s' => .done (.ok i) s') := rfl

end Coro

/-- Outcome of a call on an object with a background goroutine: it may also block forever. -/
inductive Call (α : Type) where
  | ok (a : α)
  | err (e : Err)
  | panic
  | block
  deriving DecidableEq, Repr

end Verif
