/-!
# Basic vocabulary of the model

`Bytes` stands for Go's `string` and `[]byte`; `Res` for the outcome of a Go call.
-/

namespace Verif

/-- A Go `string` or `[]byte` (contents only). -/
abbrev Bytes := List UInt8

/-- `b!"text"` is the list of the character codes of an ASCII literal. -/
syntax:max "b!" str : term

macro_rules
  | `(b!$s:str) => do
    let elems : Array (Lean.TSyntax `term) :=
      (s.getString.toList.map fun c => Lean.Syntax.mkNumLit (toString c.toNat)).toArray
    `(([$elems,*] : Bytes))

/-- Go `error` values, as far as the code distinguishes them. `msg` carries a label naming the
error site (message texts are not modelled); `io` is an I/O error of an underlying reader or
writer. -/
inductive Err where
  | eof
  | unexpectedEOF
  | io
  | msg (label : String)
  deriving DecidableEq, Repr

/-- Outcome of a Go call: a result, a returned error, or a run-time panic. -/
inductive Res (α : Type) where
  | ok (a : α)
  | err (e : Err)
  | panic
  deriving DecidableEq, Repr

namespace Res

variable {α β : Type}

/-- Sequencing: `if err != nil { return err }`. -/
protected def bind (x : Res α) (f : α → Res β) : Res β :=
  match x with
  | ok a => f a
  | err e => err e
  | panic => panic

instance : Monad Res where
  pure := ok
  bind := Res.bind

@[simp] theorem bind_ok (a : α) (f : α → Res β) : (ok a >>= f) = f a := rfl
@[simp] theorem bind_err (e : Err) (f : α → Res β) : (err e >>= f) = err e := rfl
@[simp] theorem bind_panic (f : α → Res β) : ((panic : Res α) >>= f) = panic := rfl
@[simp] theorem pure_eq (a : α) : (pure a : Res α) = ok a := rfl

theorem bind_eq_ok {x : Res α} {f : α → Res β} {b : β} :
    (x >>= f) = ok b ↔ ∃ a, x = ok a ∧ f a = ok b := by
  cases x <;> simp

/-- The call returned without error and without panic. -/
def isOk : Res α → Bool
  | ok _ => true
  | _ => false

/-- The call panicked. -/
def isPanic : Res α → Bool
  | panic => true
  | _ => false

@[simp] theorem isOk_ok (a : α) : (ok a).isOk = true := rfl
@[simp] theorem isOk_err (e : Err) : (err e : Res α).isOk = false := rfl
@[simp] theorem isOk_panic : (panic : Res α).isOk = false := rfl

theorem isOk_iff {x : Res α} : x.isOk = true ↔ ∃ a, x = ok a := by
  cases x <;> simp

end Res

/-- Go `x << k` on a byte: bits shifted out are lost, shifts of 8 or more give 0. -/
def goShl (x : UInt8) (k : Nat) : UInt8 := UInt8.ofNat (x.toNat <<< k)

/-- Go `x >> k` on a byte: shifts of 8 or more give 0. -/
def goShr (x : UInt8) (k : Nat) : UInt8 := UInt8.ofNat (x.toNat >>> k)

end Verif

namespace Verif

/-- A computation on a state (reader or writer) that may fail or panic. The state is kept also in
case of failure: a failed read has consumed what it consumed. -/
def M (σ α : Type) : Type := σ → Res α × σ

namespace M

variable {σ α β : Type}

/-- Sequencing: `if err != nil { return err }`. -/
protected def bind (m : M σ α) (f : α → M σ β) : M σ β := fun s =>
  match m s with
  | (.ok a, s') => f a s'
  | (.err e, s') => (.err e, s')
  | (.panic, s') => (.panic, s')

instance : Monad (M σ) where
  pure a := fun s => (.ok a, s)
  bind := M.bind

/-- Return an error. -/
def fail (e : Err) : M σ α := fun s => (.err e, s)

/-- Run-time panic. -/
def panic : M σ α := fun s => (.panic, s)

@[simp] theorem pure_apply (a : α) (s : σ) : (pure a : M σ α) s = (.ok a, s) := rfl
@[simp] theorem fail_apply (e : Err) (s : σ) : (fail e : M σ α) s = (.err e, s) := rfl
@[simp] theorem panic_apply (s : σ) : (panic : M σ α) s = (.panic, s) := rfl

theorem bind_apply (m : M σ α) (f : α → M σ β) (s : σ) :
    (m >>= f) s = match m s with
      | (.ok a, s') => f a s'
      | (.err e, s') => (.err e, s')
      | (.panic, s') => (.panic, s') := rfl

theorem bind_ok {m : M σ α} {f : α → M σ β} {s s' : σ} {a : α} (h : m s = (.ok a, s')) :
    (m >>= f) s = f a s' := by rw [bind_apply, h]

theorem bind_err {m : M σ α} {f : α → M σ β} {s s' : σ} {e : Err} (h : m s = (.err e, s')) :
    (m >>= f) s = (.err e, s') := by rw [bind_apply, h]

theorem bind_panic {m : M σ α} {f : α → M σ β} {s s' : σ} (h : m s = (.panic, s')) :
    (m >>= f) s = (.panic, s') := by rw [bind_apply, h]

theorem bind_eq_ok {m : M σ α} {f : α → M σ β} {s s'' : σ} {b : β} :
    (m >>= f) s = (.ok b, s'') ↔ ∃ a s', m s = (.ok a, s') ∧ f a s' = (.ok b, s'') := by
  rw [bind_apply]
  rcases m s with ⟨_ | _ | _, _⟩ <;> simp
  constructor
  · intro h; exact ⟨_, _, ⟨rfl, rfl⟩, h⟩
  · rintro ⟨_, _, ⟨rfl, rfl⟩, h⟩; exact h

end M
end Verif
