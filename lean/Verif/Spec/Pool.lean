import Verif.Model.Pool

/-!
# What goroutines sharing the buffer pool should observe

A goroutine run `alone` has no pool and no buffers: its calls are the functions of `Model/Wire` on its own reader and
writer.
-/

namespace Verif.Pool
open Verif.Wire

/-- A call, without any pool. -/
def Op.alone : Op → Dev → Out × Dev
  | .readUint64, d => (.num (FReader.readUint64 d.r).1, { d with r := (FReader.readUint64 d.r).2 })
  | .readPadding n, d => (.unit (FReader.readPadding n d.r).1, { d with r := (FReader.readPadding n d.r).2 })
  | .writeUint64 n, d => (.unit (Wire.writeUint64 n d.w).1, { d with w := (Wire.writeUint64 n d.w).2 })

/-- A whole goroutine, without any pool and without the others: what it computes and how it leaves its devices. -/
def Prog.alone {α : Type} : Prog α → Dev → α × Dev
  | .done a, d => (a, d)
  | .call o k, d => (k (o.alone d).1).alone (o.alone d).2
  | .own f k, d => (k d).alone (f d)

/-- The buffer a goroutine holds. -/
def PC.buf {α : Type} : PC α → Option Nat
  | .at _ => none
  | .holding b _ _ => some b
  | .reading b _ _ _ => some b
  | .looking b _ _ _ _ => some b
  | .writing b _ _ => some b
  | .leaving b _ _ => some b

/-- The programs `progs` are started on the devices `devs`; the pool holds some of the buffers allocated so far, each
once, with any contents. -/
structure Start {α : Type} (progs : Nat → Prog α) (devs : Nat → Dev) (c : Conf α) : Prop where
  threads : ∀ i, c.threads i = ⟨.at (progs i), devs i⟩
  once : c.pool.Nodup
  allocated : ∀ b ∈ c.pool, b < c.fresh
  eight : ∀ b, b < c.fresh → (c.heap b).length = 8

end Verif.Pool
