import Verif.Spec.History

/-!
# What a user sees of a solver

The values returned by a sequence of calls, and when two solvers cannot be told apart by them.
-/

set_option autoImplicit false

namespace Nbkode.Spec
open Nbkode Solver

variable {α : Type}
variable [Add α] [Sub α] [Mul α] [Div α] [Neg α] [Zero α] [One α] [NatCast α] [BEq α]
variable [LT α] [DecidableLT α] [LE α] [DecidableLE α]
variable {n k : Nat} {X : Type}

/-- The value returned by a call. -/
inductive Answer (α : Type) (n k : Nat) where
  | step (o : StepOut α n k)
  | skip
  | interpolate (r : Ref α n k)
  | run (out : List (α × Vec α n))
  | runEvents (o : RunOut α n k)

/-- Making a call, with its value. -/
def Call.answer (S : Solver α n k X) (bo : BisectOpts α) (argsort : List α → List Nat) :
    Call α n → Py (St α n k X) (Answer α n k)
  | .step m u => do return .step (← S.step m u)
  | .skip m u => do S.skip m u; return .skip
  | .interpolate t => do return .interpolate (← S.interpolate t)
  | .run ts => do return .run (← S.run bo argsort ts)
  | .runEvents ts es => do return .runEvents (← S.runEvents bo argsort ts es)

/-- Making calls one after the other, with their values. -/
def answers (S : Solver α n k X) (bo : BisectOpts α) (argsort : List α → List Nat) :
    List (Call α n) → Py (St α n k X) (List (Answer α n k))
  | [] => return []
  | c :: cs => do
    let a ← c.answer S bo argsort
    let as ← answers S bo argsort cs
    return a :: as

/-- `Returns S bo argsort s cs l`: made on a solver in state `s` the calls `cs` return the values `l`. -/
def Returns (S : Solver α n k X) (bo : BisectOpts α) (argsort : List α → List Nat) (s : St α n k X) (cs : List (Call α n))
    (l : List (Answer α n k)) : Prop :=
  ∃ s', (answers S bo argsort cs).run s = some (.ok l, s')

/-- The two solvers have the same times, states and derivatives in memory, and however they are used, the one returns certain
values if and only if the other does. -/
def Alike (S : Solver α n k X) (bo : BisectOpts α) (argsort : List α → List Nat) (s s' : St α n k X) : Prop :=
  s.cache = s'.cache ∧ ∀ cs l, Returns S bo argsort s cs l ↔ Returns S bo argsort s' cs l

end Nbkode.Spec
