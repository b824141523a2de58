import Verif.Model.Memory

/-!
# Sessions with arrays in memory

As `Spec.Session`, but the calls work on arrays in memory, the caller may make arrays of their own between the
calls, and passes arrays (not values) to `run` and `run_events`.
-/

set_option autoImplicit false

namespace Nbkode.Spec
open Nbkode

variable {α : Type}
variable [Add α] [Sub α] [Mul α] [Div α] [Neg α] [Zero α] [One α] [NatCast α] [BEq α]
variable [LT α] [DecidableLT α] [LE α] [DecidableLE α]
variable {n k : Nat} {X : Type}

/-- The public calls with any arguments, and the making of an array. `jt`, `jy` are what `np.empty` happens to
find in memory. -/
inductive MCall (α : Type) (n : Nat) where
  | step (jt : α) (jy : Vec α n) (m : Option Int) (upto : Option (Bound α))
  | skip (m : Option Int) (upto : Option (Bound α))
  | interpolate (t : α)
  | run (jy : Vec α n) (ts : View)
  | runEvents (jy : Vec α n) (ts : View) (events : Option (List (EventSpec α n)))
  | array (l : List α)

/-- Making a call (the returned value is dropped, the exception is kept). -/
def MCall.exec (S : Solver α n k X) (bo : BisectOpts α) (argsort : List α → List Nat) :
    MCall α n → Py (Mem α n k X) Unit
  | .step jt jy m u => do let _ ← S.mStep jt jy m u
  | .skip m u => Mem.onSolver (S.skip m u)
  | .interpolate t => do let _ ← Mem.onSolver (S.interpolate t)
  | .run jy ts => do let _ ← S.mRun bo argsort jy ts
  | .runEvents jy ts es => do let _ ← S.mRunEvents bo argsort jy ts es
  | .array l => do let _ ← Mem.newFloats l

/-- Some finite sequence of calls, each returning or raising, leads from `m` to `m'`. -/
inductive MSession (S : Solver α n k X) (bo : BisectOpts α) (argsort : List α → List Nat) :
    Mem α n k X → Mem α n k X → Prop
  | start (m : Mem α n k X) : MSession S bo argsort m m
  | call {m m1 m2 : Mem α n k X} (c : MCall α n) (r : Except Err Unit) :
      MSession S bo argsort m m1 → (c.exec S bo argsort).run m1 = some (r, m2) →
      MSession S bo argsort m m2

end Nbkode.Spec
