import Verif.Spec.Change

/-! Combinations of what is seen of two solvers. -/

set_option autoImplicit false

namespace Nbkode.Spec
open Nbkode Solver

variable {α : Type} [Add α] [Mul α] {n k : Nat}

/-- `a y + c z`. -/
def combine (a c : α) (y z : Vec α n) : Vec α n := fun i => a * y i + c * z i

/-- The same times, combined states. -/
def combinePoints (a c : α) (l m : List (α × Vec α n)) : List (α × Vec α n) :=
  List.zipWith (fun p q => (p.1, combine a c p.2 q.2)) l m

/-- A view of the history is a view of the same row. -/
def combineRef (a c : α) : Ref α n k → Ref α n k → Ref α n k
  | .own y, .own z => .own (combine a c y z)
  | .row i, _ => .row i
  | .own _, .row i => .row i

/-- What a call returns, with combined states. -/
def combineAnswer (a c : α) : Answer α n k → Answer α n k → Answer α n k
  | .step (.arrays l), .step (.arrays m) => .step (.arrays (combinePoints a c l m))
  | .step (.single t r), .step (.single _ q) => .step (.single t (combineRef a c r q))
  | .interpolate r, .interpolate q => .interpolate (combineRef a c r q)
  | .run l, .run m => .run (combinePoints a c l m)
  | .runEvents o, .runEvents p =>
    .runEvents ⟨combinePoints a c o.out p.out, o.tEvents, List.zipWith (List.zipWith (combineRef a c)) o.yEvents p.yEvents⟩
  | x, _ => x

/-- The same exceptions, combined answers. -/
def combineResult {A : Type} (f : A → A → A) : Except Err A → Except Err A → Except Err A
  | .ok x, .ok y => .ok (f x y)
  | .error e, _ => .error e
  | .ok _, .error e => .error e

/-- What is seen of two solvers, combined: the times of the first, and combinations of states and derivatives. -/
def combineSeen (a c : α) (v w : Seen α n k) : Seen α n k :=
  ⟨List.zipWith (combineResult (combineAnswer a c)) v.results w.results,
    ⟨v.history.ts, fun i => combine a c (v.history.ys i) (w.history.ys i), fun i => combine a c (v.history.fs i) (w.history.fs i)⟩, v.h⟩

/-- The same with calls that do not end (`none`). -/
def combineObserved (a c : α) : Option (Except Err (Seen α n k)) → Option (Except Err (Seen α n k)) → Option (Except Err (Seen α n k))
  | some v, some w => some (combineResult (combineSeen a c) v w)
  | _, _ => none

/-- A call without events. -/
inductive PlainCall (α : Type) where
  | step (q : Option Int) (u : Option (Bound α))
  | skip (q : Option Int) (u : Option (Bound α))
  | interpolate (t : α)
  | run (ts : List α)

/-- The call made on a solver for `n` components. -/
def PlainCall.call (n : Nat) : PlainCall α → Call α n
  | .step q u => .step q u
  | .skip q u => .skip q u
  | .interpolate t => .interpolate t
  | .run ts => .run ts

end Nbkode.Spec
