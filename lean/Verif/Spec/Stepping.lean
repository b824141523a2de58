import Verif.Model.Solver

/-!
# Specification vocabulary for stepping

Independent of the loops in the model: a *path* is a sequence of single integration steps, each of which
fits below a limit.
-/

set_option autoImplicit false

namespace Nbkode.Spec
open Nbkode Solver

variable {α : Type} [Add α] [LT α] [DecidableLT α] {n k : Nat} {X : Type}

/-- The time `t` is not beyond the limit `b`. -/
def NotBeyond (b : Bound α) (t : α) : Prop :=
  match b with
  | .fin b => ¬ b < t
  | .inf => True

/-- One integration step from `s` does not go beyond the limit `b`. -/
def Fits (b : Bound α) (s : St α n k X) : Prop := NotBeyond b (s.t + s.h)

/-- The method takes one successful integration step from `s` to `s'`. -/
def Takes (S : Solver α n k X) (s s' : St α n k X) : Prop :=
  (S.method.body S.rhs).run s = some (.ok (), s')

/-- `Path S b s l s'`: starting at `s`, successive integration steps, each fitting below `b`, visit the
states `l` and end at `s'` (the last of `l`, or `s` itself). -/
inductive Path (S : Solver α n k X) (b : Bound α) :
    St α n k X → List (St α n k X) → St α n k X → Prop
  | nil (s : St α n k X) : Path S b s [] s
  | cons {s s1 s2 : St α n k X} {l : List (St α n k X)} :
      Fits b s → Takes S s s1 → Path S b s1 l s2 → Path S b s (s1 :: l) s2

/-- What is recorded of a visited state: its time and a copy of its state vector. -/
def record (s : St α n k X) : α × Vec α n := (s.t, s.y)

/-- Concatenation of what two `step(n=...)` calls return. -/
def concat : StepOut α n k → StepOut α n k → StepOut α n k
  | .arrays x, .arrays y => .arrays (x ++ y)
  | _, _ => .none

/-- Forget the value a call returns: keep divergence, exceptions and the final state. -/
def effect {σ A : Type} (r : Option (Except Err A × σ)) : Option (Except Err Unit × σ) :=
  r.map fun p => (p.1.map fun _ => (), p.2)

/-- The solver's clock is past the limit `u`. -/
def Past (u : Bound α) (s : St α n k X) : Prop :=
  match u with
  | .fin u => u < s.t
  | .inf => False

/-- The limit `u` lies beyond the limit `b`. -/
def Beyond (u b : Bound α) : Prop :=
  match u, b with
  | .fin u, .fin b => b < u
  | .inf, .fin _ => True
  | _, .inf => False

end Nbkode.Spec
