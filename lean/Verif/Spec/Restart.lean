import Verif.Spec.Change

/-!
# Going on with a solver

What is seen of a solver from now on, when it is only asked about times that are still to come.
-/

set_option autoImplicit false

namespace Nbkode.Spec
open Nbkode Solver

variable {α : Type}
variable [Add α] [Sub α] [Mul α] [Div α] [Neg α] [Zero α] [One α] [NatCast α] [BEq α]
variable [LT α] [DecidableLT α] [LE α] [DecidableLE α]
variable {n k : Nat} {X : Type}

/-- The call does not ask for the solution at `τ` or before. `step` and `skip` never do. -/
def Call.Later (τ : α) : Call α n → Prop
  | .step _ _ => True
  | .skip _ _ => True
  | .interpolate t => τ < t
  | .run ts => ∀ t ∈ ts, τ < t
  | .runEvents ts _ => ∀ t ∈ ts, τ < t

/-- What is seen of a solver while it is used: what each call returned or raised (exceptions are caught), and `solver.t`,
`solver.y`, `solver.f` and the step size in the end. `none`: one of the calls does not end. -/
def onward (S : Solver α n k X) (bo : BisectOpts α) (argsort : List α → List Nat) (cs : List (Call α n)) (s : St α n k X) :
    Option (List (Except Err (Answer α n k)) × α × Vec α n × Vec α n × α) :=
  (transcript S bo argsort cs s).map fun v => (v.results, v.history.t, v.history.y, v.history.f, v.h)

end Nbkode.Spec
