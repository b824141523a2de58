import Verif.Spec.Change
import Verif.Spec.Stepping

/-! Right-hand sides that are the same where they have to be known. -/

set_option autoImplicit false

namespace Nbkode.Spec
open Nbkode

variable {α : Type} [Field α] [LinearOrder α] [IsStrictOrderedRing α] {n s : Nat}

/-- From `t0` to `t_bound` the two right-hand sides return and raise the same. Elsewhere one of them may return something else,
or raise. -/
def SameUntil (t0 : α) (b : Bound α) (rhs rhs' : Rhs α n) : Prop :=
  ∀ t y, t0 ≤ t → NotBeyond b t → rhs t y = rhs' t y

/-- The stages of a Runge-Kutta method lie within the step. -/
def Tableau.Within (T : Tableau α s) : Prop := ∀ i, 0 ≤ T.C i ∧ T.C i ≤ 1

end Nbkode.Spec
