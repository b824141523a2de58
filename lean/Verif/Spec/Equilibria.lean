import Verif.Spec.Stepping

/-!
# Resting solvers
-/

set_option autoImplicit false

namespace Nbkode.Spec
open Nbkode

variable {α : Type} [Add α] [Zero α] [LT α] [DecidableLT α] {n k : Nat} {X : Type}

/-- `y' = 0`. -/
def zeroRhs : Rhs α n := pureRhs fun _ _ _ => 0

/-- The solver rests at `y`: every recorded state is `y` and every recorded derivative is zero. -/
def Resting (y : Vec α n) (st : St α n k X) : Prop :=
  ∀ i, st.cache.ys i = y ∧ st.cache.fs i = fun _ => 0

/-- On `y' = 0` a step from rest succeeds and leaves the solver resting at the same state. -/
def KeepsRest (M : Method α n k X) : Prop :=
  ∀ (b : Bound α) (y : Vec α n) (st : St α n k X), Resting y st →
    ∃ st', Takes ⟨M, zeroRhs, b⟩ st st' ∧ Resting y st'

end Nbkode.Spec
