import Verif.Spec.History
import Verif.Spec.Stepping
import Mathlib.Data.Real.Basic
import Mathlib.Analysis.Convex.Basic

/-!
# Regions a state should not leave
-/

set_option autoImplicit false

namespace Nbkode.Spec
open Nbkode

section field
variable {α : Type} [Field α] [LinearOrder α] {n k : Nat} {Y : Type}

/-- A step of size `h0` in the direction of the derivative does not leave the region. -/
def ShortStepsStay (R : Set (Vec α n)) (t0 h0 : α) (rhs : Rhs α n) : Prop :=
  ∀ t y v, t0 ≤ t → y ∈ R → rhs t y = .ok v → (fun i => y i + h0 * v i) ∈ R

end field

/-- The states that are not negative. -/
def notNegative : Set (Vec ℝ 1) := {y | 0 ≤ y 0}

/-- For every step size, however small, there is a problem on which steps of size `h0` in the direction of the derivative do not
lead to negative values, but the solver's step from 0 does. -/
def LeavesRegion {k : Nat} {Y : Type} (cls : Rhs ℝ 1 → Solver ℝ 1 k Y) : Prop :=
  ∀ h0 h : ℝ, 0 < h0 → 0 < h → ∃ f : ℝ → Vec ℝ 1 → Vec ℝ 1, ShortStepsStay notNegative 0 h0 (pureRhs f) ∧
    ∀ st : St ℝ 1 k Y, st.t = 0 → st.y = 0 → st.f = f 0 0 → st.h = h → ∃ st', Takes (cls (pureRhs f)) st st' ∧ st'.y 0 < 0

end Nbkode.Spec
