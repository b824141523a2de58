import Verif.Spec.Multistep
import Mathlib.Analysis.SpecialFunctions.Sqrt

/-!
# Dissipative problems

Problems whose solutions never move apart.
-/

set_option autoImplicit false

namespace Nbkode.Spec
open Nbkode

variable {n : Nat}

/-- The Euclidean length of a vector. -/
noncomputable def length (d : Vec ℝ n) : ℝ := Real.sqrt (∑ i, d i ^ 2)

/-- `f` is dissipative (one-sided Lipschitz with constant 0): the distance of two solutions of `y' = f(t, y)` never grows. -/
def Dissipative (f : ℝ → Vec ℝ n → Vec ℝ n) : Prop := ∀ t y z, ∑ i, (f t y i - f t z i) * (y i - z i) ≤ 0

end Nbkode.Spec
