import Verif.Spec.SciPy

/-!
What an automatically chosen first step is asked to be.
-/

set_option autoImplicit false

namespace Nbkode.Spec
open Nbkode

variable {n : Nat}

/-- The size of `x` compared with the tolerances at `y0`: the root mean square of `x_i / (atol + |y0_i| rtol)`. -/
noncomputable def relativeTo (o : VarOptions ℝ) (y0 x : Vec ℝ n) : ℝ := SciPy.norm fun i => x i / (o.atol + |y0 i| * o.rtol)

/-- A first step `h` for the initial state `y0` with derivative `f0`. If both are not tiny compared with the tolerances, the state moves in
the step, at its initial rate, by no more than its own size; otherwise the step is at most `1e-4`. And the movement times `h ^ order` is at most
a hundredth of the tolerances. -/
structure Moderate (o : VarOptions ℝ) (order : ℕ) (y0 f0 : Vec ℝ n) (h : ℝ) : Prop where
  positive : 0 < h
  moves : 1 / 100000 ≤ relativeTo o y0 y0 → 1 / 100000 ≤ relativeTo o y0 f0 → h * relativeTo o y0 f0 ≤ relativeTo o y0 y0
  tiny : relativeTo o y0 y0 < 1 / 100000 ∨ relativeTo o y0 f0 < 1 / 100000 → h ≤ 1 / 10000
  error : 1 / 10 ^ 15 < relativeTo o y0 f0 → h ^ (order + 1) * relativeTo o y0 f0 ≤ 1 / 100

end Nbkode.Spec
