import Verif.Spec.Adaptive
import Verif.Spec.LocalError
import Verif.Spec.Termination
import Mathlib.Analysis.SpecialFunctions.Pow.Real

/-!
# Step-size control of the variable-step methods, over the real numbers
-/

set_option autoImplicit false

namespace Nbkode.Spec
open Nbkode
open scoped Topology

variable {n k : Nat} {X : Type}

/-- `np.sqrt` and `**` are the real functions. -/
structure RealFunctions (lib : Lib ℝ) : Prop where
  sqrt : ∀ x, lib.sqrt x = Real.sqrt x
  pow : ∀ x e, lib.pow x e = x ^ e

/-- The size proposed after an attempt of size `x` with error norm `en`, for an estimate of order `q`: `x * max_factor` after a
zero error, otherwise `x * safety / en^(1/(q+1))`, limited to `[min_factor, max_factor]` times `x`. -/
def NextSize (o : VarOptions ℝ) (q : ℕ) (x en h' : ℝ) : Prop :=
  (en = 0 ∧ h' = x * o.maxFactor) ∨
  (en ≠ 0 ∧ h' = x * min o.maxFactor (max o.minFactor (o.safetyFactor / en ^ (1 / ((q : ℝ) + 1)))))

/-- Step sizes follow the tolerance: along a smooth solution, a step and the size left for the next one are at least
`safety * (atol / C)^(1/(q+1))`, or the size the step began with. `C` depends on the problem only, not on the options. -/
def SizesScale (cls : VarOptions ℝ → Rhs ℝ n → Solver ℝ n k X) (q : ℕ) : Prop :=
  ∀ (f : ℝ → Vec ℝ n → Vec ℝ n) (y : ℝ → Vec ℝ n) (t₀ : ℝ),
    ContDiffAt ℝ q (joint f) (t₀, y t₀) → (∀ᶠ t in 𝓝 t₀, SolvesAt f y t) →
    ∃ C δ, 0 < C ∧ 0 < δ ∧ ∀ o, ShrinkingOptions o → ∀ s s' : St ℝ n k X, On f y s → Takes (cls o (pureRhs f)) s s' →
      |s.t - t₀| < δ → 0 < s.h → s.h < δ →
      min s.h (o.safetyFactor * (o.atol / C) ^ (1 / ((q : ℝ) + 1))) ≤ s'.t - s.t ∧
      min s.h (o.safetyFactor * (o.atol / C) ^ (1 / ((q : ℝ) + 1))) ≤ s'.h

end Nbkode.Spec
