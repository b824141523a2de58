import Verif.Spec.Zeros
import Mathlib.Analysis.Calculus.Deriv.Basic
import Mathlib.Data.Real.Basic
import Mathlib.Analysis.Calculus.FDeriv.Basic
import Mathlib.Analysis.Normed.Module.Basic

/-!
# Simple roots
-/

set_option autoImplicit false

namespace Nbkode.Spec

/-- `x` is a simple root of `f`, and near it `f'` is the derivative of `f` and satisfies a Lipschitz condition (which it does if `f` is
twice continuously differentiable). -/
structure SimpleRoot (f f' : ℝ → ℝ) (x : ℝ) : Prop where
  root : f x = 0
  simple : f' x ≠ 0
  smooth : ∃ ρ L : ℝ, 0 < ρ ∧ ∀ y z, |y - x| ≤ ρ → |z - x| ≤ ρ → HasDerivAt f (f' y) y ∧ |f' y - f' z| ≤ L * |y - z|

/-- The same with a second derivative `f2`. -/
structure SimpleRoot2 (f f' f2 : ℝ → ℝ) (x : ℝ) : Prop where
  root : f x = 0
  simple : f' x ≠ 0
  smooth : ∃ ρ L : ℝ, 0 < ρ ∧ ∀ y z, |y - x| ≤ ρ → |z - x| ≤ ρ →
    HasDerivAt f (f' y) y ∧ HasDerivAt f' (f2 y) y ∧ |f2 y - f2 z| ≤ L * |y - z|

/-- `x` is a regular root of a system `F`: the Jacobian matrix `F'` is regular there, and satisfies a Lipschitz condition near it. -/
structure RegularRoot {n : ℕ} (F : (Fin n → ℝ) → (Fin n → ℝ)) (F' : (Fin n → ℝ) → (Fin n → ℝ) →L[ℝ] (Fin n → ℝ)) (x : Fin n → ℝ) : Prop where
  root : F x = 0
  regular : ∀ v, F' x v = 0 → v = 0
  smooth : ∃ ρ L : ℝ, 0 < ρ ∧ ∀ y z, ‖y - x‖ ≤ ρ → ‖z - x‖ ≤ ρ → HasFDerivAt F (F' y) y ∧ ‖F' y - F' z‖ ≤ L * ‖y - z‖

end Nbkode.Spec
