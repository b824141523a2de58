import Verif.Spec.Dissipative
import Verif.Spec.Methods
import Verif.Spec.Trees
import Mathlib.Algebra.Polynomial.AlgebraMap
import Mathlib.LinearAlgebra.Pi

/-!
# Stability of methods with a fixed step on linear problems

The problems `y' = L y + g(t)`. The difference of two solutions satisfies `d' = L d`.
-/

set_option autoImplicit false

namespace Nbkode.Spec
open Nbkode Solver Polynomial

variable {n k : Nat} {X : Type}

/-- The right-hand side `L y + g(t)`. -/
def affine (L : Vec ℝ n →ₗ[ℝ] Vec ℝ n) (g : ℝ → Vec ℝ n) (t : ℝ) (y : Vec ℝ n) : Vec ℝ n := L y + g t

/-- `u 0`, ..., `u N` are reached by steps on `y' = f(t, y)`. They start at `t₀` with step size `h`, the derivative belonging to the state. -/
structure Steps (cls : Rhs ℝ n → Solver ℝ n k X) (f : ℝ → Vec ℝ n → Vec ℝ n) (t₀ h : ℝ) (N : ℕ) (u : ℕ → St ℝ n k X) : Prop where
  time : (u 0).t = t₀
  size : (u 0).h = h
  slope : (u 0).f = f t₀ (u 0).y
  takes : ∀ j < N, Takes (cls (pureRhs f)) (u j) (u (j + 1))

/-- Each step multiplies the difference of two numerical solutions by `R(h L)`: `R` is the stability function of the method. -/
def Multiplies (cls : Rhs ℝ n → Solver ℝ n k X) (R : ℝ[X]) : Prop :=
  ∀ (L : Vec ℝ n →ₗ[ℝ] Vec ℝ n) (g : ℝ → Vec ℝ n) (t₀ h : ℝ) (N : ℕ) (u v : ℕ → St ℝ n k X),
    Steps cls (affine L g) t₀ h N u → Steps cls (affine L g) t₀ h N v →
      (u N).y - (v N).y = (aeval (h • L) R ^ N) ((u 0).y - (v 0).y)

/-- `L` is symmetric with eigenvalues between `-c` and `0`: a damping, no faster than at rate `c`. -/
structure Damping (L : Vec ℝ n →ₗ[ℝ] Vec ℝ n) (c : ℝ) : Prop where
  symm : ∀ v w, ∑ i, L v i * w i = ∑ i, v i * L w i
  nonpos : ∀ v, ∑ i, L v i * v i ≤ 0
  rate : ∀ v, -(∑ i, L v i * v i) ≤ c * ∑ i, v i ^ 2

/-- On damped problems of rate `c` two numerical solutions do not move apart if `h c ≤ s`. -/
def StableUpTo (cls : Rhs ℝ n → Solver ℝ n k X) (s : ℝ) : Prop :=
  ∀ (L : Vec ℝ n →ₗ[ℝ] Vec ℝ n) (c : ℝ) (g : ℝ → Vec ℝ n) (t₀ h : ℝ) (N : ℕ) (u v : ℕ → St ℝ n k X), Damping L c → 0 ≤ h → h * c ≤ s →
    Steps cls (affine L g) t₀ h N u → Steps cls (affine L g) t₀ h N v →
      length ((u N).y - (v N).y) ≤ length ((u 0).y - (v 0).y)

/-- If `h` times the rate is above `s`, they move apart exponentially: for a difference along an eigenvector, of eigenvalue `lam = -x / h`. -/
def GrowsBeyond (cls : Rhs ℝ n → Solver ℝ n k X) (s : ℝ) : Prop :=
  ∀ x, s < x → ∃ ρ, 1 < ρ ∧ ∀ (L : Vec ℝ n →ₗ[ℝ] Vec ℝ n) (lam : ℝ) (g : ℝ → Vec ℝ n) (t₀ h : ℝ) (N : ℕ) (u v : ℕ → St ℝ n k X),
    L ((u 0).y - (v 0).y) = lam • ((u 0).y - (v 0).y) → h * lam = -x →
    Steps cls (affine L g) t₀ h N u → Steps cls (affine L g) t₀ h N v →
      length ((u N).y - (v N).y) = ρ ^ N * length ((u 0).y - (v 0).y)

/-- On an undamped oscillation of frequency `ω` (`L` is skew, the exact solutions keep their distance) each step multiplies the square of the distance
by `r (h ω)`. -/
def TurnsBy (cls : Rhs ℝ n → Solver ℝ n k X) (r : ℝ → ℝ) : Prop :=
  ∀ (L : Vec ℝ n →ₗ[ℝ] Vec ℝ n) (ω : ℝ) (g : ℝ → Vec ℝ n) (t₀ h : ℝ) (N : ℕ) (u v : ℕ → St ℝ n k X),
    (∀ w, ∑ i, L w i * w i = 0) → L (L ((u 0).y - (v 0).y)) = -ω ^ 2 • ((u 0).y - (v 0).y) →
    Steps cls (affine L g) t₀ h N u → Steps cls (affine L g) t₀ h N v →
      length ((u N).y - (v N).y) ^ 2 = r (h * ω) ^ N * length ((u 0).y - (v 0).y) ^ 2

end Nbkode.Spec
