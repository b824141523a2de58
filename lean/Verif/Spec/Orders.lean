import Verif.Spec.Stepping
import Verif.Spec.RungeKutta
import Mathlib.Algebra.Polynomial.Derivative
import Mathlib.Data.Nat.Factorial.Basic

/-!
# What "order p" means for one-step methods

Stated on the observable behaviour of one successful step, from any state whose `f` is the derivative of its
`y`, for a solver class given as a function of the right-hand side.
-/

set_option autoImplicit false

namespace Nbkode.Spec
open Nbkode Polynomial

variable {α : Type} [Field α] [LinearOrder α] {n k : Nat} {X : Type}

/-- One step integrates `y' = g(t)` exactly for every polynomial `g` of degree `< p` (written `g = G'` with
`deg G <= p`): the state moves by `G(t_new) - G(t_old)` in every component. -/
def IntegratesPolynomials (cls : Rhs α n → Solver α n k X) (p : Nat) : Prop :=
  ∀ G : α[X], G.natDegree ≤ p → ∀ st st' : St α n k X,
    (st.f = fun _ => (derivative G).eval st.t) →
    Takes (cls (pureRhs fun t _ _ => (derivative G).eval t)) st st' →
    ∀ d, st'.y d = st.y d + ((G.eval st'.t) - (G.eval st.t))

/-- On `y' = c * y`, one step multiplies the state by the Taylor polynomial of degree `p` of `exp(z)`,
`z = c * (t_new - t_old)`, plus `z^(p+1)` times a polynomial which depends on the method only. -/
def ApproximatesExp (cls : Rhs α n → Solver α n k X) (p : Nat) : Prop :=
  ∃ R : α[X], ∀ (c : α) (st st' : St α n k X),
    (st.f = fun d => c * st.y d) →
    Takes (cls (pureRhs fun _ y d => c * y d)) st st' →
    ∀ d, st'.y d = (∑ m ∈ Finset.range (p + 1), (c * (st'.t - st.t)) ^ m / (m.factorial : α) +
      (c * (st'.t - st.t)) ^ (p + 1) * R.eval (c * (st'.t - st.t))) * st.y d

/-- Both. -/
def HasLinearOrder (cls : Rhs α n → Solver α n k X) (p : Nat) : Prop :=
  IntegratesPolynomials cls p ∧ ApproximatesExp cls p

/-- The error estimate `h * sum_j E_j k_j` of a pair with stages `k_j` (the last being the derivative at the new
point) vanishes on `y' = g(t)`, `deg g < p`, and is `z^(p+1)` times a polynomial on `y' = c * y`. -/
def EstimateVanishes {s : Nat} (T : Tableau α s) (E : Fin (s + 2) → α) (p : Nat) : Prop :=
  (∀ G : α[X], G.natDegree ≤ p → ∀ (t h : α) (y : Vec α n) (K : Fin (s + 2) → Vec α n),
    RKStages (withLast T) (pureRhs fun t _ _ => (derivative G).eval t) t h y K →
    ∀ d, h * ∑ j, E j * K j d = 0) ∧
  ∃ R : α[X], ∀ (c t h : α) (y : Vec α n) (K : Fin (s + 2) → Vec α n),
    RKStages (withLast T) (pureRhs fun _ y d => c * y d) t h y K →
    ∀ d, h * ∑ j, E j * K j d = (c * h) ^ (p + 1) * R.eval (c * h) * y d

end Nbkode.Spec
