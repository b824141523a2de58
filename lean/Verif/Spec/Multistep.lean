import Verif.Spec.Stepping
import Verif.Spec.History
import Mathlib.Algebra.BigOperators.Fin
import Mathlib.Algebra.Order.Field.Basic
import Mathlib.Algebra.Polynomial.Derivative
import Mathlib.Algebra.Polynomial.Eval.Degree

/-!
# Linear multistep formulas, in textbook terms
-/

set_option autoImplicit false

namespace Nbkode.Spec
open Nbkode

variable {α : Type} [Field α] [LinearOrder α] {n p : Nat}

/-- The entry of the history written `i` steps ago (`i = 0`: the current point). -/
def ago {A : Type} {k : Nat} (a : Fin (k + 2) → A) (i : Nat) : A := a ⟨k + 1 - i, by omega⟩

/-- How much the candidate `(y', f')` for the next point misses the linear multistep equation
`y' + sum_i A_(p-i) y_(-i) = h (Bn f' + sum_i B_(p-i) f_(-i))`, where `y_(-i)`, `f_(-i)` were recorded `i` steps ago:
the coefficient arrays are read oldest first. -/
def defect (c : MultistepCoef α p) (b : Buffer α n (histExtra p)) (h : α) (y' f' : Vec α n) : Vec α n :=
  fun d => y' d + ∑ i : Fin (p + 1), c.A i.rev * ago b.ys i d -
    h * (c.Bn * f' d + ∑ i : Fin (p + 1), c.B i.rev * ago b.fs i d)

/-- A multistep formula (coefficients oldest first) is satisfied exactly by every polynomial of degree at most `m`
sampled on an even grid: `y(t+h) + sum_i A_(p-i) y(t-ih) = h (Bn y'(t+h) + sum_i B_(p-i) y'(t-ih))`. -/
def ExactOnPolynomials (c : MultistepCoef α p) (m : Nat) : Prop :=
  ∀ (y : Polynomial α), y.natDegree ≤ m → ∀ t h : α,
    y.eval (t + h) + ∑ i : Fin (p + 1), c.A i.rev * y.eval (t - (i : ℕ) * h) =
      h * (c.Bn * y.derivative.eval (t + h) +
        ∑ i : Fin (p + 1), c.B i.rev * y.derivative.eval (t - (i : ℕ) * h))

/-- The history samples the curve `y` with derivative `f` on the even grid `t, t - h, ...`, as far back as `p` steps. -/
def Samples (b : Buffer α n (histExtra p)) (t h : α) (y f : α → Vec α n) : Prop :=
  ∀ i ≤ p, ago b.ts i = t - i * h ∧ ago b.ys i = y (t - i * h) ∧ ago b.fs i = f (t - i * h)

/-- A step is exact on polynomial solutions of degree `m`: for every solution of `y' = g(t)` whose components are polynomials of
degree at most `m`, and every solver whose history samples that solution on an even grid, the next step succeeds and lands on
the solution, one `h` further. -/
def StepsExactly (cls : Rhs α n → Solver α n (histExtra p) Unit) (m : Nat) : Prop :=
  ∀ y : Fin n → Polynomial α, (∀ d, (y d).natDegree ≤ m) → ∀ st : St α n (histExtra p) Unit,
    Samples st.cache st.t st.h (fun t d => (y d).eval t) (fun t d => (y d).derivative.eval t) →
    ∃ st', Takes (cls (pureRhs fun t _ d => (y d).derivative.eval t)) st st' ∧ st'.t = st.t + st.h ∧
      st'.y = fun d => (y d).eval (st.t + st.h)

end Nbkode.Spec
