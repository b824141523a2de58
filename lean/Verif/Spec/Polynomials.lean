import Verif.Spec.RunError
import Verif.Spec.Tolerance
import Verif.Spec.Events
import Mathlib.Algebra.Polynomial.Eval.Degree

/-!
# Polynomial solutions, over the real numbers
-/

set_option autoImplicit false

namespace Nbkode.Spec
open Nbkode Solver

variable {n k : Nat} {X : Type}

/-- `y` solves `y' = f(t, y)` everywhere, its components are polynomials of degree at most `r`, and the problem is linear with constant
coefficients, `y' = M y + c`, or an integration, `y' = F(t)`. -/
structure PolynomialSolution (f : ℝ → Vec ℝ n → Vec ℝ n) (y : ℝ → Vec ℝ n) (r : Nat) : Prop where
  solves : ∀ t, SolvesAt f y t
  polynomial : ∃ Y : Fin n → Polynomial ℝ, ∀ i, (Y i).natDegree ≤ r ∧ ∀ t, y t i = (Y i).eval t
  problem : LinearSystem f ∨ ∃ F : ℝ → Vec ℝ n, f = fun t _ => F t

/-- Polynomial solutions are followed exactly, whatever the step: on a solver just constructed at `(t₀, y t₀)` with a positive step, every
state visited is a point of `y` if `y` has at most the degree `p`, and every value `run` returns is one of `y` if it has at most the
degree `q`. -/
def ExactUpTo (cls : Rhs ℝ n → Solver ℝ n k X) (starts : Rhs ℝ n → ℝ → Vec ℝ n → St ℝ n k X → Prop) (p q : Nat) : Prop :=
  ∀ (f : ℝ → Vec ℝ n → Vec ℝ n) (y : ℝ → Vec ℝ n) (t₀ : ℝ) (s0 : St ℝ n k X), starts (pureRhs f) t₀ (y t₀) s0 → 0 < s0.h →
    (PolynomialSolution f y p → ∀ l u, Path (cls (pureRhs f)) (cls (pureRhs f)).tBound s0 l u → u.y = y u.t) ∧
    (PolynomialSolution f y q → ∀ (bo : BisectOpts ℝ) (argsort : List ℝ → List Nat), (∀ l, IsArgsort l (argsort l)) →
      ∀ ts out s', ((cls (pureRhs f)).run bo argsort ts).run s0 = some (.ok out, s') → ∀ r ∈ out, r.2 = y r.1)

/-- On polynomial solutions of degree at most `q` no attempt fails and the steps grow as fast as they may: after `m` steps from the
construction at `t₀` the step size has been multiplied by `max_factor` `m` times, and the time is `t₀` plus the sizes on the way. -/
def GrowsOn (cls : Rhs ℝ n → Solver ℝ n k X) (starts : Rhs ℝ n → ℝ → Vec ℝ n → St ℝ n k X → Prop) (o : VarOptions ℝ) (q : Nat) : Prop :=
  ∀ (f : ℝ → Vec ℝ n → Vec ℝ n) (y : ℝ → Vec ℝ n) (t₀ : ℝ) (s0 : St ℝ n k X), starts (pureRhs f) t₀ (y t₀) s0 →
    PolynomialSolution f y q → ∀ l u, Path (cls (pureRhs f)) (cls (pureRhs f)).tBound s0 l u →
    u.h = s0.h * o.maxFactor ^ l.length ∧ u.t = t₀ + ∑ j ∈ Finset.range l.length, s0.h * o.maxFactor ^ j

/-- The right hand side of the documented example (`docs/events.rst`): a body thrown upwards. `y 0` is its height, `y 1` its speed. -/
def upwardCannon (g : ℝ) : ℝ → Vec ℝ 2 → Vec ℝ 2 := fun _ y => ![y 1, -g]

/-- The event `hit_ground` of the documented example: terminal, with direction -1. -/
def hitGround : EventSpec ℝ 2 := ⟨fun _ y => y 0, some true, some (-1)⟩

/-- The event `apex` of the documented example. -/
def apex : EventSpec ℝ 2 := ⟨fun _ y => y 1, none, none⟩

/-- The documented example comes out right: thrown from the ground at the time 0 with speed `v`, the body is back at the time `2 v / g` and
highest at `v / g`. Asked for a later time `T`, `run_events` stops early; `t_events` has one time for the ground, and the pair returned is
that time with the true state there. The times recorded are right up to the bisection: the height (the speed, for the apex) at such a time
is at most `tol`, or the time is within `2^-maxiter` times the time at which the solver stopped. The first step must not be as long as the
flight. -/
def CannonLands [BEq ℝ] (cls : Rhs ℝ 2 → Solver ℝ 2 k X) (starts : Rhs ℝ 2 → ℝ → Vec ℝ 2 → St ℝ 2 k X → Prop) : Prop :=
  ∀ (v g T : ℝ) (bo : BisectOpts ℝ) (argsort : List ℝ → List Nat) (s0 : St ℝ 2 k X), 0 < v → 0 < g → 2 * v / g < T → 0 ≤ bo.tol →
    bo.maxiter ≠ 0 → (∀ l, IsArgsort l (argsort l)) → starts (pureRhs (upwardCannon g)) 0 ![0, v] s0 → 0 < s0.h → s0.h < 2 * v / g →
    ∃ out s' τ tl, ((cls (pureRhs (upwardCannon g))).runEvents bo argsort [T] (some [hitGround, apex])).run s0 = some (.ok out, s') ∧
      out.out = [(τ, ![v * τ - g * τ ^ 2 / 2, v - g * τ])] ∧ out.tEvents = [[τ], tl] ∧
      (|v * τ - g * τ ^ 2 / 2| ≤ bo.tol ∨ |τ - 2 * v / g| ≤ s'.t / 2 ^ bo.maxiter) ∧ tl ≠ [] ∧
      ∀ τ' ∈ tl, |v - g * τ'| ≤ bo.tol ∨ |τ' - v / g| ≤ s'.t / 2 ^ bo.maxiter

end Nbkode.Spec
