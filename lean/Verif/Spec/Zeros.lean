import Verif.Model.Zeros
import Mathlib.Algebra.BigOperators.Fin
import Mathlib.Algebra.Order.Field.Basic

/-!
# What root finders do, in textbook terms
-/

set_option autoImplicit false

namespace Nbkode.Spec
open Nbkode

variable {α : Type} [Field α] [LinearOrder α] {n : Nat}

/-- Euclidean norm, as computed. -/
def euclid (lib : Lib α) (v : Vec α n) : α := lib.sqrt (∑ i, v i ^ 2)

/-- `J` is the matrix of central difference quotients of `fn` at `x` with spacing `eps`. -/
def CentralDiff (eps : α) (fn : Vec α n → Except Err (Vec α n)) (x : Vec α n)
    (J : Fin n → Fin n → α) : Prop :=
  ∀ i, ∃ fp fm, fn (Function.update x i (x i + eps)) = .ok fp ∧
    fn (Function.update x i (x i - eps)) = .ok fm ∧ ∀ r, J r i = (fp r - fm r) / (2 * eps)

/-- `Updates j y y'`: `j` Newton updates lead from `y` to `y'`; each adds a solution `d` of `J d = -F(y)` as found
by the linear solver. -/
inductive Updates (lib : Lib α) (eps : α) (fn : Vec α n → Except Err (Vec α n)) :
    Nat → Vec α n → Vec α n → Prop
  | zero (y : Vec α n) : Updates lib eps fn 0 y y
  | succ {j : Nat} {y y' v d : Vec α n} {J : Fin n → Fin n → α} :
      fn y = .ok v → CentralDiff eps fn y J → lib.solve J (-v) = .ok d →
      Updates lib eps fn j (y + d) y' → Updates lib eps fn (j + 1) y y'

/-- The linear solver is exact: what it returns solves the system, and it does not fail on regular systems (those
with trivial kernel). -/
structure ExactSolve (lib : Lib α) : Prop where
  sound : ∀ {n : Nat} (A : Fin n → Fin n → α) (b x : Vec α n), lib.solve A b = .ok x →
    ∀ i, ∑ j, A i j * x j = b i
  complete : ∀ {n : Nat} (A : Fin n → Fin n → α) (b : Vec α n),
    (∀ x : Vec α n, (∀ i, ∑ j, A i j * x j = 0) → x = 0) → ∃ x, lib.solve A b = .ok x

/-- One Newton (or, with a second derivative, Halley) step leads from `p0` to `p`: with `d = f/f'`, it is
`p0 - d`, or `p0 - d/(1 - a)` with `a = d f''/(2 f')` when `|a| < 1`. -/
def NewtonStep (fn fprime : α → Except Err α) (fprime2 : Option (α → Except Err α)) (p0 p : α) : Prop :=
  ∃ v d, fn p0 = .ok v ∧ fprime p0 = .ok d ∧ v ≠ 0 ∧ d ≠ 0 ∧
    match fprime2 with
    | none => p = p0 - v / d
    | some f2 => ∃ d2, f2 p0 = .ok d2 ∧
        let a := v / d * d2 / d / 2
        p = if |a| < 1 then p0 - v / d / (1 - a) else p0 - v / d

/-- `NewtonIter j p0 p`: `j` Newton steps lead from `p0` to `p`. -/
inductive NewtonIter (fn fprime : α → Except Err α) (fprime2 : Option (α → Except Err α)) :
    Nat → α → α → Prop
  | zero (p : α) : NewtonIter fn fprime fprime2 0 p p
  | succ {j : Nat} {p0 p1 p : α} : NewtonStep fn fprime fprime2 p0 p1 →
      NewtonIter fn fprime fprime2 j p1 p → NewtonIter fn fprime fprime2 (j + 1) p0 p

/-- The secant through `(p0, q0)` and `(p1, q1)`, with `q0 ≠ q1`, meets zero at `p`. -/
def SecantPoint (p0 q0 p1 q1 p : α) : Prop := q1 ≠ q0 ∧ p * (q1 - q0) = p0 * q1 - p1 * q0

/-- `SecantIter j p0 p1 p2 p3`: `j` secant steps lead from the pair `(p0, p1)` to the pair `(p2, p3)`. -/
inductive SecantIter (fn : α → Except Err α) : Nat → α → α → α → α → Prop
  | zero (p0 p1 : α) : SecantIter fn 0 p0 p1 p0 p1
  | succ {j : Nat} {p0 p1 p2 p3 q0 q1 p : α} : fn p0 = .ok q0 → fn p1 = .ok q1 →
      SecantPoint p0 q0 p1 q1 p → SecantIter fn j p1 p p2 p3 → SecantIter fn (j + 1) p0 p1 p2 p3

end Nbkode.Spec
