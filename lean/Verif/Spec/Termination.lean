import Verif.Spec.Stepping
import Verif.Spec.Methods
import Verif.Spec.History
import Mathlib.Algebra.Order.Field.Basic
import Mathlib.Algebra.Order.Group.Abs

/-!
# Calls that come back

`Halts p s`: the call `p`, made in state `s`, comes back after finitely many operations, with a value or with an
exception. Its negation is a call that hangs.
-/

set_option autoImplicit false

namespace Nbkode.Spec
open Nbkode

/-- The call comes back, with a value or an exception. -/
def Halts {σ A : Type} (p : Py σ A) (s : σ) : Prop := ∃ r s', p.run s = some (r, s')

/-- Calls that are not asked to go on for ever: `upto_t=inf` is given with a number of steps or not at all. -/
def Finite {α : Type} {n : Nat} : Call α n → Prop
  | .step m u => m = none → u ≠ some .inf
  | .skip m u => m = none → u ≠ some .inf
  | _ => True

/-- The times a call asks the solver to go to. -/
def Call.Asks {α : Type} {n : Nat} : Call α n → α → Prop
  | .step _ u, x => u = some (.fin x)
  | .skip _ u, x => u = some (.fin x)
  | .interpolate _, _ => False
  | .run ts, x => x ∈ ts
  | .runEvents ts _, x => x ∈ ts

section
variable {α : Type} [Field α] [LinearOrder α] {n : Nat}

/-- Wherever `rhs` returns a value within distance `δ` of `(t, y)`, that value is at most `M` in size. (A continuous
function is bounded in this sense near every point.) -/
def BoundedNear (rhs : Rhs α n) (δ M : α) (t : α) (y : Vec α n) : Prop :=
  ∀ t' y', |t' - t| ≤ δ → (∀ d, |y' d - y d| ≤ δ) → ∀ v, rhs t' y' = .ok v → ∀ d, |v d| ≤ M

/-- Wherever `rhs` returns a value, that value is at most `M` in size. -/
def BoundedBy (rhs : Rhs α n) (M : α) : Prop := ∀ t y v, rhs t y = .ok v → ∀ d, |v d| ≤ M

/-- During bounded times the values of `rhs` grow at most linearly with `y`. (Continuous functions that are Lipschitz in `y` do.) -/
def LinearGrowth (rhs : Rhs α n) : Prop :=
  ∀ R, ∃ L, 0 ≤ L ∧ ∀ t y v M, |t| ≤ R → (∀ d, |y d| ≤ M) → rhs t y = .ok v → ∀ d, |v d| ≤ L * (1 + M)

/-- What is assumed of `np.sqrt` on non-negative numbers. -/
structure SqrtLaw (lib : Lib α) : Prop where
  nonneg : ∀ x, 0 ≤ lib.sqrt x
  le : ∀ x r, 0 ≤ r → x ≤ r ^ 2 → lib.sqrt x ≤ r
  one_le : ∀ x, 1 ≤ x → 1 ≤ lib.sqrt x

/-- Powers with exponent `ex` of small numbers are small. -/
def PowSmall (lib : Lib α) (ex : α) : Prop :=
  ∀ c, 0 < c → ∃ δ, 0 < δ ∧ ∀ x, 0 < x → x ≤ δ → lib.pow x ex ≤ c

/-- Tolerances and step-size factors under which rejections shrink the step by a definite amount. The defaults
(`atol=1e-6`, `rtol=1e-3`, `min_factor=0.2`, `max_factor=10`, `safety_factor=0.9`) are such. -/
structure ShrinkingOptions (o : VarOptions α) : Prop where
  atol_pos : 0 < o.atol
  rtol_nonneg : 0 ≤ o.rtol
  minFactor_pos : 0 < o.minFactor
  minFactor_lt : o.minFactor < 1
  maxFactor_ge : 1 ≤ o.maxFactor
  safety_pos : 0 < o.safetyFactor
  safety_lt : o.safetyFactor < 1

end

/-- `nan` behaves as NaN does in IEEE 754 arithmetic: it absorbs every operation used here (`np.sqrt` and powers with
exponent `ex` included), and every comparison with it is false. -/
structure IsNaN {α : Type} [Add α] [Mul α] [Div α] [Zero α] [One α] [BEq α] [LT α] (lib : Lib α) (ex nan : α) :
    Prop where
  add_left : ∀ x, nan + x = nan
  add_right : ∀ x, x + nan = nan
  mul_left : ∀ x, nan * x = nan
  mul_right : ∀ x, x * nan = nan
  div_left : ∀ x, nan / x = nan
  sqrt : lib.sqrt nan = nan
  pow : lib.pow nan ex = nan
  ne_zero : (nan == 0) = false
  not_lt_one : ¬ nan < 1

end Nbkode.Spec
