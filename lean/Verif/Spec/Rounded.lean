import Mathlib.Data.Real.Archimedean
import Mathlib.Data.Int.Log
import Mathlib.Algebra.Order.Floor.Ring
import Mathlib.Order.Monotone.Basic
import Verif.Spec.Events

/-!
# Machine numbers

The solvers compute with floating-point numbers: the result of an operation is the exact result rounded to a number the machine
has. `Num φ` is such a number system, `binary p e` the one with `p` binary digits: with `p = 53` and `e = some (-1074)` it is IEEE
754 double precision without its largest number, infinities and NaN; overflow is not modelled. -/

set_option autoImplicit false

namespace Nbkode.Spec
open Nbkode

/-- A set of machine numbers and a way to round to it: numbers of the machine are left alone and order is kept. The set contains
`0` and `1` and is closed under change of sign and doubling, as binary floating-point numbers are. -/
structure Rounding where
  numbers : Set ℝ
  round : ℝ → ℝ
  round_mem : ∀ x, round x ∈ numbers
  round_self : ∀ x ∈ numbers, round x = x
  monotone : Monotone round
  zero_mem : 0 ∈ numbers
  one_mem : 1 ∈ numbers
  neg_mem : ∀ x ∈ numbers, -x ∈ numbers
  double_mem : ∀ x ∈ numbers, 2 * x ∈ numbers

/-- Rounding changes a number by at most the fraction `u` of it plus `η`. -/
structure Rounding.Accurate (φ : Rounding) (u η : ℝ) : Prop where
  unit_nonneg : 0 ≤ u
  tiny_nonneg : 0 ≤ η
  error : ∀ x, |φ.round x - x| ≤ u * |x| + η

/-- No positive number is rounded to zero. -/
def Rounding.NoUnderflow (φ : Rounding) : Prop := ∀ x, 0 < x → 0 < φ.round x

/-- The machine numbers of a rounding. -/
def Num (φ : Rounding) : Type := { x : ℝ // x ∈ φ.numbers }

namespace Num
variable {φ : Rounding}

/-- The real number it stands for. -/
def val (x : Num φ) : ℝ := x.1

/-- A real number rounded. -/
def of (φ : Rounding) (x : ℝ) : Num φ := ⟨φ.round x, φ.round_mem x⟩

noncomputable instance : LinearOrder (Num φ) := inferInstanceAs (LinearOrder { x : ℝ // x ∈ φ.numbers })

noncomputable instance : Add (Num φ) := ⟨fun x y => of φ (x.val + y.val)⟩
noncomputable instance : Sub (Num φ) := ⟨fun x y => of φ (x.val - y.val)⟩
noncomputable instance : Mul (Num φ) := ⟨fun x y => of φ (x.val * y.val)⟩
noncomputable instance : Div (Num φ) := ⟨fun x y => of φ (x.val / y.val)⟩
noncomputable instance : Neg (Num φ) := ⟨fun x => of φ (-x.val)⟩
noncomputable instance : Zero (Num φ) := ⟨of φ 0⟩
noncomputable instance : One (Num φ) := ⟨of φ 1⟩
noncomputable instance : NatCast (Num φ) := ⟨fun m => of φ m⟩

end Num

/-- How well `τ` is located between `lo` and `hi` as a zero of the function with graph `f`, by bisection with machine numbers
accurate up to `u` and `η`: the value there is at most the tolerance, or `τ` is an end of a bracket at whose ends the signs are
opposite and which is not longer than `(hi - lo) / 2 ^ maxiter` by more than a few roundings. -/
inductive LocatedWithin {φ : Rounding} (u η : ℝ) (bo : BisectOpts (Num φ)) (f : Num φ → Num φ → Prop) (lo hi τ : Num φ) : Prop
  | small (v : Num φ) : f τ v → |v.val| ≤ bo.tol.val → LocatedWithin u η bo f lo hi τ
  | bracket (a b va vb : Num φ) : lo ≤ a → a ≤ b → b ≤ hi →
      b.val - a.val ≤ (hi.val - lo.val) / 2 ^ bo.maxiter + (4 * u * max |lo.val| |hi.val| + 3 * η) → f a va → f b vb →
      ((va < 0 ∧ 0 < vb) ∨ (0 < va ∧ vb < 0)) → (τ = a ∨ τ = b) → LocatedWithin u η bo f lo hi τ

/-- How far a step of size `h` between the times `a` and `b` can be off when machine numbers are accurate up to `u` and `η`. -/
noncomputable def clockError {φ : Rounding} (u η : ℝ) (a b h : Num φ) : ℝ := u * (max |a.val| |b.val| + h.val) + η

/-! ## Binary floating-point numbers -/

/-- The integer next to `x`; of two equally near the even one. -/
noncomputable def halfEven (x : ℝ) : ℤ :=
  if Int.fract x < 1 / 2 ∨ (Int.fract x = 1 / 2 ∧ Even ⌊x⌋) then ⌊x⌋ else ⌊x⌋ + 1

/-- The exponent of the last digit of the numbers of the size of `x`, with `p` binary digits and no exponent below `e` (if
given). -/
noncomputable def lastDigit (p : ℕ) (e : Option ℤ) (x : ℝ) : ℤ :=
  match e with
  | none => Int.log 2 |x| - p + 1
  | some e => max (Int.log 2 |x| - p + 1) e

/-- The numbers `m * 2 ^ i` with at most `p` binary digits and, if given, no exponent below `e`. -/
def floats (p : ℕ) (e : Option ℤ) : Set ℝ :=
  { x | ∃ m i : ℤ, |m| ≤ 2 ^ p ∧ (∀ j, e = some j → j ≤ i) ∧ x = m * (2 : ℝ) ^ i }

/-- Rounding to the nearest of those numbers, ties to even. -/
noncomputable def roundFloat (p : ℕ) (e : Option ℤ) (x : ℝ) : ℝ :=
  halfEven (x / 2 ^ lastDigit p e x) * 2 ^ lastDigit p e x

end Nbkode.Spec
