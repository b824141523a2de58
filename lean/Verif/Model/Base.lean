import Mathlib.Data.Nat.Cast.Basic
import Mathlib.Algebra.Group.Pi.Basic
import Mathlib.Data.Fin.Tuple.Basic

/-!
# Python effects, numbers and arrays

`Py σ A` is a Python call that mutates a state `σ`, may raise (`Err`) and may not terminate:
it unfolds to `σ → Option (Except Err A × σ)`. An exception keeps the state mutated so far.
`none` is divergence.
-/

set_option autoImplicit false

namespace Nbkode

/-- The exceptions raised in the modelled code. `user c` is whatever the user's right-hand side or
event function raises. -/
inductive Err where
  | valueError
  | runtimeError
  | indexError
  | keyError
  | attributeError
  | zeroDivisionError
  | unboundLocalError
  | exception
  | linAlgError
  | assertionError
  | typeError
  | user (code : Nat)
  deriving DecidableEq, Repr

/-- A Python call with mutable state `σ`, exceptions and possible divergence. -/
abbrev Py (σ A : Type) : Type := ExceptT Err (StateT σ Option) A

/-- Run a call on a state. -/
def Py.run {σ A : Type} (x : Py σ A) (s : σ) : Option (Except Err A × σ) := x s

/-- Call a function that does not touch the state but may raise. -/
def Py.ofExcept {σ A : Type} (x : Except Err A) : Py σ A := fun s => some (x, s)

/-- Run a call that only sees a part of the state (an object passed by reference). -/
def Py.zoom {σ τ A : Type} (get : σ → τ) (set : τ → σ → σ) (x : Py τ A) : Py σ A :=
  fun s => match x.run (get s) with
    | none => none
    | some (r, t) => some (r, set t s)

/-- A `float` time limit such as `t_bound` or `upto_t`: a number or `np.inf`
(`nbkode/core.py:114` `t_bound: float = np.inf`). -/
inductive Bound (α : Type) where
  | fin (b : α)
  | inf
  deriving DecidableEq

/-- `t > b` for a time `t` and a limit `b` (`nbkode/core.py:178`, `209`). -/
def Bound.exceededBy {α : Type} [LT α] [DecidableLT α] (b : Bound α) (t : α) : Bool :=
  match b with
  | .fin b => decide (b < t)
  | .inf => false

/-- `b > c` for two limits, as in `_check_time(upto_t)` (`nbkode/core.py:208-212`). -/
def Bound.gt {α : Type} [LT α] [DecidableLT α] (b c : Bound α) : Bool :=
  match b, c with
  | .fin b, .fin c => decide (c < b)
  | .inf, .fin _ => true
  | _, .inf => false

/-- `b < t` for a limit `b` and a time `t`, as in `upto_t < self.t` (`nbkode/core.py:243`, `294`). -/
def Bound.lt {α : Type} [LT α] [DecidableLT α] (b : Bound α) (t : α) : Bool :=
  match b with
  | .fin b => decide (b < t)
  | .inf => false

/-- A state vector, `np.ndarray` of shape `(n,)`. -/
abbrev Vec (α : Type) (n : Nat) : Type := Fin n → α

section arrays
variable {α : Type}

/-- `a * v` for a scalar and a vector. -/
def scale [Mul α] {n : Nat} (a : α) (v : Vec α n) : Vec α n := fun i => a * v i

/-- `b @ K` for a vector of length `m` and a matrix with `m` rows. The summation order is left to
right, starting at zero. -/
def vdot [Add α] [Mul α] [Zero α] {m n : Nat} (b : Fin m → α) (K : Fin m → Vec α n) : Vec α n :=
  fun i => Fin.foldl m (fun acc j => acc + b j * K j i) 0

/-- `np.abs` of a number. -/
def pyAbs [Neg α] [Zero α] [LT α] [DecidableLT α] (x : α) : α := if x < 0 then -x else x

/-- Python `min(a, b)`: `b` if `b < a` else `a`. -/
def pyMin [LT α] [DecidableLT α] (a b : α) : α := if b < a then b else a

/-- Python `max(a, b)`: `b` if `a < b` else `a` (also used for `np.maximum`, whose NaN
propagation is not modelled). -/
def pyMax [LT α] [DecidableLT α] (a b : α) : α := if a < b then b else a

/-- `np.sign`. -/
def pySign [Zero α] [LT α] [DecidableLT α] (x : α) : Int :=
  if 0 < x then 1 else if x < 0 then -1 else 0

/-- Scalar `a / b` in compiled code: numba's default ("python") error model raises on a zero divisor.
(With NBKODE_NONUMBA the operands are NumPy scalars and the result is inf/nan with a warning instead;
that mode is not modelled here.) -/
def pyDiv [Div α] [Zero α] [BEq α] (a b : α) : Except Err α :=
  if b == 0 then .error .zeroDivisionError else .ok (a / b)

/-- `nbkode/nbcompat/common.py:16-18` `isclose`. -/
def isclose [Add α] [Sub α] [Mul α] [Neg α] [Zero α] [LT α] [DecidableLT α] [LE α] [DecidableLE α]
    (a b atol rtol : α) : Bool :=
  decide (pyAbs (a - b) ≤ atol + rtol * pyAbs b)

/-- `nbkode/nbcompat/common.py:21-23` `clip`. -/
def clip [LT α] [DecidableLT α] (x xmin xmax : α) : α := pyMin (pyMax x xmin) xmax

end arrays

/-- The user's right-hand side `rhs(t, y)`; it may raise. `params` are closed over
(`nbkode/core.py:129-132`). -/
abbrev Rhs (α : Type) (n : Nat) : Type := α → Vec α n → Except Err (Vec α n)

/-- A right-hand side that never raises. -/
def pureRhs {α : Type} {n : Nat} (f : α → Vec α n → Vec α n) : Rhs α n := fun t y => .ok (f t y)

/-- The numeric library functions the package calls: `np.sqrt`, `**` on floats and
`np.linalg.solve` (which may raise `LinAlgError`). They are parameters of the model. -/
structure Lib (α : Type) where
  sqrt : α → α
  pow : α → α → α
  solve : {n : Nat} → (Fin n → Fin n → α) → Vec α n → Except Err (Vec α n)

end Nbkode
