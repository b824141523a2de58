import Verif.Model.Construct

/-!
# The automatic first step

`nbkode/core.py:695-705` calls `select_initial_step` of `scipy/integrate/_ivp/common.py` (SciPy before 1.11, whose signature is the
one used) with direction 1. It is not part of the repository; this is what it does, for a state with at least one component and a
positive `scale`.
-/

set_option autoImplicit false

namespace Nbkode

variable {α : Type}
variable [Add α] [Sub α] [Mul α] [Div α] [Neg α] [Zero α] [One α] [NatCast α] [BEq α]
variable [LT α] [DecidableLT α] [LE α] [DecidableLE α]
variable {n : Nat}

/-- `1e-k`. -/
def tenth (α : Type) [Div α] [One α] [NatCast α] (k : Nat) : α := 1 / ((10 ^ k : Nat) : α)

/-- SciPy's `norm`: `np.linalg.norm(x) / x.size ** 0.5`. -/
def meanNorm (lib : Lib α) (x : Vec α n) : α :=
  lib.sqrt (Fin.foldl n (fun acc i => acc + x i * x i) 0) / lib.pow (n : α) (1 / ((2 : Nat) : α))

/-- `h0`: the first guess, from the norms of `y0` and `f0`. -/
def firstGuess (d0 d1 : α) : α :=
  if decide (d0 < tenth α 5) || decide (d1 < tenth α 5) then tenth α 6 else tenth α 2 * d0 / d1

/-- `h1`: the size of a step whose error is about a hundredth of the tolerance. -/
def secondGuess (lib : Lib α) (order : Nat) (h0 d1 d2 : α) : α :=
  if decide (d1 ≤ tenth α 15) && decide (d2 ≤ tenth α 15) then pyMax (tenth α 6) (h0 * tenth α 3)
  else lib.pow (tenth α 2 / pyMax d1 d2) (1 / ((order + 1 : Nat) : α))

/-- `select_initial_step(fun, t0, y0, f0, 1, order, rtol, atol)` as called in `nbkode/core.py:696-705`; `order` is
`error_estimator_order`. -/
def selectInitialStep (lib : Lib α) (o : VarOptions α) (order : Nat) (rhs : Rhs α n) (t0 : α) (y0 f0 : Vec α n) : Except Err α := do
  let scale : Vec α n := fun i => o.atol + pyAbs (y0 i) * o.rtol
  let d0 := meanNorm lib fun i => y0 i / scale i
  let d1 := meanNorm lib fun i => f0 i / scale i
  let h0 := firstGuess d0 d1
  let f1 ← rhs (t0 + h0) (fun i => y0 i + h0 * f0 i)
  let d2 := (meanNorm lib fun i => (f1 i - f0 i) / scale i) / h0
  return pyMin (((100 : Nat) : α) * h0) (secondGuess lib order h0 d1 d2)

end Nbkode
