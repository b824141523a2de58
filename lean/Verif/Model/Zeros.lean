import Verif.Model.Base

/-!
# Root finders (`nbkode/nbcompat/zeros.py`)
-/

set_option autoImplicit false

namespace Nbkode

/-- `nbkode/nbcompat/zeros.py:27-31`. -/
inductive NewtonFlag where
  | ok
  | derivativeWasZero
  | toleranceReached
  | notConverged
  deriving DecidableEq, Repr

variable {α : Type}
variable [Add α] [Sub α] [Mul α] [Div α] [Neg α] [Zero α] [One α] [NatCast α] [BEq α]
variable [LT α] [DecidableLT α] [LE α] [DecidableLE α]

section bisect
variable {σ : Type}

/-- `nbkode/nbcompat/zeros.py:523-533`: the `for` loop of `bisect` with `iters` iterations left, and the
final `return mid`. `mid` is `none` while the Python variable is unbound. The function may be
stateful (event location calls the solver's interpolator). `yr` is assigned but never read in the loop and is
dropped. -/
def bisectLoop (fn : α → Py σ α) (tol rtol : α) :
    (iters : Nat) → (left yl right : α) → (mid : Option α) → Py σ α
  | 0, _, _, _, some mid => pure mid
  | 0, _, _, _, none => throw .unboundLocalError
  | iters + 1, left, yl, right, _ => do
    let mid ← Py.ofExcept (pyDiv (left + right) ((2 : Nat) : α))
    let ym ← fn mid
    if isclose ym 0 tol rtol then
      pure mid
    else if pySign ym == pySign yl then
      bisectLoop fn tol rtol iters mid ym right (some mid)
    else
      bisectLoop fn tol rtol iters left yl mid (some mid)

/-- `nbkode/nbcompat/zeros.py:508-533` `bisect`. -/
def bisect (fn : α → Py σ α) (left right tol : α) (maxiter : Nat) (rtol : α) : Py σ α := do
  if !(decide (left < right)) then
    throw .valueError
  let yl ← fn left
  if yl == 0 then
    return left
  let yr ← fn right
  if yr == 0 then
    return right
  if !(decide (yl * yr < 0)) then
    throw .valueError
  bisectLoop fn tol rtol maxiter left yl right none

end bisect

/-- Result of `_newton`: `(p, funcalls, itr, flag)` and the package's own flag
(`nbkode/nbcompat/zeros.py:392-395`). `econverged` is `flag == _ECONVERGED`. -/
structure NewtonResult (α : Type) where
  p : α
  funcalls : Nat
  itr : Nat
  econverged : Bool
  flag : NewtonFlag

/-- `nbkode/nbcompat/zeros.py:295-339`: Newton-Raphson / Halley loop. `itr` is the loop variable,
`left` the number of iterations left, `p` the last iterate (unbound before the first
iteration). Scalar divisions raise on zero. -/
def newtonLoop (fn fprime : α → Except Err α) (fprime2 : Option (α → Except Err α)) (tol rtol : α) :
    (left itr : Nat) → (p0 : α) → (p : Option α) → (funcalls : Nat) → Except Err (NewtonResult α)
  | 0, itr, _, some p, fc => .ok ⟨p, fc, itr, false, .notConverged⟩
  | 0, _, _, none, _ => .error .unboundLocalError
  | left + 1, itr, p0, _, fc => do
    let fval ← fn p0
    if fval == 0 then
      return ⟨p0, fc + 1, itr, true, .ok⟩
    let fder ← fprime p0
    if fder == 0 then
      return ⟨p0, fc + 2, itr + 1, false, .derivativeWasZero⟩
    let newtonStep ← pyDiv fval fder
    let (newtonStep, fc) ← match fprime2 with
      | none => pure (newtonStep, fc + 2)
      | some fprime2 => do
        let fder2 ← fprime2 p0
        let q ← pyDiv (newtonStep * fder2) fder
        let adj ← pyDiv q ((2 : Nat) : α)
        if pyAbs adj < 1 then
          let st ← pyDiv newtonStep (1 - adj)
          pure (st, fc + 3)
        else
          pure (newtonStep, fc + 3)
    let p := p0 - newtonStep
    if isclose p p0 tol rtol then
      return ⟨p, fc, itr + 1, true, .ok⟩
    newtonLoop fn fprime fprime2 tol rtol left (itr + 1) p (some p) fc

/-- `nbkode/nbcompat/zeros.py:356-385`: secant loop. Divisions are modelled as scalar divisions; when the code
is called with one-element arrays (implicit multistep) a zero divisor gives inf/nan instead of an
exception. The two differ only if `q0 / q1` rounds to `1` although `q0 != q1`. -/
def secantLoop (fn : α → Except Err α) (tol rtol : α) :
    (left itr : Nat) → (p0 p1 q0 q1 : α) → (p : Option α) → (funcalls : Nat) →
      Except Err (NewtonResult α)
  | 0, itr, _, _, _, _, some p, fc => .ok ⟨p, fc, itr, false, .notConverged⟩
  | 0, _, _, _, _, _, none, _ => .error .unboundLocalError
  | left + 1, itr, p0, p1, q0, q1, _, fc =>
    if q1 == q0 then do
      let p ← pyDiv (p1 + p0) ((2 : Nat) : α)
      return ⟨p, fc, itr + 1, true, if p1 == p0 then .ok else .toleranceReached⟩
    else do
      let p ←
        if pyAbs q0 < pyAbs q1 then do
          let r ← pyDiv (-q0) q1
          let r' ← pyDiv q0 q1
          pyDiv (r * p1 + p0) (1 - r')
        else do
          let r ← pyDiv (-q1) q0
          let r' ← pyDiv q1 q0
          pyDiv (r * p0 + p1) (1 - r')
      if isclose p p1 tol rtol then
        return ⟨p, fc, itr + 1, true, .ok⟩
      let q ← fn p
      secantLoop fn tol rtol left (itr + 1) p1 p q1 q (some p) (fc + 1)

/-- `nbkode/nbcompat/zeros.py:347-349`: the second secant start, `eps = 1e-4`. -/
def secantStart (eps x0 : α) : α :=
  let p1 := x0 * (1 + eps)
  if 0 ≤ p1 then p1 + eps else p1 + -eps

/-- `nbkode/nbcompat/zeros.py:266-395` `_newton` (`args` are closed over; `full_output` only selects
the shape of the result). `eps` is the literal `1e-4` of line 347. -/
def newtonImpl (eps : α) (fn : α → Except Err α) (x0 : α) (fprime : Option (α → Except Err α))
    (tol : α) (maxiter : Nat) (fprime2 : Option (α → Except Err α)) (x1 : Option α) (rtol : α) :
    Except Err (NewtonResult α) :=
  match fprime with
  | some fprime => newtonLoop fn fprime fprime2 tol rtol maxiter 0 (1 * x0) none 0
  | none => do
    let p0 := 1 * x0
    let p1 ← match x1 with
      | some x1 => if x1 == x0 then throw .valueError else pure x1
      | none => pure (secantStart eps x0)
    let q0 ← fn p0
    let q1 ← fn p1
    if pyAbs q1 < pyAbs q0 then
      secantLoop fn tol rtol maxiter 0 p1 p0 q1 q0 none 2
    else
      secantLoop fn tol rtol maxiter 0 p0 p1 q0 q1 none 2

/-- `nbkode/nbcompat/zeros.py:401-437` `j_newton`. -/
def jNewton (eps : α) (fn : α → Except Err α) (x0 : α) (fprime : Option (α → Except Err α))
    (tol : α) (maxiter : Nat) (fprime2 : Option (α → Except Err α)) (x1 : Option α) (rtol : α) :
    Except Err α := do
  let r ← newtonImpl eps fn x0 fprime tol maxiter fprime2 x1 rtol
  if r.flag ≠ .ok then
    throw .runtimeError
  return r.p

/-- `nbkode/nbcompat/zeros.py:44-263` `newton` on a scalar start with `disp=True` (the array path delegates to
SciPy and is not modelled). `maxiter` is a Python integer. -/
def newton (eps : α) (fn : α → Except Err α) (x0 : α) (fprime : Option (α → Except Err α))
    (tol : α) (maxiter : Int) (fprime2 : Option (α → Except Err α)) (x1 : Option α) (rtol : α) :
    Except Err α := do
  if tol ≤ 0 then
    throw .valueError
  if maxiter < 1 then
    throw .valueError
  let r ← newtonImpl eps fn x0 fprime tol maxiter.toNat fprime2 x1 rtol
  if r.flag ≠ .ok then
    throw .runtimeError
  return r.p

section hd
variable {n : Nat}

/-- `nbkode/nbcompat/zeros.py:440-457` `jacobian` (central differences, `eps = 1e-10`). `J` starts as zeros and
column `i` is filled for `i = 0, 1, ...`; the first exception raised by `func` propagates. Array
division does not raise. -/
def jacobian (eps : α) (fn : Vec α n → Except Err (Vec α n)) (x : Vec α n) :
    Except Err (Fin n → Fin n → α) :=
  (List.finRange n).foldlM (fun J i => do
    let x1 := Function.update x i (x i + eps)
    let x2 := Function.update x i (x i - eps)
    let f1 ← fn x1
    let f2 ← fn x2
    pure (fun r c => if c = i then (f1 r - f2 r) / (((2 : Nat) : α) * eps) else J r c))
    (fun _ _ => 0)

/-- `np.linalg.norm(value, ord=2)`. -/
def norm2 (lib : Lib α) (v : Vec α n) : α :=
  lib.sqrt (Fin.foldl n (fun acc i => acc + v i * v i) 0)

/-- `nbkode/nbcompat/zeros.py:480-490`: the `while` loop. `left` is `maxiter - iteration_counter`. -/
def newtonHdLoop (lib : Lib α) (eps : α) (fn : Vec α n → Except Err (Vec α n)) (atol rtol : α) :
    (left : Nat) → (y value : Vec α n) → Except Err (Vec α n × NewtonFlag)
  | left, y, value =>
    if isclose (norm2 lib value) 0 atol rtol then
      .ok (y, .ok)
    else do
      let J ← jacobian eps fn y
      let delta ← lib.solve J (-value)
      let y' := y + delta
      let value' ← fn y'
      match left with
      | 0 => return (y', .notConverged)
      | left + 1 => newtonHdLoop lib eps fn atol rtol left y' value'

/-- `nbkode/nbcompat/zeros.py:460-490` `newton_hd_impl`. -/
def newtonHdImpl (lib : Lib α) (eps : α) (fn : Vec α n → Except Err (Vec α n)) (y : Vec α n)
    (atol rtol : α) (maxiter : Nat) : Except Err (Vec α n × NewtonFlag) := do
  let value ← fn y
  newtonHdLoop lib eps fn atol rtol maxiter y value

/-- `nbkode/nbcompat/zeros.py:493-505` `newton_hd`. -/
def newtonHd (lib : Lib α) (eps : α) (fn : Vec α n → Except Err (Vec α n)) (y0 : Vec α n)
    (atol rtol : α) (maxiter : Nat) : Except Err (Vec α n) := do
  let (y, flag) ← newtonHdImpl lib eps fn y0 atol rtol maxiter
  if flag ≠ .ok then
    throw .runtimeError
  return y

end hd

end Nbkode
