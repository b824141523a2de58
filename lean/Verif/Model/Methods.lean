import Verif.Model.Buffer
import Verif.Model.Zeros

/-!
# Integration methods: one step and interpolation

A method is what a solver class provides to the base class: the body of `_step` (after the time check
added by `__init_subclass__`) and `_interpolate`.
-/

set_option autoImplicit false

namespace Nbkode

/-- The parts of a solver class used by the base class: `step` as returned by `_step_builder`
(`nbkode/core.py:174`) and `_interpolate` (`nbkode/core.py:578-596` or an override). `X` is the type of the
method's scratch objects. `_interpolate` may return a view of the history. -/
structure Method (α : Type) (n k : Nat) (X : Type) where
  body : Rhs α n → Py (St α n k X) Unit
  interp : Rhs α n → α → Py (St α n k X) (Ref α n k)

variable {α : Type}
variable [Add α] [Sub α] [Mul α] [Div α] [Neg α] [Zero α] [One α] [NatCast α] [BEq α]
variable [LT α] [DecidableLT α] [LE α] [DecidableLE α]
variable {n k : Nat} {X : Type}

/-- `cache.push(t, y, f)` on the solver's state. -/
def pushSt (t : α) (y f : Vec α n) : Py (St α n k X) Unit :=
  modify fun s => { s with cache := s.cache.push t y f }

/-- `nbkode/core.py:578-596` `_interpolate`: the default, cubic Hermite interpolation between the oldest
and the newest point of the history. -/
def hermiteInterp (tEval : α) : Py (St α n k X) (Ref α n k) := do
  let s ← get
  let t0 := s.cache.ts (Buffer.iOld k)
  let y0 := s.cache.ys (Buffer.iOld k)
  if tEval == t0 then
    return .row (Buffer.iOld k)
  let dt := s.cache.t - t0
  let dy := s.cache.y - y0
  let f0 := s.cache.fs (Buffer.iOld k)
  let f1 := s.cache.f
  let T ← Py.ofExcept (pyDiv (tEval - t0) dt)
  return .own (y0 + scale T dy
    + scale (T * (T - 1)) (scale (1 - ((2 : Nat) : α) * T) dy
        + scale dt (scale (T - 1) f0 + scale T f1)))

/-! ## Linear multistep methods (`nbkode/multistep/core.py`) -/

/-- Class attributes of a multistep method: `A` and `B` as stored, i.e. indexed like the history, oldest
first, and `Bn` (`nbkode/multistep/core.py:17-21`). `A` and `B` have the same length in all registered
classes (`zeros_like`). `ORDER = p + 1` is that length (`:25-27`). -/
structure MultistepCoef (α : Type) (p : Nat) where
  A : Fin (p + 1) → α
  B : Fin (p + 1) → α
  Bn : α

/-- `LEN_HISTORY = max(ORDER, 2)` (`nbkode/multistep/core.py:33-35`), as `k + 2` with `ORDER = p + 1`. -/
def histExtra (p : Nat) : Nat := p - 1

/-- `a[delta:]` with `delta = LEN_HISTORY - ORDER`: the last `p + 1` rows
(`nbkode/multistep/core.py:94-101`, `124-131`; `delta = 0` when the sizes agree). -/
def lastRows {A : Type} {p : Nat} (a : Fin (histExtra p + 2) → A) : Fin (p + 1) → A :=
  fun j => a ⟨histExtra p + 2 - (p + 1) + j.val, by
    have := j.isLt; unfold histExtra at *; omega⟩

/-- `h * B @ cache.fs[deltaB:] - A @ cache.ys[deltaA:]` (`nbkode/multistep/core.py:101`, `109`, `131`, `153`). -/
def multistepK {p : Nat} (c : MultistepCoef α p) (b : Buffer α n (histExtra p)) (h : α) :
    Vec α n :=
  vdot (fun j => h * c.B j) (lastRows b.fs) - vdot c.A (lastRows b.ys)

/-- `nbkode/multistep/core.py:71-80` with the explicit `_fixed_step` of `:87-112`. -/
def explicitMultistepBody {p : Nat} (c : MultistepCoef α p) (rhs : Rhs α n) :
    Py (St α n (histExtra p) Unit) Unit := do
  let s ← get
  let tNew := s.cache.t + s.h
  let yNew := multistepK c s.cache s.h
  let f ← Py.ofExcept (rhs tNew yNew)
  pushSt tNew yNew f

/-- `nbkode/multistep/core.py:120-122` `implicit_root`. -/
def implicitRoot (rhs : Rhs α n) (t hBn : α) (K : Vec α n) (y : Vec α n) : Except Err (Vec α n) := do
  let f ← rhs t y
  return y - scale hBn f - K

/-- The numeric literals of the root finders' defaults: `eps = 1e-4` (`zeros.py:347`), `eps = 1e-10`
(`zeros.py:442`), `tol = atol = 1.48e-8`, `rtol = 0.0` (`zeros.py:407,411,464,465`). -/
structure ZeroOpts (α : Type) where
  secantEps : α
  jacEps : α
  tol : α
  rtol : α

/-- The solution of the implicit equation: `j_newton` for one component, `newton_hd` otherwise
(`nbkode/multistep/core.py:133-144`, `155-166`). `maxiter = 50` in both. For one component the
one-element arrays are treated as scalars. -/
def implicitSolve (lib : Lib α) (zo : ZeroOpts α) (rhs : Rhs α n) (t hBn : α) (K y : Vec α n) :
    Except Err (Vec α n) :=
  if hn : n = 1 then do
    let i : Fin n := ⟨0, by omega⟩
    let r ← jNewton zo.secantEps
      (fun x => do
        let v ← implicitRoot rhs t hBn K (fun _ => x)
        return v i)
      (y i) none zo.tol 50 none none zo.rtol
    return fun _ => r
  else
    newtonHd lib zo.jacEps (implicitRoot rhs t hBn K) y zo.tol zo.rtol 50

/-- `nbkode/multistep/core.py:71-80` with the implicit `_fixed_step` of `:115-170`. -/
def implicitMultistepBody {p : Nat} (lib : Lib α) (zo : ZeroOpts α) (c : MultistepCoef α p)
    (rhs : Rhs α n) : Py (St α n (histExtra p) Unit) Unit := do
  let s ← get
  let tNew := s.cache.t + s.h
  let K := multistepK c s.cache s.h
  let yNew ← Py.ofExcept (implicitSolve lib zo rhs tNew (s.h * c.Bn) K s.cache.y)
  let f ← Py.ofExcept (rhs tNew yNew)
  pushSt tNew yNew f

/-- `ExplicitMultistep` (`nbkode/multistep/core.py:87-112`), default interpolation. -/
def explicitMultistep {p : Nat} (c : MultistepCoef α p) :
    Method α n (histExtra p) Unit where
  body := explicitMultistepBody c
  interp := fun _ t => hermiteInterp t

/-- `ImplicitMultistep` (`nbkode/multistep/core.py:115-170`), default interpolation. -/
def implicitMultistep {p : Nat} (lib : Lib α) (zo : ZeroOpts α) (c : MultistepCoef α p) :
    Method α n (histExtra p) Unit where
  body := implicitMultistepBody lib zo c
  interp := fun _ t => hermiteInterp t

/-! ## Explicit Runge-Kutta methods (`nbkode/runge_kutta`) -/

/-- Class attributes `A`, `B`, `C` (`nbkode/runge_kutta/core.py:17-19`) with `s + 1` stages. -/
structure Tableau (α : Type) (s : Nat) where
  A : Fin (s + 1) → Fin (s + 1) → α
  B : Fin (s + 1) → α
  C : Fin (s + 1) → α

/-- `A[s, :s] @ K[:s]` (`nbkode/runge_kutta/explicit.py:39`, `71`). `K` may have more rows than `A` (FSAL). -/
def rowDot {s m : Nat} (hm : s + 1 ≤ m) (A : Fin (s + 1) → Fin (s + 1) → α) (K : Fin m → Vec α n)
    (i : Fin (s + 1)) : Vec α n :=
  vdot (fun j : Fin i.val => A i ⟨j.val, by have := j.isLt; have := i.isLt; omega⟩)
    (fun j : Fin i.val => K ⟨j.val, by have := j.isLt; have := i.isLt; omega⟩)

/-- `nbkode/runge_kutta/explicit.py:38-40`, `70-72`: the stage loop, over the list of the stages to do. -/
def stageLoop {s m : Nat} (hm : s + 1 ≤ m) (T : Tableau α s) (rhs : Rhs α n) (t h : α)
    (y : Vec α n) : List (Fin (s + 1)) → Py (Fin m → Vec α n) Unit
  | [] => pure ()
  | i :: rest => do
    let K ← get
    let dy := rowDot hm T.A K i
    let ki ← Py.ofExcept (rhs (t + h * T.C i) (y + scale h dy))
    modify fun K => Function.update K (Fin.castLE hm i) ki
    stageLoop hm T rhs t h y rest

/-- `nbkode/runge_kutta/explicit.py:37-40`, `69-72`: `K[0] = cache.f` and the stage loop. -/
def stages {s m : Nat} (hm : s + 1 ≤ m) (T : Tableau α s) (rhs : Rhs α n) (t h : α)
    (y f : Vec α n) : Py (Fin m → Vec α n) Unit := do
  modify fun K => Function.update K (Fin.castLE hm 0) f
  stageLoop hm T rhs t h y (List.finRange (s + 1)).tail

/-- Scratch of a fixed-step Runge-Kutta solver: the stages `K` (`nbkode/runge_kutta/core.py:25-27`). -/
abbrev ErkAux (α : Type) (n s : Nat) : Type := Fin (s + 1) → Vec α n

/-- `nbkode/runge_kutta/explicit.py:28-46` `ERK._fixed_step`. -/
def erkFixedStep {s : Nat} (T : Tableau α s) (rhs : Rhs α n) :
    Py (St α n 0 (ErkAux α n s)) (α × Vec α n) := do
  let st ← get
  let t := st.cache.t
  let y := st.cache.y
  Py.zoom (fun s => s.aux) (fun K s => { s with aux := K })
    (stages (le_refl _) T rhs t st.h y st.cache.f)
  let st' ← get
  return (t + st.h, y + vdot (fun j => st.h * T.B j) st'.aux)

/-- `nbkode/runge_kutta/core.py:33-42` `RungeKutta._step`. -/
def erkBody {s : Nat} (T : Tableau α s) (rhs : Rhs α n) : Py (St α n 0 (ErkAux α n s)) Unit := do
  let (t, y) ← erkFixedStep T rhs
  let f ← Py.ofExcept (rhs t y)
  pushSt t y f

/-- `ERK` (`nbkode/runge_kutta/explicit.py:9-46`), default interpolation. -/
def erk {s : Nat} (T : Tableau α s) : Method α n 0 (ErkAux α n s) where
  body := erkBody T
  interp := fun _ t => hermiteInterp t

/-! ## Variable-step methods -/

/-- `nbkode/core.py:661-681` `VariableStepOptions`. `max_step` may be `np.inf`. -/
structure VarOptions (α : Type) where
  atol : α
  rtol : α
  minStep : α
  maxStep : Bound α
  minFactor : α
  maxFactor : α
  safetyFactor : α

/-- `nbkode/core.py:663-672`: the default options. -/
def VarOptions.default : VarOptions α where
  atol := 1 / ((1000000 : Nat) : α)
  rtol := 1 / ((1000 : Nat) : α)
  minStep := 1 / ((1000000000000000 : Nat) : α)
  maxStep := .inf
  minFactor := 1 / ((5 : Nat) : α)
  maxFactor := ((10 : Nat) : α)
  safetyFactor := ((9 : Nat) : α) / ((10 : Nat) : α)

/-- Scratch of a variable-step solver: stages `K` with the extra FSAL row, and the interpolator. -/
structure FsalAux (α : Type) (n s : Nat) (I : Type) where
  K : Fin (s + 2) → Vec α n
  itp : I

/-- `nbkode/runge_kutta/core.py:73-76` `_step_error`. -/
def stepError {m : Nat} (h : α) (K : Fin m → Vec α n) (E : Fin m → α) : Vec α n :=
  scale h (vdot E K)

/-- `nbkode/runge_kutta/core.py:78-83` `_scaled_error_norm`. -/
def scaledErrorNorm (lib : Lib α) (y yPrev error : Vec α n) (o : VarOptions α) : α :=
  let sq : Vec α n := fun i =>
    let e := error i / (o.atol + o.rtol * pyMax (pyAbs (y i)) (pyAbs (yPrev i)))
    e * e
  lib.sqrt (Fin.foldl n (fun acc i => acc + sq i) 0 / (n : α))

/-- `nbkode/runge_kutta/core.py:85-99` `_step_update`: new step size and acceptance. -/
def stepUpdate (lib : Lib α) (o : VarOptions α) (errorExponent errorNorm h : α) :
    Except Err (α × Bool) :=
  if errorNorm == 0 then
    .ok (h * o.maxFactor, true)
  else do
    let factor ← pyDiv o.safetyFactor (lib.pow errorNorm errorExponent)
    return (h * pyMin o.maxFactor (pyMax o.minFactor factor), decide (errorNorm < 1))

section fsal
variable {s : Nat} {I : Type}

/-- `nbkode/runge_kutta/explicit.py:60-79` `FSAL._fixed_step`. -/
def fsalFixedStep (T : Tableau α s) (rhs : Rhs α n) :
    Py (St α n 0 (FsalAux α n s I)) (α × Vec α n) := do
  let st ← get
  let t := st.cache.t
  let y := st.cache.y
  Py.zoom (fun s => s.aux.K) (fun K s => { s with aux := { s.aux with K := K } })
    (stages (by omega) T rhs t st.h y st.cache.f)
  let st' ← get
  let t' := t + st.h
  let y' := y + vdot (fun j => st.h * T.B j) (fun j : Fin (s + 1) => st'.aux.K j.castSucc)
  let kLast ← Py.ofExcept (rhs t' y')
  modify fun s => { s with aux := { s.aux with K := Function.update s.aux.K (Fin.last _) kLast } }
  return (t', y')

/-- Error norm of the step just computed, from `h`, `K`, the new and the previous state. -/
abbrev ErrNorm (α : Type) (n s : Nat) : Type :=
  (h : α) → (K : Fin (s + 2) → Vec α n) → (y yPrev : Vec α n) → Except Err α

/-- `nbkode/runge_kutta/explicit.py:93-94`: the error norm of `FSAL`. -/
def fsalErrNorm (lib : Lib α) (o : VarOptions α) (E : Fin (s + 2) → α) : ErrNorm α n s :=
  fun h K y yPrev => .ok (scaledErrorNorm lib y yPrev (stepError h K E) o)

/-- `nbkode/runge_kutta/explicit.py:332-336`: the error norm of `DOP853`. The divisions are scalar. -/
def dopErrNorm (lib : Lib α) (o : VarOptions α) (E3 E5 : Fin (s + 2) → α) : ErrNorm α n s :=
  fun h K y yPrev => do
    let err5 := scaledErrorNorm lib y yPrev (stepError h K E5) o
    let err3 := scaledErrorNorm lib y yPrev (stepError h K E3) o
    let q ← pyDiv err3 (((10 : Nat) : α) * err5)
    pyDiv err5 (lib.sqrt (1 + q * q))

/-- `nbkode/runge_kutta/explicit.py:89-97`, `328-339`: the `while True` loop of `FSAL._step` and of
`DOP853._step`; they differ in the error norm. -/
def fsalBody (lib : Lib α) (o : VarOptions α) (errorExponent : α) (T : Tableau α s)
    (errNorm : ErrNorm α n s) (rhs : Rhs α n) : Py (St α n 0 (FsalAux α n s I)) Unit := do
  let (t, y) ← fsalFixedStep T rhs
  let st ← get
  let en ← Py.ofExcept (errNorm st.h st.aux.K y st.cache.y)
  let (h', accepted) ← Py.ofExcept (stepUpdate lib o errorExponent en st.h)
  modify fun s => { s with h := h' }
  if accepted then
    pushSt t y (st.aux.K (Fin.last _))
  else
    fsalBody lib o errorExponent T errNorm rhs
partial_fixpoint

end fsal

/-! ### Dense output -/

/-- State of `RkInterpolator` (`nbkode/runge_kutta/explicit.py:354-369`): `Q` (here indexed power first,
i.e. the transpose) and `updated_t`. `P` is a class constant, `K` is shared with the solver. -/
structure RkItp (α : Type) (n d : Nat) where
  Q : Fin d → Vec α n
  updatedT : α

/-- `nbkode/runge_kutta/explicit.py:364-369` `RkInterpolator.update`. -/
def rkUpdate {s d : Nat} (P : Fin (s + 2) → Fin d → α) :
    Py (St α n 0 (FsalAux α n s (RkItp α n d))) Unit :=
  modify fun st => { st with aux := { st.aux with itp :=
    { Q := fun j => vdot (fun i => P i j) st.aux.K, updatedT := st.cache.t } } }

/-- `np.cumprod(np.repeat(x, d))[j]`, i.e. `x` multiplied `j + 1` times, left to right
(`nbkode/runge_kutta/explicit.py:385-386`). -/
def cumpow (x : α) : Nat → α
  | 0 => x
  | j + 1 => cumpow x j * x

/-- `nbkode/runge_kutta/explicit.py:396-403`: `h * np.dot(Q, p) + y_old`. -/
def rkEval {d : Nat} (Q : Fin d → Vec α n) (h x : α) (yOld : Vec α n) : Vec α n :=
  scale h (fun i => Fin.foldl d (fun acc j => acc + Q j i * cumpow x j.val) 0) + yOld

/-- `nbkode/runge_kutta/explicit.py:371-403` `RkInterpolator.evaluate`. -/
def rkInterp {s d : Nat} (P : Fin (s + 2) → Fin d → α) (tEval : α) :
    Py (St α n 0 (FsalAux α n s (RkItp α n d))) (Ref α n 0) := do
  let st ← get
  if tEval == st.cache.ts (Buffer.iLast 0) then
    return .row (Buffer.iLast 0)
  if tEval == st.cache.ts (Buffer.iPrev 0) then
    return .row (Buffer.iPrev 0)
  if !(decide (tEval < st.aux.itp.updatedT)) then
    rkUpdate P
  let st ← get
  let tOld := st.cache.ts (Buffer.iPrev 0)
  let yOld := st.cache.ys (Buffer.iPrev 0)
  let h := st.cache.ts (Buffer.iLast 0) - tOld
  let x ← Py.ofExcept (pyDiv (tEval - tOld) h)
  return .own (rkEval st.aux.itp.Q h x yOld)

/-- State of `DOP853Interpolator` (`nbkode/runge_kutta/explicit.py:406-449`): `F`, `K_extended` and
`updated_t`. -/
structure DopItp (α : Type) (n : Nat) where
  F : Fin 7 → Vec α n
  Kext : Fin 16 → Vec α n
  updatedT : α

/-- The coefficients of the DOP853 dense output: `A_EXTRA`, `C_EXTRA` (stages 13, 14, 15) and `D`
(`nbkode/runge_kutta/explicit.py:409-411`). -/
structure DopDense (α : Type) where
  AExtra : Fin 3 → Fin 16 → α
  CExtra : Fin 3 → α
  D : Fin 4 → Fin 16 → α

/-- `nbkode/runge_kutta/explicit.py:438-440`: the loop over the extra stages. -/
def dopExtra (d : DopDense α) (rhs : Rhs α n) (tOld h : α) (yOld : Vec α n) :
    List (Fin 3) → Py (Fin 16 → Vec α n) Unit
  | [] => pure ()
  | e :: rest => do
    let K ← get
    let dy : Vec α n := fun i =>
      (vdot (fun j : Fin (13 + e.val) => d.AExtra e ⟨j.val, by have := j.isLt; have := e.isLt; omega⟩)
        (fun j : Fin (13 + e.val) => K ⟨j.val, by have := j.isLt; have := e.isLt; omega⟩)) i * h
    let ks ← Py.ofExcept (rhs (tOld + d.CExtra e * h) (yOld + dy))
    modify fun K => Function.update K ⟨13 + e.val, by have := e.isLt; omega⟩ ks
    dopExtra d rhs tOld h yOld rest

/-- `nbkode/runge_kutta/explicit.py:445-448`: the rows of `F`. -/
def dopF (d : DopDense α) (h : α) (yOld y f : Vec α n) (K : Fin 16 → Vec α n) : Fin 7 → Vec α n :=
  fun r =>
    let fOld := K 0
    let dy := y - yOld
    match r with
    | 0 => dy
    | 1 => scale h fOld - dy
    | 2 => scale ((2 : Nat) : α) dy - scale h (f + fOld)
    | 3 => scale h (vdot (d.D 0) K)
    | 4 => scale h (vdot (d.D 1) K)
    | 5 => scale h (vdot (d.D 2) K)
    | 6 => scale h (vdot (d.D 3) K)

/-- `nbkode/runge_kutta/explicit.py:426-449` `DOP853Interpolator.update`. `K_extended[:13] = K` is done in
place before the extra stages are evaluated; `F` and `updated_t` are written at the end. -/
def dopUpdate (d : DopDense α) (rhs : Rhs α n) :
    Py (St α n 0 (FsalAux α n 11 (DopItp α n))) Unit := do
  modify fun st => { st with aux := { st.aux with itp := { st.aux.itp with
    Kext := fun i => if hi : i.val < 13 then st.aux.K ⟨i.val, hi⟩ else st.aux.itp.Kext i } } }
  let st ← get
  let tOld := st.cache.ts (Buffer.iPrev 0)
  let yOld := st.cache.ys (Buffer.iPrev 0)
  let t := st.cache.ts (Buffer.iLast 0)
  let y := st.cache.ys (Buffer.iLast 0)
  let h := t - tOld
  let f := st.cache.f
  Py.zoom (fun s => s.aux.itp.Kext)
    (fun K s => { s with aux := { s.aux with itp := { s.aux.itp with Kext := K } } })
    (dopExtra d rhs tOld h yOld (List.finRange 3))
  modify fun st => { st with aux := { st.aux with itp := { st.aux.itp with
    F := dopF d h yOld y f st.aux.itp.Kext, updatedT := t } } }

/-- `nbkode/runge_kutta/explicit.py:466-479`: the alternating Horner scheme over `F[::-1]`. -/
def dopEval (F : Fin 7 → Vec α n) (x : α) (yOld : Vec α n) : Vec α n :=
  (Fin.foldl 7 (fun (acc : Vec α n) i =>
    let y := acc + F ⟨6 - i.val, by omega⟩
    if i.val % 2 = 0 then fun j => y j * x else fun j => y j * (1 - x)) (fun _ => 0)) + yOld

/-- `nbkode/runge_kutta/explicit.py:451-481` `DOP853Interpolator.evaluate`. -/
def dopInterp (d : DopDense α) (rhs : Rhs α n) (tEval : α) :
    Py (St α n 0 (FsalAux α n 11 (DopItp α n))) (Ref α n 0) := do
  let st ← get
  if tEval == st.cache.ts (Buffer.iLast 0) then
    return .row (Buffer.iLast 0)
  if tEval == st.cache.ts (Buffer.iPrev 0) then
    return .row (Buffer.iPrev 0)
  if !(decide (tEval < st.aux.itp.updatedT)) then
    dopUpdate d rhs
  let st ← get
  let tOld := st.cache.ts (Buffer.iPrev 0)
  let yOld := st.cache.ys (Buffer.iPrev 0)
  let h := st.cache.ts (Buffer.iLast 0) - tOld
  let x ← Py.ofExcept (pyDiv (tEval - tOld) h)
  return .own (dopEval st.aux.itp.F x yOld)

/-- Class constants of a variable-step method with `RkInterpolator` (`RungeKutta23`, `RungeKutta45`;
`nbkode/runge_kutta/explicit.py:132-253`). -/
structure FsalCoef (α : Type) (s d : Nat) extends Tableau α s where
  E : Fin (s + 2) → α
  P : Fin (s + 2) → Fin d → α
  errorExponent : α

/-- `RungeKutta23` / `RungeKutta45` as a method. -/
def fsal {s d : Nat} (lib : Lib α) (o : VarOptions α) (c : FsalCoef α s d) :
    Method α n 0 (FsalAux α n s (RkItp α n d)) where
  body := fsalBody lib o c.errorExponent c.toTableau (fsalErrNorm lib o c.E)
  interp := fun _ t => rkInterp c.P t

/-- Class constants of `DOP853` (`nbkode/runge_kutta/explicit.py:282-345`). -/
structure DopCoef (α : Type) extends Tableau α 11, DopDense α where
  E3 : Fin 13 → α
  E5 : Fin 13 → α
  errorExponent : α

/-- `DOP853` as a method. -/
def dop853 (lib : Lib α) (o : VarOptions α) (c : DopCoef α) :
    Method α n 0 (FsalAux α n 11 (DopItp α n)) where
  body := fsalBody lib o c.errorExponent c.toTableau (dopErrNorm lib o c.E3 c.E5)
  interp := dopInterp c.toDopDense

end Nbkode
