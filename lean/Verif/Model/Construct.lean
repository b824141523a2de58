import Verif.Model.Solver
import Verif.Model.Tableaux

/-!
# Constructors

`garbage` arguments are the contents of uninitialised arrays (`np.empty`).
-/

set_option autoImplicit false

namespace Nbkode

variable {α : Type}
variable [Add α] [Sub α] [Mul α] [Div α] [Neg α] [Zero α] [One α] [NatCast α] [BEq α]
variable [LT α] [DecidableLT α] [LE α] [DecidableLE α]
variable {n k : Nat} {X : Type}

/-- `nbkode/core.py:106-141` `Solver.__init__`: the step size is `h` or `1` (`:134-137`), the history is filled
with `(t0, y0, rhs(t0, y0))` (`:139-141`). `float(t0)` and `np.array(y0, dtype=float)` are taken to be
the identity. `aux` is the subclass' scratch. -/
def solverInit (garbage : Buffer α n k) (aux : X) (rhs : Rhs α n) (t0 : α) (y0 : Vec α n)
    (h : Option α) : Except Err (St α n k X) := do
  let f0 ← rhs t0 y0
  return { cache := Buffer.init garbage t0 y0 f0, h := h.getD 1, aux := aux }

/-- `nbkode/runge_kutta/core.py:25-27` `RungeKutta.__init__` for the fixed-step classes: `K = np.empty(...)`. -/
def erkInit {s : Nat} (garbage : Buffer α n 0) (K : ErkAux α n s) (rhs : Rhs α n) (t0 : α)
    (y0 : Vec α n) (h : Option α) : Except Err (St α n 0 (ErkAux α n s)) :=
  solverInit garbage K rhs t0 y0 h

/-- `nbkode/core.py:688-706` `VariableStep.__init__` after `options` are collected. `validate_max_step` and
`validate_tol` (SciPy) raise `ValueError` for a non-positive `max_step` and a negative `atol`; the tolerance
`validate_tol` returns is not used. `selectInitialStep` is SciPy's `select_initial_step`. Keyword `h` reaches
`Solver.__init__` and is then overwritten by `first_step` or the automatic choice. -/
def variableInit (o : VarOptions α)
    (selectInitialStep : Rhs α n → α → Vec α n → Vec α n → Except Err α)
    (garbage : Buffer α n k) (aux : X) (rhs : Rhs α n) (t0 : α) (y0 : Vec α n)
    (h firstStep : Option α) : Except Err (St α n k X) := do
  let s ← solverInit garbage aux rhs t0 y0 h
  if !(match o.maxStep with
      | .fin m => decide (0 < m)
      | .inf => true) then
    throw .valueError
  if o.atol < 0 then
    throw .valueError
  let h' ← match firstStep with
    | some h => pure h
    | none => selectInitialStep rhs s.t s.y s.f
  return { s with h := h' }

/-- `nbkode/runge_kutta/explicit.py:155-157`, `240-242` `RungeKutta23/45.__init__`: the interpolator is created and
updated once (`:355-359`). -/
def fsalInit {s d : Nat} (P : Fin (s + 2) → Fin d → α) (o : VarOptions α)
    (selectInitialStep : Rhs α n → α → Vec α n → Vec α n → Except Err α)
    (garbage : Buffer α n 0) (K : Fin (s + 2) → Vec α n) (itp : RkItp α n d) (rhs : Rhs α n) (t0 : α)
    (y0 : Vec α n) (h firstStep : Option α) :
    Except Err (St α n 0 (FsalAux α n s (RkItp α n d))) := do
  let st ← variableInit o selectInitialStep garbage ⟨K, itp⟩ rhs t0 y0 h firstStep
  match (rkUpdate P).run st with
  | some (.ok _, st') => return st'
  | some (.error e, _) => throw e
  | none => return st

/-- `nbkode/runge_kutta/explicit.py:307-317` `DOP853.__init__`: the interpolator's `update` is called once, on the
uninitialised stages (`:407-421`). -/
def dopInit (d : DopDense α) (o : VarOptions α)
    (selectInitialStep : Rhs α n → α → Vec α n → Vec α n → Except Err α)
    (garbage : Buffer α n 0) (K : Fin 13 → Vec α n) (itp : DopItp α n) (rhs : Rhs α n) (t0 : α)
    (y0 : Vec α n) (h firstStep : Option α) :
    Except Err (St α n 0 (FsalAux α n 11 (DopItp α n))) := do
  let st ← variableInit o selectInitialStep garbage ⟨K, itp⟩ rhs t0 y0 h firstStep
  match (dopUpdate d rhs).run st with
  | some (.ok _, st') => return st'
  | some (.error e, _) => throw e
  | none => return st

/-! ### `Multistep.__init__` (`nbkode/multistep/core.py:37-65`) -/

/-- `nbkode/multistep/core.py:54-59`: with a fixed-step starter, `ORDER - 1` times `solver.step()` and push the
starter's current `t`, `y`, `f`. -/
def startFixed {k' : Nat} {X' : Type} (S' : Solver α n k' X') :
    Nat → Buffer α n k → Py (St α n k' X') (Buffer α n k)
  | 0, b => pure b
  | m + 1, b => do
    let _ ← S'.step none none
    let s ← get
    startFixed S' m (b.push s.t s.y s.f)

/-- `nbkode/multistep/core.py:64-65`: push each `(t, y, rhs(t, y))`. -/
def pushAll (rhs : Rhs α n) : List (α × Vec α n) → Buffer α n k → Except Err (Buffer α n k)
  | [], b => .ok b
  | (t, y) :: l, b => do
    let f ← rhs t y
    pushAll rhs l (b.push t y f)

/-- `np.arange(1, ORDER) * h` with `ORDER = p + 1` (`nbkode/multistep/core.py:63`). -/
def startTimes (p : Nat) (h : α) : List α := (List.range p).map fun i => ((i + 1 : Nat) : α) * h

/-- `nbkode/multistep/core.py:60-65`: with a variable-step starter, `run` at `h, 2h, ..., (ORDER-1)h`. -/
def startVariable {k' : Nat} {X' : Type} (S' : Solver α n k' X') (bo : BisectOpts α)
    (argsort : List α → List Nat) (p : Nat) (h : α) (b : Buffer α n k) :
    Py (St α n k' X') (Buffer α n k) := do
  let out ← S'.run bo argsort (startTimes p h)
  Py.ofExcept (pushAll S'.rhs out b)

/-- The starter of a multistep solver: none (`first_stepper_cls=None`), a fixed-step or a variable-step solver
class, given by its method and what its constructor does with `(rhs, t0, y0)` and `h`. The starter has the default
`t_bound = inf` (`nbkode/multistep/core.py:56`, `62`). -/
inductive Starter (α : Type) (n : Nat) : Type 1 where
  | none
  | fixed {k' : Nat} {X' : Type} (M : Method α n k' X')
      (mk : Rhs α n → α → Vec α n → Option α → Except Err (St α n k' X'))
  | variable {k' : Nat} {X' : Type} (M : Method α n k' X')
      (mk : Rhs α n → α → Vec α n → Except Err (St α n k' X'))

/-- Run a call from an initial state and keep the value (`none`: divergence). -/
def runFrom {σ A : Type} (s : σ) (x : Py σ A) : Option (Except Err A) := (x.run s).map (·.1)

/-- `nbkode/multistep/core.py:37-65` `Multistep.__init__` for a method with `ORDER = p + 1`; `none` when the starter
does not terminate. -/
def multistepInit {p : Nat} (garbage : Buffer α n (histExtra p)) (bo : BisectOpts α)
    (argsort : List α → List Nat) (starter : Starter α n) (rhs : Rhs α n) (t0 : α) (y0 : Vec α n)
    (h : Option α) : Option (Except Err (St α n (histExtra p) Unit)) :=
  match solverInit garbage () rhs t0 y0 h with
  | .error e => some (.error e)
  | .ok s =>
    let finish := fun r : Option (Except Err (Buffer α n (histExtra p))) =>
      r.map fun e => e.map fun b => { s with cache := b }
    if p = 0 then
      some (.ok { s with cache := s.cache.pushN s.t s.y s.f (histExtra p + 1) })
    else match starter with
      | .none => some (.ok { s with cache := s.cache.pushN s.t s.y s.f (histExtra p + 1) })
      | .fixed M mk => match mk rhs s.t s.y (some s.h) with
        | .error e => some (.error e)
        | .ok s' => finish (runFrom s' (startFixed ⟨M, rhs, .inf⟩ p s.cache))
      | .variable M mk => match mk rhs s.t s.y with
        | .error e => some (.error e)
        | .ok s' => finish (runFrom s' (startVariable ⟨M, rhs, .inf⟩ bo argsort p s.h s.cache))

end Nbkode
