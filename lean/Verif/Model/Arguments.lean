import Verif.Model.Construct

/-!
# Calling a constructor: positional and keyword arguments

`cls(rhs, t0, y0, ...)` with `rhs`, `t0`, `y0` given by position. The keyword arguments of a call are an association list
whose keys are distinct (Python refuses a repeated keyword).
-/

set_option autoImplicit false

namespace Nbkode

variable {α : Type}
variable [Add α] [Sub α] [Mul α] [Div α] [Neg α] [Zero α] [One α] [NatCast α] [BEq α]
variable [LT α] [DecidableLT α] [LE α] [DecidableLE α]
variable {n k : Nat} {X P : Type}

/-- The value of an argument: `None`, a number, `np.inf`, an array of parameters, the name of a class, or a class (given, as in
`Starter`, by what constructing and using it does). -/
inductive Arg (α : Type) (n : Nat) (P : Type) : Type 1 where
  | none
  | num (x : α)
  | inf
  | params (p : P)
  | name (s : String)
  | cls (s : Starter α n)

/-- Keyword arguments. -/
abbrev Kwargs (α : Type) (n : Nat) (P : Type) : Type 1 := List (String × Arg α n P)

/-- `kwargs[k]` if `k in kwargs`. -/
def kwGet (kw : Kwargs α n P) (k : String) : Option (Arg α n P) := (kw.find? fun a => a.1 == k).map (·.2)

/-- What is left of `kwargs` after `kwargs.pop(k)` for every `k` of `ks` (`nbkode/core.py:689-691`). -/
def kwDrop (kw : Kwargs α n P) (ks : List String) : Kwargs α n P := kw.filter fun a => !ks.contains a.1

/-- A value used as a number. Simplification: a value of another kind is refused on the spot with a `TypeError`; `np.inf` counts
as such a value except for `t_bound` and `max_step`. -/
def Arg.toNum : Arg α n P → Except Err α
  | .num x => .ok x
  | _ => .error .typeError

/-- A value used as a bound (`t_bound`, `max_step`), with the simplification of `Arg.toNum`. -/
def Arg.toBound : Arg α n P → Except Err (Bound α)
  | .num x => .ok (.fin x)
  | .inf => .ok .inf
  | _ => .error .typeError

/-- A numeric argument with a default. -/
def kwNum (kw : Kwargs α n P) (k : String) (default : α) : Except Err α :=
  match kwGet kw k with
  | .none => .ok default
  | some v => v.toNum

/-- A numeric argument whose default is `None`. -/
def kwOpt (kw : Kwargs α n P) (k : String) : Except Err (Option α) :=
  match kwGet kw k with
  | .none => .ok .none
  | some .none => .ok .none
  | some v => v.toNum.map some

/-- A bound with default `np.inf`. -/
def kwBound (kw : Kwargs α n P) (k : String) : Except Err (Bound α) :=
  match kwGet kw k with
  | .none => .ok .inf
  | some v => v.toBound

/-- What `Solver.__init__` receives besides `rhs`, `t0`, `y0`. -/
structure BaseArgs (α P : Type) where
  params : Option P
  h : Option α
  tBound : Bound α

/-- `params` as `Solver.__init__` uses it (`nbkode/core.py:118-119`, `129-132`): `None` or an array. Simplification as in
`Arg.toNum`. -/
def Arg.toParams : Option (Arg α n P) → Except Err (Option P)
  | .none => .ok .none
  | some .none => .ok .none
  | some (.params p) => .ok (some p)
  | some _ => .error .typeError

/-- `nbkode/core.py:106-115`: Python binds the arguments of `Solver.__init__(self, rhs, t0, y0, params=None, *, h=None,
t_bound=np.inf)`. `pos` is the fourth positional argument. A keyword the signature does not have, one of `rhs`, `t0`, `y0`
a second time, or `params` both ways is a `TypeError`. -/
def bindSolver (pos : Option (Arg α n P)) (kw : Kwargs α n P) : Except Err (BaseArgs α P) :=
  if kw.any fun a => !(["params", "h", "t_bound"] : List String).contains a.1 then .error .typeError
  else if pos.isSome && (kwGet kw "params").isSome then .error .typeError
  else do
    let params ← Arg.toParams (pos <|> kwGet kw "params")
    let h ← kwOpt kw "h"
    let b ← kwBound kw "t_bound"
    return ⟨params, h, b⟩

/-- `nbkode/core.py:650-658` `variable_step_options`. -/
def variableStepOptions : List String :=
  ["atol", "rtol", "min_step", "max_step", "min_factor", "max_factor", "safety_factor"]

/-- `nbkode/core.py:688-691` with `:663-680`: the options given are the keyword arguments of `VariableStepOptions`, which has
defaults for the others. -/
def bindOptions (kw : Kwargs α n P) : Except Err (VarOptions α) := do
  let d : VarOptions α := .default
  let atol ← kwNum kw "atol" d.atol
  let rtol ← kwNum kw "rtol" d.rtol
  let minStep ← kwNum kw "min_step" d.minStep
  let maxStep ← kwBound kw "max_step"
  let minFactor ← kwNum kw "min_factor" d.minFactor
  let maxFactor ← kwNum kw "max_factor" d.maxFactor
  let safetyFactor ← kwNum kw "safety_factor" d.safetyFactor
  return ⟨atol, rtol, minStep, maxStep, minFactor, maxFactor, safetyFactor⟩

/-- The user's function: `user none` is what `rhs(t, y)` does, `user (some p)` what `rhs(t, y, p)` does. -/
abbrev UserRhs (α : Type) (n : Nat) (P : Type) : Type := Option P → Rhs α n

/-- Constructing a fixed-step Runge-Kutta solver: `RungeKutta.__init__(*args, **kwargs)`
(`nbkode/runge_kutta/core.py:25-27`) passes everything to `Solver.__init__`, which wraps `rhs` when there are `params`
(`nbkode/core.py:129-132`). -/
def erkNew {s : Nat} (T : Tableau α s) (garbage : Buffer α n 0) (K : ErkAux α n s) (user : UserRhs α n P) (t0 : α)
    (y0 : Vec α n) (pos : Option (Arg α n P)) (kw : Kwargs α n P) :
    Except Err (Solver α n 0 (ErkAux α n s) × St α n 0 (ErkAux α n s)) := do
  let a ← bindSolver pos kw
  let st ← erkInit garbage K (user a.params) t0 y0 a.h
  return (⟨erk T, user a.params, a.tBound⟩, st)

/-- What `VariableStep.__init__` does with its arguments before anything is evaluated (`nbkode/core.py:687-693`): the options
and `first_step` are taken out of `kwargs`, the rest goes to `Solver.__init__`. -/
def bindVariable (pos : Option (Arg α n P)) (kw : Kwargs α n P) :
    Except Err (VarOptions α × Option α × BaseArgs α P) := do
  let o ← bindOptions kw
  let first ← kwOpt (kwDrop kw variableStepOptions) "first_step"
  let a ← bindSolver pos (kwDrop (kwDrop kw variableStepOptions) ["first_step"])
  return (o, first, a)

/-- Constructing `RungeKutta23` or `RungeKutta45` (`nbkode/runge_kutta/explicit.py:155-157`, `240-242`). `select` is SciPy's
`select_initial_step`, given `rtol` and `atol` (`nbkode/core.py:697-705`). -/
def fsalNew {s d : Nat} (lib : Lib α) (c : FsalCoef α s d)
    (select : α → α → Rhs α n → α → Vec α n → Vec α n → Except Err α)
    (garbage : Buffer α n 0) (K : Fin (s + 2) → Vec α n) (itp : RkItp α n d) (user : UserRhs α n P) (t0 : α)
    (y0 : Vec α n) (pos : Option (Arg α n P)) (kw : Kwargs α n P) :
    Except Err (Solver α n 0 (FsalAux α n s (RkItp α n d)) × St α n 0 (FsalAux α n s (RkItp α n d))) := do
  let (o, first, a) ← bindVariable pos kw
  let st ← fsalInit c.P o (select o.rtol o.atol) garbage K itp (user a.params) t0 y0 a.h first
  return (⟨fsal lib o c, user a.params, a.tBound⟩, st)

/-- Constructing `DOP853` (`nbkode/runge_kutta/explicit.py:307-317`). -/
def dopNew (lib : Lib α) (c : DopCoef α)
    (select : α → α → Rhs α n → α → Vec α n → Vec α n → Except Err α)
    (garbage : Buffer α n 0) (K : Fin 13 → Vec α n) (itp : DopItp α n) (user : UserRhs α n P) (t0 : α)
    (y0 : Vec α n) (pos : Option (Arg α n P)) (kw : Kwargs α n P) :
    Except Err (Solver α n 0 (FsalAux α n 11 (DopItp α n)) × St α n 0 (FsalAux α n 11 (DopItp α n))) := do
  let (o, first, a) ← bindVariable pos kw
  let st ← dopInit c.toDopDense o (select o.rtol o.atol) garbage K itp (user a.params) t0 y0 a.h first
  return (⟨dop853 lib o c, user a.params, a.tBound⟩, st)

/-- `getattr(nbkode, name)` (`nbkode/multistep/core.py:49-51`). -/
def packageAttr (nbkode : String → Option (Starter α n)) (name : String) : Except Err (Starter α n) :=
  match nbkode name with
  | some c => .ok c
  | .none => .error .attributeError

/-- `nbkode/multistep/core.py:40-51`: the starter `first_stepper_cls` stands for, for a method with `ORDER ≠ 1`. `nbkode` is
attribute lookup in the package; the default of the class is `FIRST_STEPPER_CLS = "RungeKutta45"` (`:15`). A value without
`FIXED_STEP` is an `AttributeError` (`:53`). -/
def resolveStarter (nbkode : String → Option (Starter α n)) (v : Option (Arg α n P)) : Except Err (Starter α n) :=
  match v with
  | .none => packageAttr nbkode "RungeKutta45"
  | some .none => .ok .none
  | some (.name s) => packageAttr nbkode (if s == "auto" then "RungeKutta45" else s)
  | some (.cls c) => .ok c
  | some _ => .error .attributeError

/-- Constructing a multistep solver with `ORDER = p + 1` (`nbkode/multistep/core.py:37-65`): `first_stepper_cls` is a keyword of
its own, everything else goes to `Solver.__init__`, which runs first. -/
def multistepNew {p : Nat} (M : Method α n (histExtra p) Unit) (nbkode : String → Option (Starter α n))
    (garbage : Buffer α n (histExtra p)) (bo : BisectOpts α) (argsort : List α → List Nat) (user : UserRhs α n P)
    (t0 : α) (y0 : Vec α n) (pos : Option (Arg α n P)) (kw : Kwargs α n P) :
    Option (Except Err (Solver α n (histExtra p) Unit × St α n (histExtra p) Unit)) :=
  match bindSolver pos (kwDrop kw ["first_stepper_cls"]) with
  | .error e => some (.error e)
  | .ok a =>
    match solverInit garbage () (user a.params) t0 y0 a.h with
    | .error e => some (.error e)
    | .ok _ =>
      match (if p = 0 then .ok .none else resolveStarter nbkode (kwGet kw "first_stepper_cls")) with
      | .error e => some (.error e)
      | .ok s => (multistepInit garbage bo argsort s (user a.params) t0 y0 a.h).map fun r =>
          r.map fun st => (⟨M, user a.params, a.tBound⟩, st)

end Nbkode
