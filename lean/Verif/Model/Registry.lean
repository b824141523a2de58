import Verif.Model.Util
import Verif.Model.Tableaux
import Mathlib.Algebra.Field.Rat

/-!
# The registry of solvers

Class definition (`Solver.__init_subclass__`), `get_solvers`, `get_groups`, `list_solvers`,
`get_solver` (`nbkode/core.py`) and the attribute access of the package (`nbkode/__init__.py`).
Names have a type `κ`; `str.lower` is a parameter `lower : κ → ℓ`.
-/

set_option autoImplicit false

namespace Nbkode

/-- A class attribute that is expected to be a `bool` (`nbkode/core.py:79-80`): it may be missing
(`IMPLICIT` and `FIXED_STEP` are only annotated) or be an object that is neither `True` nor `False`
(for example a NumPy bool). -/
inductive ClassAttr where
  | missing
  | bool (b : Bool)
  | other
  deriving DecidableEq

/-- A subclass of `Solver` as `__init_subclass__` and `check` see it.

`ident` stands for object identity. `lenHistory` is `none` when `LEN_HISTORY` is not an `int`.
`group` is `none` for `GROUP = None` (`nbkode/core.py:78`). `isRungeKutta` and `isMultistep` are the
values of `issubclass`. `erkExplicit` is the class property `explicit` for subclasses of `ERK`
(`nbkode/runge_kutta/explicit.py:19-22`) and `none` for other classes. `builds` tells whether
`_fixed_step_builder` and `_step_builder` return. `ALIASES` is taken to be a tuple of strings. -/
structure SolverClass (κ : Type) where
  ident : Nat
  name : κ
  aliases : List κ
  lenHistory : Option Int
  group : Option κ
  implicit : ClassAttr
  fixedStep : ClassAttr
  isRungeKutta : Bool
  isMultistep : Bool
  erkExplicit : Option Bool
  builds : Except Err Unit
  deriving DecidableEq

/-- `Solver.SOLVERS` and `Solver.SOLVERS_BY_GROUP` (`nbkode/core.py:71-72`). -/
structure Registry (κ ℓ : Type) where
  solvers : CIDict κ ℓ (SolverClass κ)
  groups : CIDict κ ℓ (List (SolverClass κ))
  deriving DecidableEq

namespace Registry
variable {κ ℓ : Type} [DecidableEq ℓ] (lower : κ → ℓ)

/-- The registry before any solver is defined (`nbkode/core.py:71-72`). -/
def empty : Registry κ ℓ := ⟨CIDict.empty, CIDict.empty⟩

/-- `nbkode/core.py:161-167`: the loop over the name and the aliases. -/
def addNames (c : SolverClass κ) : List κ → Py (Registry κ ℓ) Unit
  | [] => return ()
  | x :: xs => do
    let r ← get
    if r.solvers.contains lower x then throw .exception
    set { r with solvers := r.solvers.setItem lower x c }
    addNames c xs

/-- `nbkode/core.py:168-170`: append the class to its group. `GROUP = None` has no `lower()`, so `in`
raises `AttributeError`. `list.append` mutates the stored list, modelled by storing the longer list
under the spelling it already has. -/
def addGroup (c : SolverClass κ) : Py (Registry κ ℓ) Unit := do
  match c.group with
  | none => throw .attributeError
  | some g =>
    let r ← get
    if r.groups.contains lower g = false then
      set { r with groups := r.groups.setItem lower g [] }
    let r ← get
    match r.groups.store.get? (lower g) with
    | none => throw .keyError
    | some kv => set { r with groups := ⟨r.groups.store.set (lower g) (kv.1, kv.2 ++ [c])⟩ }

/-- `nbkode/core.py:143-184` `Solver.__init_subclass__`, preceded by the check of
`nbkode/runge_kutta/explicit.py:14-17` for subclasses of `ERK`. -/
def defineSolver (c : SolverClass κ) (abstract : Bool) : Py (Registry κ ℓ) Unit := do
  if abstract = false then
    if c.erkExplicit = some false then throw .assertionError
    match c.lenHistory with
    | none => throw .valueError
    | some len =>
      if len < 2 then throw .valueError
      addNames lower c (c.name :: c.aliases)
      addGroup lower c
      Py.ofExcept c.builds

/-- The filters of `get_solvers` (`nbkode/core.py:729-731`); `none` is Python's `None`. -/
structure Filters where
  implicit : Option Bool := none
  fixedStep : Option Bool := none
  rungeKutta : Option Bool := none
  multistep : Option Bool := none

/-- `solver.ATTR is not want` (`nbkode/core.py:711`, `714`). -/
def attrIsNot (a : ClassAttr) (want : Bool) : Except Err Bool :=
  match a with
  | .missing => .error .attributeError
  | .bool b => .ok (b != want)
  | .other => .ok true

/-- `nbkode/core.py:709-726` `check`. -/
def check (c : SolverClass κ) (f : Filters) : Except Err Bool := do
  if let some want := f.implicit then
    if ← attrIsNot c.implicit want then return false
  if let some want := f.fixedStep then
    if ← attrIsNot c.fixedStep want then return false
  if let some want := f.rungeKutta then
    if c.isRungeKutta != want then return false
  if let some want := f.multistep then
    if c.isMultistep != want then return false
  return true

/-- `filter(lambda solver: check(...), solvers)` (`nbkode/core.py:753-758`). -/
def filterCheck (f : Filters) : List (SolverClass κ) → Except Err (List (SolverClass κ))
  | [] => .ok []
  | c :: cs => do
    let b ← check c f
    let rest ← filterCheck f cs
    return if b then c :: rest else rest

/-- `nbkode/core.py:749-763`: the loop over the groups. -/
def collect (r : Registry κ ℓ) (f : Filters) : List κ → Except Err (List (SolverClass κ))
  | [] => .ok []
  | g :: gs => do
    let cs ← r.groups.getItem lower g
    let here ← filterCheck f cs
    let rest ← collect r f gs
    return here ++ rest

/-- `nbkode/core.py:729-763` `get_solvers`. -/
def getSolvers (r : Registry κ ℓ) (groups : List κ) (f : Filters) :
    Except Err (List (SolverClass κ)) :=
  match groups with
  | [] => collect lower r f r.groups.iter
  | _ => collect lower r f groups

/-- `nbkode/core.py:766-768` `get_groups`, with `sorted` for the order `le` on names. -/
def getGroups (le : κ → κ → Bool) (r : Registry κ ℓ) : List κ := r.groups.iter.mergeSort le

/-- One line of `list_solvers`: what is formatted with `fmt_string` or with `alias_fmt_string`
(`nbkode/core.py:781-784`). The formatting itself is not modelled. -/
inductive Line (κ : Type) where
  | name (k : κ)
  | alias (k : κ) (c : κ)
  deriving DecidableEq

/-- The formatted line, for `fmt_string = "{cls.__name__}"` and an `alias_fmt_string` that shows the
alias (`nbkode/core.py:775-776`). -/
def Line.text {κ : Type} : Line κ → κ
  | .name k => k
  | .alias k _ => k

/-- `nbkode/core.py:774-785` `list_solvers`. -/
def listSolvers [DecidableEq κ] (r : Registry κ ℓ) (includeAlias : Bool) :
    Except Err (List (Line κ)) := do
  let its ← r.solvers.items lower
  return its.filterMap fun kv =>
    if kv.1 = kv.2.name then some (.name kv.1)
    else if includeAlias then some (.alias kv.1 kv.2.name) else none

/-- `nbkode/core.py:788-800` `get_solver`. The text of the `ValueError` is not modelled. -/
def getSolver (r : Registry κ ℓ) (x : κ) : Except Err (SolverClass κ) :=
  match r.solvers.getItem lower x with
  | .ok c => .ok c
  | .error _ => .error .valueError

/-- The package: the registry and the module variable `_SOLVERS_NAMES`
(`nbkode/__init__.py:48`). -/
structure Package (κ ℓ : Type) where
  registry : Registry κ ℓ
  solversNames : Option (List κ)

/-- `nbkode/__init__.py:51-59` `__dir__`. `le` is the order used by `sorted` and `fixed` the names of
line 55. -/
def pkgDir [DecidableEq κ] (le : κ → κ → Bool) (fixed : List κ) : Py (Package κ ℓ) (List κ) := do
  let p ← get
  match p.solversNames with
  | some (n :: ns) => return n :: ns
  | _ =>
    let lines ← Py.ofExcept (p.registry.listSolvers lower false)
    let names := (fixed ++ lines.map Line.text).mergeSort le
    set { p with solversNames := some names }
    return names

/-- `nbkode/__init__.py:62-75` `__getattr__`, called for names the module itself does not define. The
second component tells whether the alias warning was issued. -/
def pkgGetattr [DecidableEq κ] (r : Registry κ ℓ) (x : κ) : Except Err (SolverClass κ × Bool) :=
  match r.getSolver lower x with
  | .error _ => .error .attributeError
  | .ok c => .ok (c, decide (c.name ≠ x))

end Registry

/-! ## The classes of the package -/

/-- The formula behind a class: linear multistep coefficients or a Runge–Kutta tableau. The
coefficients are rational numbers here; the package stores them as floats. -/
inductive Scheme where
  | multistep (p : Nat) (c : MultistepCoef ℚ p)
  | erk (s : Nat) (T : Tableau ℚ s)

/-- `nbkode/runge_kutta/explicit.py:19-22` `explicit`: `np.all(np.triu(cls.A) == 0)`. -/
def Tableau.explicit {s : Nat} (T : Tableau ℚ s) : Bool :=
  (List.finRange (s + 1)).all fun i => (List.finRange (s + 1)).all fun j =>
    decide (i ≤ j → T.A i j = 0)

/-- The class attributes a subclass of `Multistep` or `ERK` gets from its base classes:
`IMPLICIT` is `cls.Bn == 0` (`nbkode/multistep/core.py:29-31`) or `False`
(`nbkode/runge_kutta/explicit.py:12`); `LEN_HISTORY` is `max(cls.ORDER, 2)`
(`nbkode/multistep/core.py:33-35`) or 2 (`nbkode/runge_kutta/core.py:16`). `fixedStep` is `FIXED_STEP`
(`nbkode/multistep/core.py:14`, `nbkode/runge_kutta/core.py:13`, `57`). -/
def Scheme.toClass (sch : Scheme) (ident : Nat) (name : String) (aliases : List String)
    (group : String) (fixedStep : Bool) : SolverClass String where
  ident := ident
  name := name
  aliases := aliases
  lenHistory := match sch with
    | .multistep p _ => some (max (p + 1) 2)
    | .erk _ _ => some 2
  group := some group
  implicit := match sch with
    | .multistep _ c => .bool (c.Bn == 0)
    | .erk _ _ => .bool false
  fixedStep := .bool fixedStep
  isRungeKutta := match sch with
    | .multistep _ _ => false
    | .erk _ _ => true
  isMultistep := match sch with
    | .multistep _ _ => true
    | .erk _ _ => false
  erkExplicit := match sch with
    | .multistep _ _ => none
    | .erk _ T => some T.explicit
  builds := .ok ()

/-- A class statement of the package. -/
structure ClassStmt where
  name : String
  aliases : List String
  group : String
  fixedStep : Bool
  scheme : Scheme

/-- The class object made by the `i`-th class statement. -/
def ClassStmt.toClass (d : ClassStmt) (i : Nat) : SolverClass String :=
  d.scheme.toClass i d.name d.aliases d.group d.fixedStep

/-- The concrete solver classes in the order in which `import nbkode` defines them
(`nbkode/__init__.py:15-18`, `nbkode/euler.py:16-39`, `nbkode/multistep/adams_bashforth.py`,
`nbkode/multistep/adams_moulton.py`, `nbkode/multistep/bdf.py`,
`nbkode/runge_kutta/explicit.py:102-282`). -/
def packageClasses : List ClassStmt := [
  ⟨"AdamsBashforth1", [], "Adams-Bashforth", true, .multistep _ AdamsBashforth1⟩,
  ⟨"AdamsBashforth2", [], "Adams-Bashforth", true, .multistep _ AdamsBashforth2⟩,
  ⟨"AdamsBashforth3", [], "Adams-Bashforth", true, .multistep _ AdamsBashforth3⟩,
  ⟨"AdamsBashforth4", [], "Adams-Bashforth", true, .multistep _ AdamsBashforth4⟩,
  ⟨"AdamsBashforth5", [], "Adams-Bashforth", true, .multistep _ AdamsBashforth5⟩,
  ⟨"AdamsMoulton1", [], "Adams-Moulton", true, .multistep _ AdamsMoulton1⟩,
  ⟨"AdamsMoulton2", [], "Adams-Moulton", true, .multistep _ AdamsMoulton2⟩,
  ⟨"AdamsMoulton3", [], "Adams-Moulton", true, .multistep _ AdamsMoulton3⟩,
  ⟨"AdamsMoulton4", [], "Adams-Moulton", true, .multistep _ AdamsMoulton4⟩,
  ⟨"AdamsMoulton5", [], "Adams-Moulton", true, .multistep _ AdamsMoulton5⟩,
  ⟨"ForwardEuler", ["Euler"], "Euler", true, .multistep _ ForwardEuler⟩,
  ⟨"BackwardEuler", [], "Euler", true, .multistep _ BackwardEuler⟩,
  ⟨"BDF1", [], "BDF", true, .multistep _ BDF1⟩,
  ⟨"BDF2", [], "BDF", true, .multistep _ BDF2⟩,
  ⟨"BDF3", [], "BDF", true, .multistep _ BDF3⟩,
  ⟨"BDF4", [], "BDF", true, .multistep _ BDF4⟩,
  ⟨"BDF5", [], "BDF", true, .multistep _ BDF5⟩,
  ⟨"BDF6", [], "BDF", true, .multistep _ BDF6⟩,
  ⟨"Runge2", [], "Runge-Kutta", true, .erk _ Runge2⟩,
  ⟨"Runge3", [], "Runge-Kutta", true, .erk _ Runge3⟩,
  ⟨"Heun3", [], "Runge-Kutta", true, .erk _ Heun3⟩,
  ⟨"RungeKutta4", [], "Runge-Kutta", true, .erk _ RungeKutta4⟩,
  ⟨"RungeKutta3_8", [], "Runge-Kutta", true, .erk _ RungeKutta3_8⟩,
  ⟨"RungeKutta23", [], "Runge-Kutta", false, .erk _ RungeKutta23.toTableau⟩,
  ⟨"RungeKutta45", [], "Runge-Kutta", false, .erk _ RungeKutta45.toTableau⟩,
  ⟨"DOP853", [], "Runge-Kutta", false, .erk _ DOP853.toTableau⟩]

end Nbkode
