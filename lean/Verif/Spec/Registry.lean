import Verif.Model.Registry

/-!
# What registration and lookup mean

A *history* is the list of class statements executed so far, each with its outcome; exceptions are
caught by whoever executed the statement.
-/

set_option autoImplicit false

namespace Nbkode
namespace Spec
variable {κ ℓ : Type} [DecidableEq ℓ]

/-- The name of a class and its aliases. -/
def names (c : SolverClass κ) : List κ := c.name :: c.aliases

/-- An executed class statement: the class, whether `abstract=True` was given, and the outcome. -/
structure Stmt (κ : Type) where
  cls : SolverClass κ
  abstract : Bool
  outcome : Except Err Unit

/-- `r` is the registry after the history `h`. -/
inductive Imported (lower : κ → ℓ) : List (Stmt κ) → Registry κ ℓ → Prop
  | start : Imported lower [] Registry.empty
  | define {h : List (Stmt κ)} {r r' : Registry κ ℓ} {c : SolverClass κ} {abstract : Bool}
      {res : Except Err Unit} (hi : Imported lower h r)
      (hrun : (Registry.defineSolver lower c abstract).run r = some (res, r')) :
      Imported lower (h ++ [⟨c, abstract, res⟩]) r'

/-- The concrete classes whose definition did not raise, in order. -/
def accepted (h : List (Stmt κ)) : List (SolverClass κ) :=
  h.filterMap fun d => match d.abstract, d.outcome with
    | false, .ok _ => some d.cls
    | _, _ => none

/-- Some class statement of the history uses the name `x`, in some case. -/
def Claimed (lower : κ → ℓ) (h : List (Stmt κ)) (x : κ) : Prop :=
  ∃ d ∈ h, d.abstract = false ∧ ∃ k ∈ names d.cls, lower k = lower x

/-- The class satisfies every filter that was given. -/
def Wanted (f : Registry.Filters) (c : SolverClass κ) : Prop :=
  (∀ b, f.implicit = some b → c.implicit = .bool b) ∧
  (∀ b, f.fixedStep = some b → c.fixedStep = .bool b) ∧
  (∀ b, f.rungeKutta = some b → c.isRungeKutta = b) ∧
  (∀ b, f.multistep = some b → c.isMultistep = b)

/-- The class declares `IMPLICIT` and `FIXED_STEP` to be `True` or `False`. -/
def Classified (c : SolverClass κ) : Prop :=
  (∃ b, c.implicit = .bool b) ∧ ∃ b, c.fixedStep = .bool b

/-- The class belongs to the group `g`, in some case. -/
def InGroup (lower : κ → ℓ) (g : κ) (c : SolverClass κ) : Prop := ∃ g', c.group = some g' ∧ lower g' = lower g

/-- A formula is implicit when the new state appears on both sides: a multistep formula with a weight
on the new derivative, a Runge–Kutta formula with a stage that depends on itself or on a later one. -/
def Implicit : Scheme → Prop
  | .multistep _ c => c.Bn ≠ 0
  | .erk _ T => ∃ i j, i ≤ j ∧ T.A i j ≠ 0

end Spec
end Nbkode
