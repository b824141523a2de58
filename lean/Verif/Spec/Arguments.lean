import Verif.Model.Arguments

/-!
# What the arguments of a constructor mean

Stated by membership in the list of keyword arguments of the call.
-/

set_option autoImplicit false

namespace Nbkode

variable {α : Type} {n : Nat} {P : Type}

/-- No keyword `k` in the call. -/
def Omitted (kw : Kwargs α n P) (k : String) : Prop := ∀ v, (k, v) ∉ kw

/-- Keyword `k`, a number with default `d`, has the value `x`. -/
def NumIs (kw : Kwargs α n P) (k : String) (d x : α) : Prop :=
  (k, .num x) ∈ kw ∨ Omitted kw k ∧ x = d

/-- Keyword `k`, a number or `None`, `None` by default, has the value `x`. -/
def OptIs (kw : Kwargs α n P) (k : String) : Option α → Prop
  | some x => (k, .num x) ∈ kw
  | none => Omitted kw k ∨ (k, .none) ∈ kw

/-- Keyword `k`, a number or infinity, infinity by default, has the value `b`. -/
def BoundIs (kw : Kwargs α n P) (k : String) : Bound α → Prop
  | .fin x => (k, .num x) ∈ kw
  | .inf => Omitted kw k ∨ (k, .inf) ∈ kw

/-- `params`, by position or by keyword but not both, has the value `p`. -/
def ParamsIs (pos : Option (Arg α n P)) (kw : Kwargs α n P) : Option P → Prop
  | some p => pos = some (.params p) ∧ Omitted kw "params" ∨ pos = none ∧ ("params", .params p) ∈ kw
  | none => (pos = none ∨ pos = some .none) ∧ Omitted kw "params" ∨ pos = none ∧ ("params", .none) ∈ kw

/-- The documented options of a variable-step solver and their defaults. -/
structure OptionsAre [Div α] [One α] [NatCast α] (kw : Kwargs α n P) (o : VarOptions α) : Prop where
  atol : NumIs kw "atol" (1 / ((10 ^ 6 : Nat) : α)) o.atol
  rtol : NumIs kw "rtol" (1 / ((10 ^ 3 : Nat) : α)) o.rtol
  minStep : NumIs kw "min_step" (1 / ((10 ^ 15 : Nat) : α)) o.minStep
  maxStep : BoundIs kw "max_step" o.maxStep
  minFactor : NumIs kw "min_factor" (1 / ((5 : Nat) : α)) o.minFactor
  maxFactor : NumIs kw "max_factor" ((10 : Nat) : α) o.maxFactor
  safetyFactor : NumIs kw "safety_factor" (((9 : Nat) : α) / ((10 : Nat) : α)) o.safetyFactor

/-- Every keyword of the call is one of `ks`. -/
def OnlyKeys (kw : Kwargs α n P) (ks : List String) : Prop := ∀ k v, (k, v) ∈ kw → k ∈ ks

/-- Keywords of every solver. -/
def commonKeys : List String := ["params", "h", "t_bound"]

/-- Keywords only the variable-step solvers have. -/
def variableOwn : List String :=
  ["first_step", "atol", "rtol", "min_step", "max_step", "min_factor", "max_factor", "safety_factor"]

/-- No keyword is repeated. -/
def Distinct (kw : Kwargs α n P) : Prop := (kw.map Prod.fst).Nodup

/-- The call of a solver class says: parameters `p`, step size `h`, bound `b`; `own` are the keywords the class has besides the
common ones. -/
structure CommonArgs (pos : Option (Arg α n P)) (kw : Kwargs α n P) (own : List String) (p : Option P) (h : Option α)
    (b : Bound α) : Prop where
  keys : OnlyKeys kw (commonKeys ++ own)
  params : ParamsIs pos kw p
  h : OptIs kw "h" h
  tBound : BoundIs kw "t_bound" b

/-- The call of a variable-step solver class says: options `o`, first step `first`, and the common arguments. -/
structure VariableArgs [Div α] [One α] [NatCast α] (pos : Option (Arg α n P)) (kw : Kwargs α n P) (o : VarOptions α)
    (first : Option α) (p : Option P) (h : Option α) (b : Bound α) : Prop extends
    CommonArgs pos kw variableOwn p h b where
  options : OptionsAre kw o
  first : OptIs kw "first_step" first

/-- The starter meant by `first_stepper_cls`: `RungeKutta45` unless something else is given; `None`, a class, or the name of a
class of the package. -/
def StarterIs (nbkode : String → Option (Starter α n)) (kw : Kwargs α n P) (s : Starter α n) : Prop :=
  (Omitted kw "first_stepper_cls" ∨ ("first_stepper_cls", .name "auto") ∈ kw) ∧ nbkode "RungeKutta45" = some s ∨
  ("first_stepper_cls", .none) ∈ kw ∧ s = .none ∨
  ("first_stepper_cls", .cls s) ∈ kw ∨
  ∃ c, c ≠ "auto" ∧ ("first_stepper_cls", .name c) ∈ kw ∧ nbkode c = some s

end Nbkode
