import Verif.Model.Events

/-!
# The same event in other units
-/

set_option autoImplicit false

namespace Nbkode.Spec

variable {α : Type}

/-- What change of sign has to do with comparisons and products. True of numbers and of machine numbers. -/
structure SignSymmetric (α : Type) [Sub α] [Mul α] [Neg α] [Zero α] [BEq α] [LT α] [DecidableLT α] [LE α] : Prop where
  neg_neg : ∀ x : α, - -x = x
  neg_le : ∀ x : α, -x ≤ 0 ↔ 0 ≤ x
  neg_lt : ∀ x : α, -x < 0 ↔ 0 < x
  beq_zero : ∀ x : α, (-x == 0) = (x == 0)
  mul : ∀ x y : α, -x * -y = x * y
  abs : ∀ x : α, pyAbs (-x - 0) = pyAbs (x - 0)

/-- The event that calls negative what the other one calls positive: `-g(t, y)`, looked for in the opposite direction. -/
def opposite [Neg α] {n : Nat} (e : EventSpec α n) : EventSpec α n :=
  { e with func := fun t y => -e.func t y, direction := e.direction.map fun d => -d }

/-- The event in other units: `c g(t, y)`, looked for in the direction `c` times that of `g`. -/
def inUnits [Mul α] {n : Nat} (c : α) (e : EventSpec α n) : EventSpec α n :=
  { e with func := fun t y => c * e.func t y, direction := e.direction.map fun d => c * d }

end Nbkode.Spec
