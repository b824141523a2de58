import Verif.Spec.Change

/-! Time-dependent problems in autonomous form: time becomes the last component of the state. -/

set_option autoImplicit false

namespace Nbkode.Spec
open Nbkode

variable {α : Type} [Field α] [LinearOrder α] [IsStrictOrderedRing α] {n s : Nat}

/-- `(y, t)`. -/
def addClock (y : Vec α n) (t : α) : Vec α (n + 1) := Fin.snoc (α := fun _ => α) y t

/-- The autonomous form of a right-hand side: `(y, u)' = (rhs(u, y), 1)`. -/
def autonomous (rhs : Rhs α n) : Rhs α (n + 1) :=
  fun _ z => (rhs (z (Fin.last n)) fun i => z i.castSucc).map fun f => addClock f 1

/-- Leaving out the last component of the state. -/
def dropClock (α : Type) [Field α] (n : Nat) : Change α (n + 1) n := ⟨1, 0, fun i j => if j = i.castSucc then 1 else 0, 0⟩

/-- The conditions on a Runge-Kutta method under which it keeps time: the nodes are the row sums, and the weights add up to one. -/
structure KeepsTime (T : Tableau α s) : Prop where
  explicit : ∀ i j, i ≤ j → T.A i j = 0
  rows : ∀ i, ∑ j, T.A i j = T.C i
  weights : ∑ j, T.B j = 1

end Nbkode.Spec
