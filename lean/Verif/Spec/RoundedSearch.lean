import Verif.Spec.Rounded

/-!
# What the search for an event needs of machine numbers
-/

set_option autoImplicit false

namespace Nbkode.Spec
open Nbkode

/-- The difference of two different machine numbers is not rounded to zero. So it is in IEEE 754, because of the subnormal
numbers. -/
def Rounding.Gradual (φ : Rounding) : Prop := ∀ x ∈ φ.numbers, ∀ y ∈ φ.numbers, x < y → 0 < φ.round (y - x)

variable {φ : Rounding} {n k : Nat} {X : Type}

/-- What the search for the event `e` over the step from `a` to `b` needs: the clock advances; at the end of the step the event has
the same sign at the state given by the dense output as at the state the step ended with; and the product of the values at the two
ends is not rounded to zero. -/
structure Searchable (S : Solver (Num φ) n k X) (e : EventSpec (Num φ) n) (a b : St (Num φ) n k X) : Prop where
  advances : a.t < b.t
  negative : ∀ v, ValueAt S e b b.t v → (v < 0 ↔ value e b < 0)
  positive : ∀ v, ValueAt S e b b.t v → (0 < v ↔ 0 < value e b)
  product : ∀ v, ValueAt S e b b.t v → value e a ≠ 0 → v ≠ 0 → value e a * v ≠ 0

end Nbkode.Spec
