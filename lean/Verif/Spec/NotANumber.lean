import Verif.Model.Base

/-!
# Values that are not numbers
-/

set_option autoImplicit false

namespace Nbkode.Spec

/-- Every comparison with `nan` is false, as for NaN in IEEE 754 arithmetic. -/
structure Incomparable {α : Type} [LT α] [LE α] (nan : α) : Prop where
  not_lt : ∀ x, ¬ nan < x
  lt_not : ∀ x, ¬ x < nan
  not_le : ∀ x, ¬ nan ≤ x
  le_not : ∀ x, ¬ x ≤ nan

end Nbkode.Spec
