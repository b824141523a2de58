import Verif.Spec.Answers

/-!
# The records of two calls, put together
-/

set_option autoImplicit false

namespace Nbkode.Spec

variable {A B : Type}

/-- `t`, `y` are the records of an event in one call, `t1`, `y1` and `t2`, `y2` those of the same event in the two halves of it: all of the first and then
all of the second, except that a time which ends the first and begins the second is there once. -/
def JoinedUp (t1 : List A) (y1 : List B) (t2 : List A) (y2 : List B) (t : List A) (y : List B) : Prop :=
  (t = t1 ++ t2 ∧ y = y1 ++ y2) ∨ ∃ x, t1.getLast? = some x ∧ t2.head? = some x ∧ t = t1 ++ t2.tail ∧ y = y1 ++ y2.tail

end Nbkode.Spec
