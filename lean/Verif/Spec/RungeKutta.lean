import Verif.Model.Methods
import Mathlib.Algebra.BigOperators.Fin
import Mathlib.Algebra.Field.Defs

/-!
# The textbook definition of a Runge-Kutta step
-/

set_option autoImplicit false

namespace Nbkode.Spec
open Nbkode

variable {α : Type} [Field α] {n s : Nat}

/-- The tableau is explicit: `A` is strictly lower triangular and the first node is `0`. -/
structure Explicit (T : Tableau α s) : Prop where
  upper : ∀ i j, i ≤ j → T.A i j = 0
  first : T.C 0 = 0

/-- `k_i = f(t + c_i h, y + h * sum_j a_ij k_j)` for every stage `i`. -/
def RKStages (T : Tableau α s) (rhs : Rhs α n) (t h : α) (y : Vec α n)
    (K : Fin (s + 1) → Vec α n) : Prop :=
  ∀ i, rhs (t + T.C i * h) (fun d => y d + h * ∑ j, T.A i j * K j d) = .ok (K i)

/-- `y + h * sum_j b_j k_j`. -/
def rkNew (T : Tableau α s) (h : α) (y : Vec α n) (K : Fin (s + 1) → Vec α n) : Vec α n :=
  fun d => y d + h * ∑ j, T.B j * K j d

/-- The tableau of a "first same as last" pair with the derivative at the new point as an additional stage: its
row of `A` is `B` and its node is `1`. -/
def withLast (T : Tableau α s) : Tableau α (s + 1) where
  A := fun i j =>
    if hj : j.val < s + 1 then
      if hi : i.val < s + 1 then T.A ⟨i.val, hi⟩ ⟨j.val, hj⟩ else T.B ⟨j.val, hj⟩
    else 0
  B := fun j => if hj : j.val < s + 1 then T.B ⟨j.val, hj⟩ else 0
  C := fun i => if hi : i.val < s + 1 then T.C ⟨i.val, hi⟩ else 1

end Nbkode.Spec
