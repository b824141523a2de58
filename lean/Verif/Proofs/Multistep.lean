import Verif.Spec.Multistep
import Verif.Proofs.Stages
import Verif.Proofs.MethodShape

/-! The known part of a multistep formula. -/

set_option autoImplicit false
set_option linter.unusedSectionVars false

namespace Nbkode
open Py Spec Solver

variable {α : Type} [Field α] [LinearOrder α] [IsStrictOrderedRing α] [BEq α]
variable {n p : Nat}

theorem lastRows_eq {A : Type} (a : Fin (histExtra p + 2) → A) (j : Fin (p + 1)) :
    lastRows a j = ago a j.rev := by
  unfold lastRows ago
  congr 2
  simp only [Fin.val_rev]
  have := j.isLt
  unfold histExtra
  omega

theorem multistepK_apply (c : MultistepCoef α p) (b : Buffer α n (histExtra p)) (h : α) (d : Fin n) :
    multistepK c b h d = h * ∑ i : Fin (p + 1), c.B i.rev * ago b.fs i d -
      ∑ i : Fin (p + 1), c.A i.rev * ago b.ys i d := by
  unfold multistepK
  rw [Pi.sub_apply, vdot_apply, vdot_apply, Finset.mul_sum]
  congr 1
  · rw [← Equiv.sum_comp Fin.revPerm]
    refine Finset.sum_congr rfl fun i _ => ?_
    simp only [Fin.revPerm_apply, lastRows_eq, Fin.rev_rev]
    ring
  · rw [← Equiv.sum_comp Fin.revPerm]
    refine Finset.sum_congr rfl fun i _ => ?_
    simp only [Fin.revPerm_apply, lastRows_eq, Fin.rev_rev]

theorem residual_eq (c : MultistepCoef α p) (b : Buffer α n (histExtra p)) (h : α) (y f : Vec α n) :
    defect c b h y f = y - scale (h * c.Bn) f - multistepK c b h := by
  funext d
  simp only [defect, Pi.sub_apply, scale, multistepK_apply]
  ring

end Nbkode
