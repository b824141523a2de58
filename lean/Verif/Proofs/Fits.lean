import Verif.Proofs.History

/-! Steps that fit below `t_bound`. -/

set_option autoImplicit false
set_option linter.unusedSectionVars false

namespace Nbkode
open Spec

variable {α : Type} [LinearOrder α]
variable [Add α] [Sub α] [Mul α] [Div α] [Neg α] [Zero α] [One α] [NatCast α] [BEq α]
variable {n k : Nat} {X : Type}

theorem fits_mono {b tb : Bound α} (h : Allowed b tb) {s : St α n k X} (hf : Fits b s) : Fits tb s := by
  rcases h with rfl | h
  · exact hf
  · unfold Beyond at h
    unfold Fits NotBeyond at *
    cases tb with
    | inf => trivial
    | fin tb =>
      cases b with
      | inf => simp at h
      | fin b => simp only [not_lt] at *; exact hf.trans h

theorem not_exceeded {b : Bound α} {s : St α n k X} (h : Fits b s) : b.exceededBy (s.cache.t + s.h) = false := by
  cases b with
  | inf => rfl
  | fin b => exact decide_eq_false h

end Nbkode
