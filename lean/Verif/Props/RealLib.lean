import Verif.Spec.Methods
import Verif.Spec.Zeros
import Mathlib.Analysis.SpecialFunctions.Pow.Real
import Mathlib.LinearAlgebra.Matrix.NonsingularInverse
import Mathlib.LinearAlgebra.Matrix.ToLinearEquiv

/-!
# The numeric library over the real numbers

The exact counterparts of `np.sqrt`, `**` and `np.linalg.solve`: the assumptions made about the library in the
theorems (`PowLaw`, `sqrt 0 = 0`, ...) hold for them.
-/

set_option autoImplicit false

namespace Nbkode.Demo
open Nbkode Spec

noncomputable section

/-- Exact real arithmetic. `==` on reals is decided classically. -/
instance : BEq ℝ := ⟨fun a b => decide (a = b)⟩

instance : LawfulBEq ℝ where
  eq_of_beq := fun h => of_decide_eq_true h
  rfl := fun {a} => decide_eq_true (rfl : a = a)

/-- `sqrt`, power and linear solve over `ℝ`; a singular matrix raises `LinAlgError`. -/
def realLib : Lib ℝ where
  sqrt := Real.sqrt
  pow := fun x e => x ^ e
  solve := fun A b =>
    if (Matrix.of A).det = 0 then .error .linAlgError else .ok ((Matrix.of A)⁻¹.mulVec b)

theorem realLib_powLaw : PowLaw realLib where
  one_le := fun _ _ h he => Real.one_le_rpow h he
  pos := fun x e h => Real.rpow_pos_of_pos h e

theorem realLib_sqrt_zero : realLib.sqrt 0 = 0 := Real.sqrt_zero

theorem realLib_exactSolve : ExactSolve realLib where
  sound := by
    intro n A b x h i
    unfold realLib at h
    simp only at h
    split at h
    · simp at h
    · rename_i hd
      cases h
      have : (Matrix.of A).mulVec ((Matrix.of A)⁻¹.mulVec b) = b := by
        rw [Matrix.mulVec_mulVec, Matrix.mul_nonsing_inv _ (isUnit_iff_ne_zero.mpr hd),
          Matrix.one_mulVec]
      exact congrFun this i
  complete := by
    intro n A b h
    have hd : (Matrix.of A).det ≠ 0 := by
      intro h0
      obtain ⟨v, hv, hz⟩ := Matrix.exists_mulVec_eq_zero_iff.mpr h0
      exact hv (h v fun i => congrFun hz i)
    exact ⟨_, if_neg hd⟩

/-- The literals of the root finders' defaults. -/
def realZeros : ZeroOpts ℝ := ⟨1 / 10 ^ 4, 1 / 10 ^ 10, 148 / 10 ^ 10, 0⟩

theorem default_sane {α : Type} [Field α] [LinearOrder α] [IsStrictOrderedRing α] :
    SaneOptions (VarOptions.default : VarOptions α) where
  minFactor_pos := by simp [VarOptions.default]
  minFactor_le := by
    simp only [VarOptions.default]
    rw [div_le_one (by norm_num)]; norm_num
  maxFactor_pos := by simp [VarOptions.default]
  safety_le := by
    simp only [VarOptions.default]
    rw [div_le_one (by norm_num)]; norm_num

end

end Nbkode.Demo
