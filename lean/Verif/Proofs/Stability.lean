import Verif.Spec.Stability
import Verif.Proofs.Dissipative
import Mathlib.Analysis.InnerProductSpace.Spectrum
import Mathlib.LinearAlgebra.Eigenspace.Minpoly
import Mathlib.Tactic.Module

/-! Polynomials of symmetric and of skew operators on `ℝ^n`. -/

set_option autoImplicit false
set_option linter.unusedSectionVars false

namespace Nbkode
open Spec Polynomial

variable {n : Nat}

theorem length_sq (v : Vec ℝ n) : length v ^ 2 = ∑ i, v i ^ 2 := by
  unfold length
  exact Real.sq_sqrt (Finset.sum_nonneg fun _ _ => sq_nonneg _)

theorem length_nonneg (v : Vec ℝ n) : 0 ≤ length v := Real.sqrt_nonneg _

theorem length_smul (a : ℝ) (v : Vec ℝ n) : length (a • v) = |a| * length v := by
  rw [← toE_norm, ← toE_norm, ← Real.norm_eq_abs, ← norm_smul]
  rfl

/-- The spectral theorem: an orthonormal basis of eigenvectors. -/
theorem exists_eigenbasis (L : Vec ℝ n →ₗ[ℝ] Vec ℝ n) (hL : ∀ v w, ∑ i, L v i * w i = ∑ i, v i * L w i) :
    ∃ (e : Fin n → Vec ℝ n) (lam : Fin n → ℝ), (∀ i, L (e i) = lam i • e i) ∧ (∀ i, ∑ j, e i j ^ 2 = 1) ∧
      ∀ x : Vec ℝ n, ∑ i, (∑ j, e i j * x j) ^ 2 = ∑ j, x j ^ 2 := by
  let E := EuclideanSpace ℝ (Fin n)
  let T : E →ₗ[ℝ] E :=
    { toFun := fun x => toE (L fun i => x i)
      map_add' := fun x y => by
        have : (fun i => (x + y) i) = (fun i => x i) + fun i => y i := rfl
        rw [this, map_add]; rfl
      map_smul' := fun a x => by
        have : (fun i => (a • x) i) = a • fun i => x i := rfl
        rw [this, map_smul]; rfl }
  have hT : T.IsSymmetric := by
    intro x y
    show inner ℝ (toE (L fun i => x i)) y = inner ℝ x (toE (L fun i => y i))
    have h1 : y = toE fun i => y i := rfl
    have h2 : x = toE fun i => x i := rfl
    rw [h1, h2, toE_inner, toE_inner]
    exact hL _ _
  have hn : Module.finrank ℝ E = n := by simp [E]
  refine ⟨fun i j => hT.eigenvectorBasis hn i j, hT.eigenvalues hn, fun i => ?_, fun i => ?_, fun x => ?_⟩
  · have := hT.apply_eigenvectorBasis hn i
    funext j
    exact congrArg (fun v : E => v j) this
  · have := (hT.eigenvectorBasis hn).orthonormal.1 i
    have h2 := length_sq fun j => hT.eigenvectorBasis hn i j
    rw [← toE_norm] at h2
    change ‖hT.eigenvectorBasis hn i‖ ^ 2 = _ at h2
    rw [this, one_pow] at h2
    exact h2.symm
  · have := (hT.eigenvectorBasis hn).sum_sq_norm_inner_right (toE x)
    rw [toE_norm, length_sq] at this
    rw [← this]
    refine Finset.sum_congr rfl fun i _ => ?_
    have h1 : hT.eigenvectorBasis hn i = toE fun j => hT.eigenvectorBasis hn i j := rfl
    rw [Real.norm_eq_abs, sq_abs, h1, toE_inner]

theorem dot_aeval {L : Vec ℝ n →ₗ[ℝ] Vec ℝ n} (hL : ∀ v w, ∑ i, L v i * w i = ∑ i, v i * L w i) {e : Vec ℝ n} {lam : ℝ} (he : L e = lam • e)
    (R : ℝ[X]) (x : Vec ℝ n) : ∑ j, e j * aeval L R x j = R.eval lam * ∑ j, e j * x j := by
  have step : ∀ x, ∑ j, e j * L x j = lam * ∑ j, e j * x j := by
    intro x
    rw [← hL e x, he, Finset.mul_sum]
    exact Finset.sum_congr rfl fun j _ => by simp [mul_assoc]
  have pows : ∀ (m : ℕ) x, ∑ j, e j * (L ^ m) x j = lam ^ m * ∑ j, e j * x j := by
    intro m
    induction m with
    | zero => intro x; simp
    | succ m ih =>
      intro x
      rw [pow_succ', Module.End.mul_apply, step, ih]
      ring
  induction R using Polynomial.induction_on' with
  | add p q hp hq =>
    rw [map_add, eval_add, add_mul, ← hp, ← hq, ← Finset.sum_add_distrib]
    exact Finset.sum_congr rfl fun j _ => by rw [LinearMap.add_apply, Pi.add_apply]; ring
  | monomial m a =>
    rw [aeval_monomial, eval_monomial, mul_assoc, ← pows, Finset.mul_sum]
    refine Finset.sum_congr rfl fun j _ => ?_
    simp [Algebra.algebraMap_eq_smul_one]
    ring

/-- If `|R| ≤ 1` at the eigenvalues then `R(L)` makes no vector longer. -/
theorem length_aeval_le {L : Vec ℝ n →ₗ[ℝ] Vec ℝ n} (hL : ∀ v w, ∑ i, L v i * w i = ∑ i, v i * L w i) (R : ℝ[X])
    (hR : ∀ (e : Vec ℝ n) (lam : ℝ), L e = lam • e → ∑ j, e j ^ 2 = 1 → |R.eval lam| ≤ 1) (x : Vec ℝ n) :
    length (aeval L R x) ≤ length x := by
  obtain ⟨e, lam, h1, h2, h3⟩ := exists_eigenbasis L hL
  refine Real.sqrt_le_sqrt ?_
  rw [← h3, ← h3 x]
  refine Finset.sum_le_sum fun i _ => ?_
  rw [dot_aeval hL (h1 i), mul_pow]
  refine mul_le_of_le_one_left (sq_nonneg _) ?_
  have := hR (e i) (lam i) (h1 i) (h2 i)
  rw [sq_le_one_iff_abs_le_one]
  exact this

theorem length_pow_le {P : Vec ℝ n →ₗ[ℝ] Vec ℝ n} (hP : ∀ x, length (P x) ≤ length x) (N : ℕ) (x : Vec ℝ n) : length ((P ^ N) x) ≤ length x := by
  induction N with
  | zero => simp
  | succ N ih =>
    rw [pow_succ', Module.End.mul_apply]
    exact (hP _).trans ih

theorem aeval_pow_eigen {L : Vec ℝ n →ₗ[ℝ] Vec ℝ n} {e : Vec ℝ n} {lam : ℝ} (he : L e = lam • e) (R : ℝ[X]) (N : ℕ) :
    (aeval L R ^ N) e = R.eval lam ^ N • e := by
  induction N with
  | zero => simp
  | succ N ih =>
    rw [pow_succ', Module.End.mul_apply, ih, map_smul, Module.End.aeval_apply_of_mem_apply_eq_smul he, smul_smul]
    congr 1

/-- The even and the odd part of a polynomial of a skew operator in a plane of rotation: `R(i x) = a + b x i`. -/
theorem turn_sq {L : Vec ℝ n →ₗ[ℝ] Vec ℝ n} (hL : ∀ w, ∑ i, L w i * w i = 0) {w : Vec ℝ n} {ω : ℝ} (hw : L (L w) = -ω ^ 2 • w) (a b : ℝ) :
    length (a • w + b • L w) ^ 2 = (a ^ 2 + b ^ 2 * ω ^ 2) * length w ^ 2 := by
  have h1 := hL w
  -- polarise
  have h2 := hL (w + L w)
  have h3 := hL (L w)
  rw [map_add, hw] at h2
  rw [hw] at h3
  have h4 : ∑ i, L w i ^ 2 = ω ^ 2 * ∑ i, w i ^ 2 := by
    have e : ∀ i, (L w + -ω ^ 2 • w) i * (w + L w) i = L w i * w i + L w i ^ 2 - ω ^ 2 * w i ^ 2 - ω ^ 2 * (L w i * w i) := by
      intro i; simp only [Pi.add_apply, Pi.smul_apply, smul_eq_mul]; ring
    simp only [e] at h2
    rw [Finset.sum_sub_distrib, Finset.sum_sub_distrib, Finset.sum_add_distrib, ← Finset.mul_sum, ← Finset.mul_sum, h1] at h2
    linarith
  rw [length_sq, length_sq]
  have e : ∀ i, (a • w + b • L w) i ^ 2 = a ^ 2 * w i ^ 2 + 2 * a * b * (L w i * w i) + b ^ 2 * L w i ^ 2 := by
    intro i; simp only [Pi.add_apply, Pi.smul_apply, smul_eq_mul]; ring
  simp only [e]
  rw [Finset.sum_add_distrib, Finset.sum_add_distrib, ← Finset.mul_sum, ← Finset.mul_sum, ← Finset.mul_sum, h1, h4]
  ring

theorem turn_pow {L P : Vec ℝ n →ₗ[ℝ] Vec ℝ n} (hL : ∀ w, ∑ i, L w i * w i = 0) {ω a b : ℝ}
    (hP : ∀ w, L (L w) = -ω ^ 2 • w → P w = a • w + b • L w) (N : ℕ) :
    ∀ w, L (L w) = -ω ^ 2 • w → length ((P ^ N) w) ^ 2 = (a ^ 2 + b ^ 2 * ω ^ 2) ^ N * length w ^ 2 := by
  induction N with
  | zero => intro w _; simp
  | succ N ih =>
    intro w hw
    have hw' : L (L (P w)) = -ω ^ 2 • P w := by
      rw [hP w hw, map_add, map_smul, map_smul, map_add, map_smul, map_smul, hw, map_smul]
      module
    rw [pow_succ P N, Module.End.mul_apply, ih _ hw', hP w hw, turn_sq hL hw]
    ring

end Nbkode
