import Verif.Proofs.ZeroStability
import Verif.Model.Tableaux
import Mathlib.Tactic.LinearCombination
import Mathlib.Tactic.NormNum

/-! # Zero-stability of the registered formulas -/

set_option autoImplicit false
set_option linter.unusedSectionVars false

namespace Nbkode
open Spec

/-- A sequence is bounded when its differences satisfy a contracting recurrence. -/
theorem bounded_of_differences {N : ℕ} (x : ℕ → ℝ) (θ : ℝ) (hθ : θ < 1) (c : Fin N → ℝ) (hc : ∑ j, |c j| ≤ θ)
    (h : ∀ m, (x (m + N + 1) - x (m + N)) + ∑ j : Fin N, c j * (x (m + j + 1) - x (m + j)) = 0) : ∃ B, ∀ m, |x m| ≤ B := by
  set d : ℕ → ℝ := fun m => x (m + 1) - x m with hd
  set D : ℕ → ℝ := fun M => ∑ m ∈ Finset.range M, |d m| with hD
  have hmono : ∀ a b, a ≤ b → D a ≤ D b := fun a b hab =>
    Finset.sum_le_sum_of_subset_of_nonneg (Finset.range_subset_range.mpr hab) fun _ _ _ => abs_nonneg _
  have hD0 : ∀ M, 0 ≤ D M := fun M => Finset.sum_nonneg fun _ _ => abs_nonneg _
  have hstep : ∀ M, D (N + M) ≤ D N / (1 - θ) := by
    intro M
    have h1 : D (N + M) = D N + ∑ m ∈ Finset.range M, |d (m + N)| := by
      simp only [hD, Finset.sum_range_add]
      congr 1
      exact Finset.sum_congr rfl fun m _ => by rw [add_comm]
    have h2 : ∀ m, |d (m + N)| ≤ ∑ j : Fin N, |c j| * |d (m + j)| := by
      intro m
      have : d (m + N) = -∑ j : Fin N, c j * d (m + j) := by have := h m; simp only [hd]; linarith
      rw [this, abs_neg]
      refine (Finset.abs_sum_le_sum_abs _ _).trans (le_of_eq (Finset.sum_congr rfl fun j _ => abs_mul _ _))
    have h3 : ∀ j : Fin N, ∑ m ∈ Finset.range M, |d (m + j)| ≤ D (N + M) := by
      intro j
      have : D (j + M) = D j + ∑ m ∈ Finset.range M, |d (m + j)| := by
        simp only [hD, Finset.sum_range_add]
        congr 1
        exact Finset.sum_congr rfl fun m _ => by rw [add_comm]
      have h4 := hmono (j + M) (N + M) (by have := j.isLt; omega)
      have := hD0 j
      linarith
    have h5 : ∑ m ∈ Finset.range M, |d (m + N)| ≤ θ * D (N + M) := by
      calc _ ≤ ∑ m ∈ Finset.range M, ∑ j : Fin N, |c j| * |d (m + j)| := Finset.sum_le_sum fun m _ => h2 m
        _ = ∑ j : Fin N, |c j| * ∑ m ∈ Finset.range M, |d (m + j)| := by
            rw [Finset.sum_comm]; exact Finset.sum_congr rfl fun j _ => (Finset.mul_sum _ _ _).symm
        _ ≤ ∑ j : Fin N, |c j| * D (N + M) := Finset.sum_le_sum fun j _ => mul_le_mul_of_nonneg_left (h3 j) (abs_nonneg _)
        _ = (∑ j, |c j|) * D (N + M) := by rw [Finset.sum_mul]
        _ ≤ θ * D (N + M) := mul_le_mul_of_nonneg_right hc (hD0 _)
    rw [le_div_iff₀ (by linarith)]
    nlinarith
  have hx : ∀ M, |x M| ≤ |x 0| + D M := by
    intro M
    induction M with
    | zero => simp [hD]
    | succ M ih =>
      have e : x (M + 1) = x M + d M := by simp [hd]
      have : D (M + 1) = D M + |d M| := Finset.sum_range_succ _ _
      rw [e, this]
      have := abs_add_le (x M) (d M)
      linarith
  refine ⟨|x 0| + D N / (1 - θ), fun m => (hx m).trans ?_⟩
  have := hmono m (N + m) (by omega)
  have := hstep m
  linarith

theorem stable_adams {p : ℕ} (c : MultistepCoef ℝ p) (hc : c.A = adamsA p) : ZeroStable c := by
  intro x hx
  refine bounded_of_differences (N := p) x 0 (by norm_num) (fun _ => 0) (by simp) fun m => ?_
  have h := hx m
  have h1 : ∑ i : Fin (p + 1), c.A i.rev * x (m + p - i) = -x (m + p) := by
    rw [Finset.sum_eq_single 0]
    · simp [hc, adamsA, Fin.rev]
    · intro i _ hi
      have : i.rev.val ≠ p := by
        rw [Fin.val_rev]
        have : i.val ≠ 0 := fun h => hi (Fin.ext h)
        omega
      rw [hc, adamsA, if_neg this, zero_mul]
    · simp
  rw [h1] at h
  simp only [zero_mul, Finset.sum_const_zero, add_zero]
  linarith

theorem stable_BDF1 : ZeroStable (BDF1 : MultistepCoef ℝ 0) :=
  stable_adams _ (by funext i; fin_cases i; simp [BDF1, adamsA])

theorem stable_BDF2 : ZeroStable (BDF2 : MultistepCoef ℝ 1) := by
  intro x hx
  refine bounded_of_differences x (1/3) (by norm_num) ![-1/3]
    (by simp [Fin.sum_univ_succ]; norm_num [abs_of_pos, abs_of_neg]) fun m => ?_
  have h : ∀ m, (1) * x (m + 2) + (-4/3) * x (m + 1) + (1/3) * x (m + 0) = 0 := by
    intro m
    have := hx m
    simp [Fin.sum_univ_succ, Fin.rev, BDF2, q] at this
    linear_combination this
  simp [Fin.sum_univ_succ]
  have h0 := h (m + 0)
  simp only [add_assoc] at h0
  norm_num at h0 ⊢
  linear_combination (1) * h0

theorem stable_BDF3 : ZeroStable (BDF3 : MultistepCoef ℝ 2) := by
  intro x hx
  refine bounded_of_differences x (9/11) (by norm_num) ![2/11, -7/11]
    (by simp [Fin.sum_univ_succ]; norm_num [abs_of_pos, abs_of_neg]) fun m => ?_
  have h : ∀ m, (1) * x (m + 3) + (-18/11) * x (m + 2) + (9/11) * x (m + 1) + (-2/11) * x (m + 0) = 0 := by
    intro m
    have := hx m
    simp [Fin.sum_univ_succ, Fin.rev, BDF3, q] at this
    linear_combination this
  simp [Fin.sum_univ_succ]
  have h0 := h (m + 0)
  simp only [add_assoc] at h0
  norm_num at h0 ⊢
  linear_combination (1) * h0

theorem stable_BDF4 : ZeroStable (BDF4 : MultistepCoef ℝ 3) := by
  intro x hx
  refine bounded_of_differences x (98/125) (by norm_num) ![-27/250, 87/250, -77/250, -1/50]
    (by simp [Fin.sum_univ_succ]; norm_num [abs_of_pos, abs_of_neg]) fun m => ?_
  have h : ∀ m, (1) * x (m + 4) + (-48/25) * x (m + 3) + (36/25) * x (m + 2) + (-16/25) * x (m + 1) + (3/25) * x (m + 0) = 0 := by
    intro m
    have := hx m
    simp [Fin.sum_univ_succ, Fin.rev, BDF4, q] at this
    linear_combination this
  simp [Fin.sum_univ_succ]
  have h0 := h (m + 0)
  have h1 := h (m + 1)
  simp only [add_assoc] at h0 h1
  norm_num at h0 h1 ⊢
  linear_combination (9/10) * h0 + (1) * h1

theorem stable_BDF5 : ZeroStable (BDF5 : MultistepCoef ℝ 4) := by
  intro x hx
  refine bounded_of_differences x (329/685) (by norm_num) ![24/685, -54/685, -44/685, 181/685, -19/685, 7/685]
    (by simp [Fin.sum_univ_succ]; norm_num [abs_of_pos, abs_of_neg]) fun m => ?_
  have h : ∀ m, (1) * x (m + 5) + (-300/137) * x (m + 4) + (300/137) * x (m + 3) + (-200/137) * x (m + 2) + (75/137) * x (m + 1) + (-12/137) * x (m + 0) = 0 := by
    intro m
    have := hx m
    simp [Fin.sum_univ_succ, Fin.rev, BDF5, q] at this
    linear_combination this
  simp [Fin.sum_univ_succ]
  have h0 := h (m + 0)
  have h1 := h (m + 1)
  have h2 := h (m + 2)
  simp only [add_assoc] at h0 h1 h2
  norm_num at h0 h1 h2 ⊢
  linear_combination (2/5) * h0 + (6/5) * h1 + (1) * h2

theorem stable_BDF6 : ZeroStable (BDF6 : MultistepCoef ℝ 5) := by
  intro x hx
  refine bounded_of_differences x (209/245) (by norm_num) ![4/147, -33/245, 146/735, 37/1470, -38/147, 0, -8/105, 41/490, -12/245]
    (by simp [Fin.sum_univ_succ]; norm_num [abs_of_pos, abs_of_neg]) fun m => ?_
  have h : ∀ m, (1) * x (m + 6) + (-120/49) * x (m + 5) + (150/49) * x (m + 4) + (-400/147) * x (m + 3) + (75/49) * x (m + 2) + (-24/49) * x (m + 1) + (10/147) * x (m + 0) = 0 := by
    intro m
    have := hx m
    simp [Fin.sum_univ_succ, Fin.rev, BDF6, q] at this
    linear_combination this
  simp [Fin.sum_univ_succ]
  have h0 := h (m + 0)
  have h1 := h (m + 1)
  have h2 := h (m + 2)
  have h3 := h (m + 3)
  have h4 := h (m + 4)
  simp only [add_assoc] at h0 h1 h2 h3 h4
  norm_num at h0 h1 h2 h3 h4 ⊢
  linear_combination (-2/5) * h0 + (-1/2) * h1 + (1/2) * h2 + (7/5) * h3 + (1) * h4

end Nbkode
