import Mathlib.Analysis.Complex.Polynomial.Basic
import Mathlib.Algebra.Polynomial.AlgebraMap
import Mathlib.Algebra.Polynomial.Splits
import Mathlib.Tactic.Linarith
import Mathlib.Tactic.Positivity
import Mathlib.Tactic.FieldSimp

/-!
# Linear recurrences whose characteristic roots are inside the unit circle
-/

set_option autoImplicit false
set_option linter.unusedSectionVars false

namespace Nbkode
open Polynomial

/-- The shift of sequences. -/
def shiftSeq : Module.End ℂ (ℕ → ℂ) where
  toFun e m := e (m + 1)
  map_add' _ _ := rfl
  map_smul' _ _ := rfl

theorem shiftSeq_pow (e : ℕ → ℂ) (j m : ℕ) : (shiftSeq ^ j) e m = e (m + j) := by
  induction j generalizing m with
  | zero => rfl
  | succ j ih =>
    rw [pow_succ']
    show (shiftSeq ^ j) e (m + 1) = _
    rw [ih]
    congr 1
    omega

theorem inside_radius (s : Multiset ℂ) (h : ∀ z ∈ s, ‖z‖ < 1) : ∃ ρ : ℝ, 0 < ρ ∧ ρ < 1 ∧ ∀ z ∈ s, ‖z‖ < ρ := by
  induction s using Multiset.induction_on with
  | empty => exact ⟨1 / 2, by norm_num, by norm_num, by simp⟩
  | cons z s ih =>
    obtain ⟨ρ, r0, r1, hr⟩ := ih fun w hw => h w (Multiset.mem_cons_of_mem hw)
    have hz := h z (Multiset.mem_cons_self z s)
    refine ⟨max ρ ((‖z‖ + 1) / 2), lt_max_of_lt_left r0, max_lt r1 (by linarith), fun w hw => ?_⟩
    rcases Multiset.mem_cons.mp hw with rfl | hw
    · exact lt_max_of_lt_right (by linarith)
    · exact lt_max_of_lt_left (hr w hw)

/-- A sequence that decays after the factors `X - z` were applied decays itself. -/
theorem factors_decay {ρ : ℝ} (r0 : 0 < ρ) (s : Multiset ℂ) (h : ∀ z ∈ s, ‖z‖ < ρ) : ∃ K : ℝ, 0 ≤ K ∧ ∀ (e : ℕ → ℂ) (C : ℝ), 0 ≤ C →
    (∀ m, ‖aeval shiftSeq (s.map fun z => X - Polynomial.C z).prod e m‖ ≤ C * ρ ^ m) →
    ∀ m, ‖e m‖ ≤ K * (C + ∑ j ∈ Finset.range s.card, ‖e j‖) * ρ ^ m := by
  induction s using Multiset.induction_on with
  | empty =>
    refine ⟨1, zero_le_one, fun e C _ he m => ?_⟩
    simpa using he m
  | cons z s ih =>
    obtain ⟨K, k0, hK⟩ := ih fun w hw => h w (Multiset.mem_cons_of_mem hw)
    have hz := h z (Multiset.mem_cons_self z s)
    have hd : 0 < ρ - ‖z‖ := by linarith
    refine ⟨1 + K * (1 + ‖z‖ + 1) / (ρ - ‖z‖), by positivity, fun e C c0 he => ?_⟩
    set T := ∑ j ∈ Finset.range (z ::ₘ s).card, ‖e j‖ with hT
    have T0 : 0 ≤ T := Finset.sum_nonneg fun _ _ => norm_nonneg _
    let e' : ℕ → ℂ := fun m => e (m + 1) - z * e m
    have e'eq : aeval shiftSeq (X - Polynomial.C z) e = e' := by
      funext m
      simp [e', shiftSeq]
    have h1 := hK e' C c0 (by
      intro m
      have := he m
      rw [Multiset.map_cons, Multiset.prod_cons, mul_comm, map_mul, Module.End.mul_apply, e'eq] at this
      exact this)
    have hsum : ∑ j ∈ Finset.range s.card, ‖e' j‖ ≤ (1 + ‖z‖) * T := by
      have a1 : ∀ j, ‖e' j‖ ≤ ‖e (j + 1)‖ + ‖z‖ * ‖e j‖ := fun j => (norm_sub_le _ _).trans (by rw [norm_mul])
      have a2 : ∑ j ∈ Finset.range s.card, ‖e (j + 1)‖ ≤ T := by
        rw [hT, Multiset.card_cons, Finset.sum_range_succ']
        exact le_add_of_nonneg_right (norm_nonneg _)
      have a3 : ∑ j ∈ Finset.range s.card, ‖e j‖ ≤ T := by
        rw [hT, Multiset.card_cons, Finset.sum_range_succ]
        exact le_add_of_nonneg_right (norm_nonneg _)
      calc ∑ j ∈ Finset.range s.card, ‖e' j‖ ≤ ∑ j ∈ Finset.range s.card, (‖e (j + 1)‖ + ‖z‖ * ‖e j‖) := Finset.sum_le_sum fun j _ => a1 j
        _ = ∑ j ∈ Finset.range s.card, ‖e (j + 1)‖ + ‖z‖ * ∑ j ∈ Finset.range s.card, ‖e j‖ := by rw [Finset.sum_add_distrib, Finset.mul_sum]
        _ ≤ T + ‖z‖ * T := add_le_add a2 (mul_le_mul_of_nonneg_left a3 (norm_nonneg _))
        _ = _ := by ring
    have h2 : ∀ m, ‖e' m‖ ≤ K * (1 + ‖z‖ + 1) * (C + T) * ρ ^ m := by
      intro m
      refine (h1 m).trans (mul_le_mul_of_nonneg_right ?_ (by positivity))
      rw [mul_assoc]
      refine mul_le_mul_of_nonneg_left ?_ k0
      have : 0 ≤ ‖z‖ * C := by positivity
      nlinarith
    set D := (1 + K * (1 + ‖z‖ + 1) / (ρ - ‖z‖)) * (C + T) with hD
    have hDK : K * (1 + ‖z‖ + 1) * (C + T) ≤ D * (ρ - ‖z‖) := by
      rw [hD, add_mul, add_mul, div_mul_eq_mul_div, div_mul_cancel₀ _ hd.ne']
      have : 0 ≤ 1 * (C + T) * (ρ - ‖z‖) := by positivity
      linarith
    intro m
    induction m with
    | zero =>
      rw [pow_zero, mul_one]
      have h0 : ‖e 0‖ ≤ T := by
        rw [hT, Multiset.card_cons]
        exact Finset.single_le_sum (f := fun j => ‖e j‖) (fun _ _ => norm_nonneg _) (Finset.mem_range.mpr (Nat.succ_pos _))
      have : 0 ≤ K * (1 + ‖z‖ + 1) / (ρ - ‖z‖) * (C + T) := by positivity
      rw [hD, add_mul, one_mul]
      linarith
    | succ m ihm =>
      have h3 : e (m + 1) = z * e m + e' m := by simp [e']
      have rp : 0 < ρ ^ m := pow_pos r0 m
      calc ‖e (m + 1)‖ ≤ ‖z‖ * ‖e m‖ + ‖e' m‖ := by rw [h3]; exact (norm_add_le _ _).trans (by rw [norm_mul])
        _ ≤ ‖z‖ * (D * ρ ^ m) + K * (1 + ‖z‖ + 1) * (C + T) * ρ ^ m := add_le_add (mul_le_mul_of_nonneg_left ihm (norm_nonneg _)) (h2 m)
        _ ≤ ‖z‖ * (D * ρ ^ m) + D * (ρ - ‖z‖) * ρ ^ m := by gcongr
        _ = D * ρ ^ (m + 1) := by rw [pow_succ]; ring

/-- A solution of a linear recurrence whose characteristic roots are inside the unit circle decays exponentially. -/
theorem recurrence_decays {p : ℕ} (a : Fin (p + 1) → ℝ) {l : ℝ} (hl : l ≠ 0)
    (hroots : ∀ z : ℂ, (l : ℂ) * z ^ (p + 1) + ∑ i, (a i : ℂ) * z ^ (i : ℕ) = 0 → ‖z‖ < 1) :
    ∃ K ρ : ℝ, 0 < ρ ∧ ρ < 1 ∧ ∀ e : ℕ → ℝ, (∀ m, l * e (m + (p + 1)) + ∑ i, a i * e (m + (i : ℕ)) = 0) →
      ∀ m, |e m| ≤ K * ρ ^ m * ∑ j ∈ Finset.range (p + 1), |e j| := by
  let P : ℂ[X] := Polynomial.C (l : ℂ) * X ^ (p + 1) + ∑ i, Polynomial.C (a i : ℂ) * X ^ (i : ℕ)
  have hlow : (∑ i : Fin (p + 1), Polynomial.C (a i : ℂ) * X ^ (i : ℕ)).degree < ((p + 1 : ℕ) : WithBot ℕ) :=
    (Polynomial.degree_sum_le _ _).trans_lt ((Finset.sup_lt_iff (WithBot.bot_lt_coe _)).mpr fun i _ =>
      (degree_C_mul_X_pow_le _ _).trans_lt (by exact_mod_cast i.isLt))
  have hl' : (l : ℂ) ≠ 0 := by exact_mod_cast hl
  have hdeg : P.degree = ((p + 1 : ℕ) : WithBot ℕ) := by
    have : (Polynomial.C (l : ℂ) * X ^ (p + 1)).degree = ((p + 1 : ℕ) : WithBot ℕ) := degree_C_mul_X_pow _ hl'
    rw [← this]
    exact degree_add_eq_left_of_degree_lt (by rw [this]; exact hlow)
  have hP0 : P ≠ 0 := by
    intro e
    rw [e, degree_zero] at hdeg
    cases hdeg
  have hsplit := IsAlgClosed.splits P
  have hprod := hsplit.eq_prod_roots
  have hcard : P.roots.card = p + 1 := by
    rw [← hsplit.natDegree_eq_card_roots]
    exact natDegree_eq_of_degree_eq_some hdeg
  have hr : ∀ z ∈ P.roots, ‖z‖ < 1 := by
    intro z hz
    refine hroots z ?_
    have := (mem_roots hP0).mp hz
    rw [IsRoot, eval_add, eval_finsetSum] at this
    simpa using this
  obtain ⟨ρ, r0, r1, hρ⟩ := inside_radius P.roots hr
  obtain ⟨K, k0, hK⟩ := factors_decay r0 P.roots hρ
  refine ⟨K, ρ, r0, r1, fun e he m => ?_⟩
  have hz : aeval shiftSeq P (fun m => (e m : ℂ)) = 0 := by
    funext m
    have := he m
    simp only [P, map_add, map_mul, map_sum, aeval_C, map_pow, aeval_X, LinearMap.add_apply, LinearMap.sum_apply, Module.End.mul_apply, Pi.add_apply,
      Finset.sum_apply, Module.algebraMap_end_apply, Pi.smul_apply, smul_eq_mul, shiftSeq_pow, Pi.zero_apply]
    exact_mod_cast this
  have hlead : P.leadingCoeff ≠ 0 := leadingCoeff_ne_zero.mpr hP0
  have hz' : aeval shiftSeq (P.roots.map fun z => X - Polynomial.C z).prod (fun m => (e m : ℂ)) = 0 := by
    rw [hprod, map_mul, aeval_C, Module.End.mul_apply, Module.algebraMap_end_apply] at hz
    exact (smul_eq_zero.mp hz).resolve_left hlead
  have := hK (fun m => (e m : ℂ)) 0 le_rfl (fun m => by rw [hz']; simp) m
  simp only [Complex.norm_real, Real.norm_eq_abs, zero_add, hcard] at this
  linarith

end Nbkode
