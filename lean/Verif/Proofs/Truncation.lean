import Verif.Spec.MultistepError
import Mathlib.Analysis.Calculus.MeanValue
import Mathlib.Analysis.Calculus.IteratedDeriv.Lemmas
import Mathlib.Analysis.Calculus.Deriv.Polynomial
import Mathlib.Analysis.Calculus.ContDiff.Basic
import Mathlib.Analysis.Calculus.Deriv.Prod
import Mathlib.Algebra.Polynomial.BigOperators
import Mathlib.Algebra.Polynomial.Eval.SMul

/-! # Truncation errors of multistep formulas -/

set_option autoImplicit false
set_option linter.unusedSectionVars false

namespace Nbkode
open Spec Polynomial

variable {n p : ℕ}

/-- A function whose first `q` derivatives vanish at `a`. -/
theorem small_of_flat {q : ℕ} {g : ℕ → ℝ → ℝ} {a b M : ℝ} (hd : ∀ k ≤ q, ∀ x ∈ Set.Icc a b, HasDerivAt (g k) (g (k + 1) x) x)
    (h0 : ∀ k ≤ q, g k a = 0) (hM : ∀ x ∈ Set.Icc a b, |g (q + 1) x| ≤ M) :
    ∀ k ≤ q + 1, ∀ x ∈ Set.Icc a b, |g k x| ≤ M * (x - a) ^ (q + 1 - k) := by
  intro k hk
  induction h : q + 1 - k generalizing k with
  | zero =>
    intro x hx
    have : k = q + 1 := by omega
    subst this
    simpa using hM x hx
  | succ m ih =>
    intro x hx
    have ih := ih (k + 1) (by omega) (by omega)
    have hkq : k ≤ q := by omega
    have hM0 : 0 ≤ M := (abs_nonneg _).trans (hM x hx)
    have hsub : ∀ z ∈ Set.Icc a x, z ∈ Set.Icc a b := fun z hz => ⟨hz.1, hz.2.trans hx.2⟩
    have := norm_image_sub_le_of_norm_deriv_le_segment' (f := g k) (f' := g (k + 1)) (C := M * (x - a) ^ m)
      (fun z hz => (hd k hkq z (hsub z hz)).hasDerivWithinAt) (fun z hz => by
        refine (ih z (hsub z ⟨hz.1, hz.2.le⟩)).trans (mul_le_mul_of_nonneg_left (pow_le_pow_left₀ ?_ ?_ _) hM0)
        · linarith [hz.1]
        · linarith [hz.2]) x ⟨hx.1, le_rfl⟩
    rw [h0 k hkq, sub_zero, Real.norm_eq_abs] at this
    refine this.trans (le_of_eq ?_)
    rw [pow_succ]; ring

/-- The Taylor polynomial. -/
theorem exists_taylor (q : ℕ) (v : ℕ → ℝ) (a : ℝ) :
    ∃ G : ℝ[X], G.natDegree ≤ q ∧ ∀ k ≤ q, (derivative^[k] G).eval a = v k := by
  refine ⟨∑ k ∈ Finset.range (q + 1), Polynomial.C (v k / k.factorial) * (X - Polynomial.C a) ^ k, ?_, ?_⟩
  · refine natDegree_sum_le_of_forall_le _ _ fun k hk => ?_
    refine (natDegree_C_mul_le _ _).trans ?_
    refine natDegree_pow_le.trans ?_
    rw [natDegree_X_sub_C, mul_one]
    have := Finset.mem_range.mp hk
    omega
  · intro k hk
    rw [iterate_derivative_sum, eval_finsetSum, Finset.sum_eq_single k]
    · rw [iterate_derivative_C_mul, iterate_derivative_X_sub_pow, eval_mul, eval_C, eval_smul]
      simp [Nat.descFactorial_self]
      field_simp
    · intro j _ hj
      rw [iterate_derivative_C_mul, iterate_derivative_X_sub_pow, eval_mul, eval_smul]
      rcases Nat.lt_or_ge j k with h | h
      · rw [Nat.descFactorial_of_lt h]; simp
      · have : j - k ≠ 0 := by omega
        simp [this]
    · intro h
      exact absurd (Finset.mem_range.mpr (by omega)) h

/-- The solution is as smooth as the right-hand side allows. -/
theorem solution_smooth {q : ℕ} {f : ℝ → Vec ℝ n → Vec ℝ n} {y : ℝ → Vec ℝ n} {a b : ℝ} (hf : ContDiff ℝ q (joint f))
    (hy : ∀ t ∈ Set.Ioo a b, SolvesAt f y t) : ContDiffOn ℝ ((q + 1 : ℕ)) (F := Fin n → ℝ) y (Set.Ioo a b) := by
  have key : ∀ m ≤ q + 1, ContDiffOn ℝ (m : ℕ) (F := Fin n → ℝ) y (Set.Ioo a b) := by
    intro m
    induction m with
    | zero =>
      intro _
      rw [Nat.cast_zero, contDiffOn_zero]
      exact fun t ht => (hy t ht).continuousAt.continuousWithinAt
    | succ m ih =>
      intro hm
      rw [Nat.cast_add, Nat.cast_one, contDiffOn_succ_iff_deriv_of_isOpen isOpen_Ioo]
      refine ⟨fun t ht => (hy t ht).differentiableAt.differentiableWithinAt, by simp, ?_⟩
      have h1 : ContDiffOn ℝ (m : ℕ) (fun t => joint f (t, y t)) (Set.Ioo a b) :=
        (hf.of_le (by exact_mod_cast (by omega : m ≤ q))).comp_contDiffOn (contDiffOn_id.prodMk (ih (by omega)))
      exact h1.congr fun t ht => (hy t ht).deriv
  exact key _ le_rfl

/-- The truncation error of a formula which is exact on polynomials of degree `q`. -/
theorem truncation {q : ℕ} {c : MultistepCoef ℝ p} (hc : ExactOnPolynomials c q) {f : ℝ → Vec ℝ n → Vec ℝ n}
    {y : ℝ → Vec ℝ n} {a b t₀ T : ℝ} (hf : ContDiff ℝ q (joint f)) (ha : a < t₀) (hb : T < b)
    (hy : ∀ t ∈ Set.Ioo a b, SolvesAt f y t) :
    ∃ C, 0 ≤ C ∧ ∀ t h, 0 ≤ h → t₀ ≤ t - p * h → t + h ≤ T → ∀ d,
      |y (t + h) d + ∑ i : Fin (p + 1), c.A i.rev * y (t - (i : ℕ) * h) d -
        h * (c.Bn * f (t + h) (y (t + h)) d + ∑ i : Fin (p + 1), c.B i.rev * f (t - (i : ℕ) * h) (y (t - (i : ℕ) * h)) d)| ≤
      C * h ^ (q + 1) := by
  have hsm := solution_smooth hf hy
  have hsub : Set.Icc t₀ T ⊆ Set.Ioo a b := fun t ht => ⟨ha.trans_le ht.1, ht.2.trans_lt hb⟩
  have hcd : ∀ d, ContDiffOn ℝ ((q + 1 : ℕ)) (fun t => y t d) (Set.Ioo a b) := fun d => contDiffOn_pi.mp hsm d
  have hder : ∀ d, ∀ k ≤ q, ∀ t ∈ Set.Icc t₀ T, HasDerivAt (iteratedDeriv k fun t => y t d) (iteratedDeriv (k + 1) (fun t => y t d) t) t := by
    intro d k hk t ht
    rw [iteratedDeriv_succ]
    have h1 : DifferentiableOn ℝ (iteratedDerivWithin k (fun t => y t d) (Set.Ioo a b)) (Set.Ioo a b) :=
      (hcd d).differentiableOn_iteratedDerivWithin (by exact_mod_cast (by omega : k < q + 1)) isOpen_Ioo.uniqueDiffOn
    have h2 : DifferentiableAt ℝ (iteratedDerivWithin k (fun t => y t d) (Set.Ioo a b)) t :=
      h1.differentiableAt (isOpen_Ioo.mem_nhds (hsub ht))
    have h3 : iteratedDerivWithin k (fun t => y t d) (Set.Ioo a b) =ᶠ[nhds t] iteratedDeriv k (fun t => y t d) :=
      Filter.eventuallyEq_of_mem (isOpen_Ioo.mem_nhds (hsub ht)) fun z hz =>
        iteratedDerivWithin_of_isOpen isOpen_Ioo hz
    exact (h3.differentiableAt_iff.mp h2).hasDerivAt
  have hbd : ∀ d, ∃ M, ∀ t ∈ Set.Icc t₀ T, |iteratedDeriv (q + 1) (fun t => y t d) t| ≤ M := by
    intro d
    refine (isCompact_Icc (a := t₀) (b := T)).exists_bound_of_continuousOn
      (f := iteratedDeriv (q + 1) fun t => y t d) ?_
    have h1 : ContinuousOn (iteratedDerivWithin (q + 1) (fun t => y t d) (Set.Ioo a b)) (Set.Ioo a b) :=
      (hcd d).continuousOn_iteratedDerivWithin le_rfl isOpen_Ioo.uniqueDiffOn
    exact (h1.mono hsub).congr fun t ht => (iteratedDerivWithin_of_isOpen isOpen_Ioo (hsub ht)).symm
  choose M hM using hbd
  set W := (1 : ℝ) + ∑ i : Fin (p + 1), |c.A i.rev| + |c.Bn| + ∑ i : Fin (p + 1), |c.B i.rev| with hW
  have hsA : 0 ≤ ∑ i : Fin (p + 1), |c.A i.rev| := Finset.sum_nonneg fun _ _ => abs_nonneg _
  have hsB : 0 ≤ ∑ i : Fin (p + 1), |c.B i.rev| := Finset.sum_nonneg fun _ _ => abs_nonneg _
  have hW0 : 0 ≤ W := by have := abs_nonneg c.Bn; linarith
  refine ⟨(∑ d, |M d|) * ((p : ℝ) + 1) ^ (q + 1) * W,
    mul_nonneg (mul_nonneg (Finset.sum_nonneg fun _ _ => abs_nonneg _) (by positivity)) hW0, fun t h hh ht hT d => ?_⟩
  have hph : (0 : ℝ) ≤ p * h := by positivity
  set z := t - p * h with hz
  obtain ⟨G, hG, hGd⟩ := exists_taylor q (fun k => iteratedDeriv k (fun t => y t d) z) z
  have hzT : Set.Icc z (t + h) ⊆ Set.Icc t₀ T := fun x hx => ⟨ht.trans hx.1, hx.2.trans hT⟩
  set g : ℕ → ℝ → ℝ := fun k x => iteratedDeriv k (fun t => y t d) x - (derivative^[k] G).eval x with hg
  have hflat := small_of_flat (q := q) (g := g) (a := z) (b := t + h) (M := |M d|)
    (fun k hk x hx => by
      refine (hder d k hk x (hzT hx)).sub ?_
      rw [Function.iterate_succ_apply']
      exact Polynomial.hasDerivAt _ _)
    (fun k hk => by simp only [hg, hGd k hk, sub_self])
    (fun x hx => by
      have : derivative^[q + 1] G = 0 := iterate_derivative_eq_zero (by omega)
      simp only [hg, this, eval_zero, sub_zero]
      exact (hM d x (hzT hx)).trans (le_abs_self _))
  have hB0 : |M d| ≤ ∑ d, |M d| := Finset.single_le_sum (f := fun d => |M d|) (fun _ _ => abs_nonneg _) (Finset.mem_univ d)
  have hx1 : ∀ x ∈ Set.Icc z (t + h), x - z ≤ ((p : ℝ) + 1) * h := by
    intro x hx; have := hx.2; simp only [hz]; linarith
  have e0 : ∀ x ∈ Set.Icc z (t + h), |y x d - G.eval x| ≤ |M d| * (((p : ℝ) + 1) * h) ^ (q + 1) := by
    intro x hx
    have := hflat 0 (by omega) x hx
    simp only [hg, iteratedDeriv_zero, Function.iterate_zero, id_eq, Nat.sub_zero] at this
    exact this.trans (mul_le_mul_of_nonneg_left (pow_le_pow_left₀ (by linarith [hx.1]) (hx1 x hx) _) (abs_nonneg _))
  have e1 : ∀ x ∈ Set.Icc z (t + h), |f x (y x) d - (derivative G).eval x| ≤ |M d| * (((p : ℝ) + 1) * h) ^ q := by
    intro x hx
    have := hflat 1 (by omega) x hx
    have hdy : iteratedDeriv 1 (fun t => y t d) x = f x (y x) d := by
      rw [iteratedDeriv_one]
      exact (hasDerivAt_pi.mp (hy x (hsub (hzT hx))) d).deriv
    simp only [hg, hdy, Function.iterate_one, Nat.add_sub_cancel] at this
    exact this.trans (mul_le_mul_of_nonneg_left (pow_le_pow_left₀ (by linarith [hx.1]) (hx1 x hx) _) (abs_nonneg _))
  have hmem1 : t + h ∈ Set.Icc z (t + h) := ⟨by simp only [hz]; linarith, le_rfl⟩
  have hmem : ∀ i : Fin (p + 1), t - (i : ℕ) * h ∈ Set.Icc z (t + h) := by
    intro i
    have h1 : ((i : ℕ) : ℝ) ≤ p := by exact_mod_cast Nat.lt_succ_iff.mp i.isLt
    have h2 : ((i : ℕ) : ℝ) * h ≤ p * h := mul_le_mul_of_nonneg_right h1 hh
    have h3 : 0 ≤ ((i : ℕ) : ℝ) * h := by positivity
    exact ⟨by simp only [hz]; linarith, by linarith⟩
  have hexact := hc G hG t h
  set P0 := |M d| * (((p : ℝ) + 1) * h) ^ (q + 1) with hP0
  set P1 := |M d| * (((p : ℝ) + 1) * h) ^ q with hP1
  have hP1h : h * P1 ≤ P0 := by
    have : P0 = P1 * (((p : ℝ) + 1) * h) := by rw [hP0, hP1, pow_succ]; ring
    rw [this]
    have hP1n : 0 ≤ P1 := by positivity
    nlinarith [mul_nonneg hP1n hph]
  have hP0n : 0 ≤ P0 := by positivity
  have hsplit : y (t + h) d + ∑ i : Fin (p + 1), c.A i.rev * y (t - (i : ℕ) * h) d -
        h * (c.Bn * f (t + h) (y (t + h)) d + ∑ i : Fin (p + 1), c.B i.rev * f (t - (i : ℕ) * h) (y (t - (i : ℕ) * h)) d) =
      (y (t + h) d - G.eval (t + h)) + ∑ i : Fin (p + 1), c.A i.rev * (y (t - (i : ℕ) * h) d - G.eval (t - (i : ℕ) * h)) -
        h * (c.Bn * (f (t + h) (y (t + h)) d - (derivative G).eval (t + h)) + ∑ i : Fin (p + 1), c.B i.rev *
          (f (t - (i : ℕ) * h) (y (t - (i : ℕ) * h)) d - (derivative G).eval (t - (i : ℕ) * h))) := by
    simp only [mul_sub, Finset.sum_sub_distrib]
    linear_combination (1 : ℝ) * hexact
  rw [hsplit]
  have b1 : |∑ i : Fin (p + 1), c.A i.rev * (y (t - (i : ℕ) * h) d - G.eval (t - (i : ℕ) * h))| ≤
      (∑ i : Fin (p + 1), |c.A i.rev|) * P0 := by
    rw [Finset.sum_mul]
    refine (Finset.abs_sum_le_sum_abs _ _).trans (Finset.sum_le_sum fun i _ => ?_)
    rw [abs_mul]
    exact mul_le_mul_of_nonneg_left (e0 _ (hmem i)) (abs_nonneg _)
  have b2 : |∑ i : Fin (p + 1), c.B i.rev * (f (t - (i : ℕ) * h) (y (t - (i : ℕ) * h)) d -
      (derivative G).eval (t - (i : ℕ) * h))| ≤ (∑ i : Fin (p + 1), |c.B i.rev|) * P1 := by
    rw [Finset.sum_mul]
    refine (Finset.abs_sum_le_sum_abs _ _).trans (Finset.sum_le_sum fun i _ => ?_)
    rw [abs_mul]
    exact mul_le_mul_of_nonneg_left (e1 _ (hmem i)) (abs_nonneg _)
  have b3 : |c.Bn * (f (t + h) (y (t + h)) d - (derivative G).eval (t + h))| ≤ |c.Bn| * P1 := by
    rw [abs_mul]
    exact mul_le_mul_of_nonneg_left (e1 _ hmem1) (abs_nonneg _)
  have b4 := e0 _ hmem1
  have hfin : P0 * W ≤ (∑ d, |M d|) * ((p : ℝ) + 1) ^ (q + 1) * W * h ^ (q + 1) := by
    rw [hP0, mul_pow]
    have : |M d| * (((p : ℝ) + 1) ^ (q + 1) * h ^ (q + 1)) * W = |M d| * (((p : ℝ) + 1) ^ (q + 1) * h ^ (q + 1) * W) := by ring
    rw [this]
    refine (mul_le_mul_of_nonneg_right hB0 (by positivity)).trans (le_of_eq (by ring))
  refine le_trans ?_ hfin
  calc _ ≤ |y (t + h) d - G.eval (t + h)| +
        |∑ i : Fin (p + 1), c.A i.rev * (y (t - (i : ℕ) * h) d - G.eval (t - (i : ℕ) * h))| +
        h * (|c.Bn * (f (t + h) (y (t + h)) d - (derivative G).eval (t + h))| + |∑ i : Fin (p + 1), c.B i.rev *
          (f (t - (i : ℕ) * h) (y (t - (i : ℕ) * h)) d - (derivative G).eval (t - (i : ℕ) * h))|) := by
        refine (abs_sub _ _).trans (add_le_add (abs_add_le _ _) ?_)
        rw [abs_mul, abs_of_nonneg hh]
        exact mul_le_mul_of_nonneg_left (abs_add_le _ _) hh
    _ ≤ P0 + (∑ i : Fin (p + 1), |c.A i.rev|) * P0 + h * (|c.Bn| * P1 + (∑ i : Fin (p + 1), |c.B i.rev|) * P1) :=
        add_le_add (add_le_add b4 b1) (mul_le_mul_of_nonneg_left (add_le_add b3 b2) hh)
    _ = P0 + (∑ i : Fin (p + 1), |c.A i.rev|) * P0 + (|c.Bn| + ∑ i : Fin (p + 1), |c.B i.rev|) * (h * P1) := by ring
    _ ≤ P0 + (∑ i : Fin (p + 1), |c.A i.rev|) * P0 + (|c.Bn| + ∑ i : Fin (p + 1), |c.B i.rev|) * P0 :=
        add_le_add le_rfl (mul_le_mul_of_nonneg_left hP1h (add_nonneg (abs_nonneg _) hsB))
    _ = P0 * W := by rw [hW]; ring

end Nbkode
