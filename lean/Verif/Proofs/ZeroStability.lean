import Verif.Spec.MultistepError
import Mathlib.RingTheory.PowerSeries.Inverse
import Mathlib.Analysis.SpecialFunctions.Exp

/-! # Zero-stability: variation of constants and a discrete Gronwall inequality -/

set_option autoImplicit false
set_option linter.unusedSectionVars false

namespace Nbkode
open Spec PowerSeries

variable {p : ℕ}

/-- The generating polynomial of the recursion, as a power series. -/
noncomputable def genSeries (c : MultistepCoef ℝ p) : PowerSeries ℝ :=
  1 + ∑ i : Fin (p + 1), PowerSeries.C (c.A i.rev) * PowerSeries.X ^ (i.val + 1)

/-- What the recursion leaves at place `m`, with zeros before place 0. -/
def leftover (c : MultistepCoef ℝ p) (e : ℕ → ℝ) (m : ℕ) : ℝ :=
  e m + ∑ i : Fin (p + 1), if i.val + 1 ≤ m then c.A i.rev * e (m - (i.val + 1)) else 0

theorem coeff_genSeries_mul (c : MultistepCoef ℝ p) (x : PowerSeries ℝ) (m : ℕ) :
    coeff m (genSeries c * x) = leftover c (fun j => coeff j x) m := by
  unfold genSeries leftover
  rw [add_mul, one_mul, map_add, Finset.sum_mul, map_sum]
  congr 1
  refine Finset.sum_congr rfl fun i _ => ?_
  rw [mul_assoc, coeff_C_mul, coeff_X_pow_mul']
  split <;> simp

theorem genSeries_inv (c : MultistepCoef ℝ p) : genSeries c * (genSeries c)⁻¹ = 1 := by
  refine PowerSeries.mul_inv_cancel _ ?_
  simp [genSeries]

theorem inv_bounded {c : MultistepCoef ℝ p} (hc : ZeroStable c) : ∃ S, ∀ m, |coeff m (genSeries c)⁻¹| ≤ S := by
  obtain ⟨S, hS⟩ := hc (fun m => if m < p then 0 else coeff (m - p) (genSeries c)⁻¹) (by
    intro m
    have h := coeff_genSeries_mul c (genSeries c)⁻¹ (m + 1)
    rw [genSeries_inv, coeff_one, if_neg (by omega)] at h
    refine Eq.trans ?_ h.symm
    unfold leftover
    rw [if_neg (by omega)]
    congr 1
    · congr 2; omega
    · refine Finset.sum_congr rfl fun i _ => ?_
      have := i.isLt
      by_cases hi : i.val ≤ m
      · rw [if_neg (by omega), if_pos (by omega)]
        have e1 : m + p - i.val - p = m - i.val := by omega
        have e2 : m + 1 - (i.val + 1) = m - i.val := by omega
        simp only [e1, e2]
      · rw [if_pos (by omega), if_neg (by omega), mul_zero])
  refine ⟨S, fun m => ?_⟩
  have := hS (m + p)
  rwa [if_neg (by omega), Nat.add_sub_cancel] at this

/-- Variation of constants. -/
theorem le_sum_leftover {c : MultistepCoef ℝ p} (hc : ZeroStable c) :
    ∃ S, 0 ≤ S ∧ ∀ (e : ℕ → ℝ) (m : ℕ), |e m| ≤ S * ∑ j ∈ Finset.range (m + 1), |leftover c e j| := by
  obtain ⟨S, hS⟩ := inv_bounded hc
  refine ⟨S, (abs_nonneg _).trans (hS 0), fun e m => ?_⟩
  have h1 : genSeries c * mk e = mk (leftover c e) := by
    ext j
    rw [coeff_genSeries_mul, coeff_mk]
    simp
  have h2 : mk e = mk (leftover c e) * (genSeries c)⁻¹ := by
    rw [← h1, mul_assoc, mul_comm (mk e), ← mul_assoc, genSeries_inv, one_mul]
  have h3 : e m = ∑ j ∈ Finset.range (m + 1), leftover c e j * coeff (m - j) (genSeries c)⁻¹ := by
    have := congrArg (coeff m) h2
    rw [coeff_mk, coeff_mul, Finset.Nat.sum_antidiagonal_eq_sum_range_succ
      (fun i j => coeff i (mk (leftover c e)) * coeff j (genSeries c)⁻¹)] at this
    simpa using this
  rw [h3, Finset.mul_sum]
  refine (Finset.abs_sum_le_sum_abs _ _).trans (Finset.sum_le_sum fun j _ => ?_)
  rw [abs_mul, mul_comm]
  exact mul_le_mul_of_nonneg_right (hS _) (abs_nonneg _)

/-! ### Gronwall -/

theorem gronwall_sum {x : ℕ → ℝ} {a k : ℝ} (hk : 0 ≤ k) {M : ℕ}
    (h : ∀ m ≤ M, x m ≤ a + k * ∑ j ∈ Finset.range m, x j) : ∀ m ≤ M, x m ≤ a * (1 + k) ^ m := by
  intro m
  induction m using Nat.strong_induction_on with
  | _ m ih =>
    intro hm
    have h1 : ∑ j ∈ Finset.range m, x j ≤ ∑ j ∈ Finset.range m, a * (1 + k) ^ j :=
      Finset.sum_le_sum fun j hj => ih j (Finset.mem_range.mp hj) ((Finset.mem_range.mp hj).le.trans hm)
    have h2 : ∀ m, k * ∑ j ∈ Finset.range m, a * (1 + k) ^ j = a * (1 + k) ^ m - a := by
      intro m
      induction m with
      | zero => simp
      | succ m ih => rw [Finset.sum_range_succ, mul_add, ih, pow_succ]; ring
    have := mul_le_mul_of_nonneg_left h1 hk
    rw [h2] at this
    linarith [h m hm]

/-- The error of a stable recursion: `E` bounds the first `p + 1` terms, `τ` what is added in each step, `kap` times the
neighbouring terms what is added by the Lipschitz part. -/
theorem stable_bound {n : ℕ} {c : MultistepCoef ℝ p} (hc : ZeroStable c) : ∃ S, 0 ≤ S ∧
    ∀ (e : ℕ → Fin n → ℝ) (E τ kap : ℝ) (M : ℕ), 0 ≤ E → 0 ≤ τ → 0 ≤ kap → 2 * (S * kap * (|c.Bn| + ∑ i, |c.B i|)) ≤ 1 →
      (∀ j ≤ p, ‖e j‖ ≤ E) →
      (∀ j, p + j + 1 ≤ M → ∀ d, |e (p + j + 1) d + ∑ i : Fin (p + 1), c.A i.rev * e (p + j - i) d| ≤
        τ + kap * (|c.Bn| * ‖e (p + j + 1)‖ + ∑ i : Fin (p + 1), |c.B i.rev| * ‖e (p + j - i)‖)) →
      ∀ m ≤ M, ‖e m‖ ≤ 2 * S * (((p : ℝ) + 1) * (1 + ∑ i, |c.A i|) * E + M * τ) *
        Real.exp (2 * S * kap * (|c.Bn| + ∑ i, |c.B i|) * m) := by
  obtain ⟨S, hS0, hS⟩ := le_sum_leftover hc
  refine ⟨S, hS0, fun e E τ kap M hE hτ hk hsmall h0 hrec => ?_⟩
  set β := |c.Bn| + ∑ i, |c.B i| with hβ
  have hβ0 : 0 ≤ β := add_nonneg (abs_nonneg _) (Finset.sum_nonneg fun _ _ => abs_nonneg _)
  set α := 1 + ∑ i, |c.A i| with hα
  have hα1 : 1 ≤ α := le_add_of_nonneg_right (Finset.sum_nonneg fun _ _ => abs_nonneg _)
  have hrevA : ∑ i : Fin (p + 1), |c.A i.rev| = ∑ i, |c.A i| := Equiv.sum_comp Fin.revPerm fun i => |c.A i|
  have hrevB : ∑ i : Fin (p + 1), |c.B i.rev| = ∑ i, |c.B i| := Equiv.sum_comp Fin.revPerm fun i => |c.B i|
  -- the start
  have hstart : ∀ j ≤ p, ∀ d, |leftover c (fun i => e i d) j| ≤ α * E := by
    intro j hj d
    unfold leftover
    have hc' : ∀ i : Fin (p + 1), |if i.val + 1 ≤ j then c.A i.rev * e (j - (i.val + 1)) d else 0| ≤ |c.A i.rev| * E := by
      intro i
      split
      · rw [abs_mul]
        exact mul_le_mul_of_nonneg_left ((norm_le_pi_norm (e _) d).trans (h0 _ (by omega))) (abs_nonneg _)
      · rw [abs_zero]; exact mul_nonneg (abs_nonneg _) hE
    calc _ ≤ |e j d| + |∑ i : Fin (p + 1), if i.val + 1 ≤ j then c.A i.rev * e (j - (i.val + 1)) d else 0| := abs_add_le _ _
      _ ≤ E + ∑ i : Fin (p + 1), |c.A i.rev| * E :=
        add_le_add ((norm_le_pi_norm (e _) d).trans (h0 _ hj)) ((Finset.abs_sum_le_sum_abs _ _).trans
          (Finset.sum_le_sum fun i _ => hc' i))
      _ = α * E := by rw [← Finset.sum_mul, hrevA, hα]; ring
  have hlater : ∀ j, p + j + 1 ≤ M → ∀ d, |leftover c (fun i => e i d) (p + j + 1)| ≤
      τ + kap * (|c.Bn| * ‖e (p + j + 1)‖ + ∑ i : Fin (p + 1), |c.B i.rev| * ‖e (p + j - i)‖) := by
    intro j hj d
    refine le_trans (le_of_eq ?_) (hrec j hj d)
    unfold leftover
    congr 2
    refine Finset.sum_congr rfl fun i _ => ?_
    have := i.isLt
    have e1 : p + j + 1 - (i.val + 1) = p + j - i.val := by omega
    rw [if_pos (by omega), e1]
  -- all together
  have hall : ∀ j ≤ M, ∀ d, |leftover c (fun i => e i d) j| ≤ (if j ≤ p then α * E else τ) +
      kap * (|c.Bn| * ‖e j‖ + ∑ i : Fin (p + 1), |c.B i.rev| * if i.val + 1 ≤ j then ‖e (j - (i.val + 1))‖ else 0) := by
    intro j hj d
    have hnn : 0 ≤ kap * (|c.Bn| * ‖e j‖ + ∑ i : Fin (p + 1), |c.B i.rev| *
        if i.val + 1 ≤ j then ‖e (j - (i.val + 1))‖ else 0) := by
      refine mul_nonneg hk (add_nonneg (by positivity) (Finset.sum_nonneg fun i _ => mul_nonneg (abs_nonneg _) ?_))
      split <;> positivity
    by_cases hp : j ≤ p
    · rw [if_pos hp]
      exact (hstart j hp d).trans (le_add_of_nonneg_right hnn)
    · obtain ⟨j', rfl⟩ : ∃ j', j = p + j' + 1 := ⟨j - p - 1, by omega⟩
      rw [if_neg hp]
      refine (hlater j' hj d).trans (le_of_eq ?_)
      congr 3
      refine Finset.sum_congr rfl fun i _ => ?_
      have := i.isLt
      rw [if_pos (by omega)]
      congr 3
      omega
  -- summed
  have hsum : ∀ m ≤ M, ‖e m‖ ≤ S * (((p : ℝ) + 1) * α * E + M * τ) +
      S * kap * β * ∑ j ∈ Finset.range (m + 1), ‖e j‖ := by
    intro m hm
    have hshift : ∀ i : Fin (p + 1), ∑ j ∈ Finset.range (m + 1), (if i.val + 1 ≤ j then ‖e (j - (i.val + 1))‖ else 0) ≤
        ∑ j ∈ Finset.range (m + 1), ‖e j‖ := by
      intro i
      rw [← Finset.sum_filter]
      refine (le_of_eq (Finset.sum_image (f := fun j => ‖e j‖) (g := fun j => j - (i.val + 1)) ?_).symm).trans
        (Finset.sum_le_sum_of_subset_of_nonneg ?_ fun _ _ _ => norm_nonneg _)
      · intro x hx y hy h
        simp only [Finset.coe_filter, Finset.mem_range, Set.mem_ofPred_eq] at hx hy h
        omega
      · intro x hx
        simp only [Finset.mem_image, Finset.mem_filter, Finset.mem_range] at hx ⊢
        omega
    have hconst : ∑ j ∈ Finset.range (m + 1), (if j ≤ p then α * E else τ) ≤ ((p : ℝ) + 1) * α * E + M * τ := by
      have hαE : 0 ≤ α * E := mul_nonneg (zero_le_one.trans hα1) hE
      have h1 : ∀ m' ≤ m, ∑ j ∈ Finset.range (m' + 1), (if j ≤ p then α * E else τ) ≤
          (min (m' : ℝ) p + 1) * (α * E) + m' * τ := by
        intro m' _
        induction m' with
        | zero => simp
        | succ m' ih =>
          rw [Finset.sum_range_succ]
          have ih := ih (by omega)
          by_cases hp : m' + 1 ≤ p
          · rw [if_pos hp]
            have e1 : min (((m' + 1 : ℕ) : ℝ)) (p : ℝ) = (m' : ℝ) + 1 := by
              rw [min_eq_left (by exact_mod_cast hp)]; push_cast; ring
            have e2 : min ((m' : ℝ)) (p : ℝ) = (m' : ℝ) := min_eq_left (by exact_mod_cast (by omega : m' ≤ p))
            rw [e1]; rw [e2] at ih
            push_cast
            nlinarith
          · rw [if_neg hp]
            have e1 : min (((m' + 1 : ℕ) : ℝ)) (p : ℝ) = (p : ℝ) := min_eq_right (by exact_mod_cast (by omega : p ≤ m' + 1))
            have e2 : min ((m' : ℝ)) (p : ℝ) = (p : ℝ) := min_eq_right (by exact_mod_cast (by omega : p ≤ m'))
            rw [e1]; rw [e2] at ih
            push_cast
            nlinarith
      refine (h1 m le_rfl).trans ?_
      have h2 : (min (m : ℝ) p + 1) * (α * E) ≤ ((p : ℝ) + 1) * (α * E) :=
        mul_le_mul_of_nonneg_right (by linarith [min_le_right (m : ℝ) p]) hαE
      have h3 : (m : ℝ) * τ ≤ M * τ := mul_le_mul_of_nonneg_right (by exact_mod_cast hm) hτ
      linarith
    have hnn : 0 ≤ S * (((p : ℝ) + 1) * α * E + M * τ) + S * kap * β * ∑ j ∈ Finset.range (m + 1), ‖e j‖ := by
      have : 0 ≤ ∑ j ∈ Finset.range (m + 1), ‖e j‖ := Finset.sum_nonneg fun _ _ => norm_nonneg _
      positivity
    refine (pi_norm_le_iff_of_nonneg hnn).mpr fun d => ?_
    refine (hS (fun i => e i d) m).trans ?_
    have h1 : ∑ j ∈ Finset.range (m + 1), |leftover c (fun i => e i d) j| ≤ ((p : ℝ) + 1) * α * E + M * τ +
        kap * β * ∑ j ∈ Finset.range (m + 1), ‖e j‖ := by
      calc _ ≤ ∑ j ∈ Finset.range (m + 1), ((if j ≤ p then α * E else τ) + kap * (|c.Bn| * ‖e j‖ +
              ∑ i : Fin (p + 1), |c.B i.rev| * if i.val + 1 ≤ j then ‖e (j - (i.val + 1))‖ else 0)) :=
            Finset.sum_le_sum fun j hj => hall j (by have := Finset.mem_range.mp hj; omega) d
        _ = ∑ j ∈ Finset.range (m + 1), (if j ≤ p then α * E else τ) + kap * (|c.Bn| * ∑ j ∈ Finset.range (m + 1), ‖e j‖ +
              ∑ i : Fin (p + 1), |c.B i.rev| * ∑ j ∈ Finset.range (m + 1),
                if i.val + 1 ≤ j then ‖e (j - (i.val + 1))‖ else 0) := by
            rw [Finset.sum_add_distrib, ← Finset.mul_sum, Finset.sum_add_distrib, ← Finset.mul_sum, Finset.sum_comm]
            simp only [Finset.mul_sum]
        _ ≤ ((p : ℝ) + 1) * α * E + M * τ + kap * (|c.Bn| * ∑ j ∈ Finset.range (m + 1), ‖e j‖ +
              ∑ i : Fin (p + 1), |c.B i.rev| * ∑ j ∈ Finset.range (m + 1), ‖e j‖) := by
            refine add_le_add hconst (mul_le_mul_of_nonneg_left (add_le_add le_rfl (Finset.sum_le_sum fun i _ =>
              mul_le_mul_of_nonneg_left (hshift i) (abs_nonneg _))) hk)
        _ = _ := by
            rw [← Finset.sum_mul, hrevB, ← add_mul, ← hβ]; ring
    calc _ ≤ S * (((p : ℝ) + 1) * α * E + M * τ + kap * β * ∑ j ∈ Finset.range (m + 1), ‖e j‖) :=
          mul_le_mul_of_nonneg_left h1 hS0
      _ = _ := by ring
  -- the last term is absorbed
  have hκ : 0 ≤ S * kap * β := by positivity
  have hgron : ∀ m ≤ M, ‖e m‖ ≤ 2 * S * (((p : ℝ) + 1) * α * E + M * τ) +
      2 * S * kap * β * ∑ j ∈ Finset.range m, ‖e j‖ := by
    intro m hm
    have h1 := hsum m hm
    rw [Finset.sum_range_succ] at h1
    have h2 : S * kap * β * ‖e m‖ ≤ 1 / 2 * ‖e m‖ := mul_le_mul_of_nonneg_right (by linarith) (norm_nonneg _)
    linarith [mul_add (S * kap * β) (∑ j ∈ Finset.range m, ‖e j‖) ‖e m‖]
  intro m hm
  refine (gronwall_sum (by positivity) hgron m hm).trans ?_
  refine mul_le_mul_of_nonneg_left ?_ (by positivity)
  have h1 : 1 + 2 * S * kap * β ≤ Real.exp (2 * S * kap * β) := by linarith [Real.add_one_le_exp (2 * S * kap * β)]
  refine (pow_le_pow_left₀ (by positivity) h1 m).trans (le_of_eq ?_)
  rw [← Real.exp_nat_mul]
  congr 1
  ring

end Nbkode
