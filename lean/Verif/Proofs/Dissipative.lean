import Verif.Spec.Dissipative
import Mathlib.Analysis.InnerProductSpace.PiL2
import Mathlib.Tactic.Linarith
import Mathlib.Tactic.LinearCombination

/-! Stability of single steps on dissipative problems, in any inner product space. -/

set_option autoImplicit false
set_option linter.unusedSectionVars false

namespace Nbkode
open Spec

section inner
variable {E : Type} [NormedAddCommGroup E] [InnerProductSpace ℝ E]
local notation "⟪" x ", " y "⟫" => inner ℝ x y

theorem le_of_sq_le {x a b : ℝ} (hx : 0 ≤ x) (ha : 0 ≤ a) (hb : 0 ≤ b) (h : x ^ 2 ≤ a ^ 2 + b * x) : x ≤ a + b := by
  by_contra hc
  push Not at hc
  nlinarith

theorem le_of_sq_le_sq {a b : ℝ} (h : a ^ 2 ≤ b ^ 2) (hb : 0 ≤ b) : a ≤ b := by
  by_contra hc
  push Not at hc
  nlinarith

/-- Backward Euler: `d' = d + h g + r` with `⟪g, d'⟫ ≤ 0`. -/
theorem backward_contracts {d d' g r : E} {h : ℝ} (hh : 0 ≤ h) (hg : ⟪g, d'⟫ ≤ 0) (e : d' = d + h • g + r) : ‖d'‖ ≤ ‖d‖ + ‖r‖ := by
  have h1 : ‖d'‖ ^ 2 = ⟪d, d'⟫ + h * ⟪g, d'⟫ + ⟪r, d'⟫ := by
    have := congrArg (fun x => ⟪x, d'⟫) e
    simp only [inner_add_left, inner_smul_left, real_inner_self_eq_norm_sq] at this
    simpa using this
  have h2 := real_inner_le_norm d d'
  have h3 := real_inner_le_norm r d'
  have h4 : h * ⟪g, d'⟫ ≤ 0 := mul_nonpos_of_nonneg_of_nonpos hh hg
  refine le_trans (le_of_sq_le (a := 0) (b := ‖d‖ + ‖r‖) (norm_nonneg _) le_rfl (by positivity) ?_) (by linarith)
  rw [h1]; nlinarith

/-- `‖d + g‖ ≤ ‖d - g‖` if `⟪g, d⟫ ≤ 0`. -/
theorem norm_add_le_norm_sub {d g : E} (hg : ⟪g, d⟫ ≤ 0) : ‖d + g‖ ≤ ‖d - g‖ := by
  have h1 := norm_add_sq_real d g
  have h2 := norm_sub_sq_real d g
  rw [real_inner_comm] at hg
  exact le_of_sq_le_sq (by rw [h1, h2]; linarith) (norm_nonneg _)

theorem norm_le_norm_sub {d g : E} (hg : ⟪g, d⟫ ≤ 0) : ‖d‖ ≤ ‖d - g‖ := by
  have h2 := norm_sub_sq_real d g
  rw [real_inner_comm] at hg
  refine le_of_sq_le_sq ?_ (norm_nonneg _)
  rw [h2]
  nlinarith [sq_nonneg ‖g‖]

/-- BDF2: `3 d2 - 4 d1 + d0 = 2 h g + 3 r` with `⟪g, d2⟫ ≤ 0`. -/
theorem bdf2_contracts {d0 d1 d2 g r : E} {h : ℝ} (hh : 0 ≤ h) (hg : ⟪g, d2⟫ ≤ 0)
    (e : d2 = (4 / 3 : ℝ) • d1 - (1 / 3 : ℝ) • d0 + (h * (2 / 3)) • g + r) :
    Real.sqrt (‖d2‖ ^ 2 + ‖(2 : ℝ) • d2 - d1‖ ^ 2) ≤ Real.sqrt (‖d1‖ ^ 2 + ‖(2 : ℝ) • d1 - d0‖ ^ 2) + 6 * ‖r‖ := by
  have i1 : ‖d2‖ ^ 2 = (4 / 3) * ⟪d1, d2⟫ - (1 / 3) * ⟪d0, d2⟫ + h * (2 / 3) * ⟪g, d2⟫ + ⟪r, d2⟫ := by
    have := congrArg (fun x => ⟪x, d2⟫) e
    simp only [inner_add_left, inner_sub_left, inner_smul_left, real_inner_self_eq_norm_sq] at this
    simpa using this
  have h4 : h * (2 / 3) * ⟪g, d2⟫ ≤ 0 := mul_nonpos_of_nonneg_of_nonpos (by positivity) hg
  have h5 := real_inner_le_norm r d2
  have n1 : ‖(2 : ℝ) • d2 - d1‖ ^ 2 = 4 * ‖d2‖ ^ 2 - 4 * ⟪d1, d2⟫ + ‖d1‖ ^ 2 := by
    rw [norm_sub_sq_real, norm_smul, inner_smul_left, real_inner_comm]
    norm_num
    ring
  have n2 : ‖(2 : ℝ) • d1 - d0‖ ^ 2 = 4 * ‖d1‖ ^ 2 - 4 * ⟪d0, d1⟫ + ‖d0‖ ^ 2 := by
    rw [norm_sub_sq_real, norm_smul, inner_smul_left, real_inner_comm]
    norm_num
    ring
  have n3 : 0 ≤ ‖d2 - (2 : ℝ) • d1 + d0‖ ^ 2 := sq_nonneg _
  have n4 : ‖d2 - (2 : ℝ) • d1 + d0‖ ^ 2 = ‖d2‖ ^ 2 + 4 * ‖d1‖ ^ 2 + ‖d0‖ ^ 2 - 4 * ⟪d1, d2⟫ + 2 * ⟪d0, d2⟫ - 4 * ⟪d0, d1⟫ := by
    rw [norm_add_sq_real, norm_sub_sq_real, norm_smul, inner_sub_left, inner_smul_left, inner_smul_right, real_inner_comm d1 d2,
      real_inner_comm d0 d2, real_inner_comm d0 d1]
    norm_num
    ring
  set x := ‖d2‖ ^ 2 + ‖(2 : ℝ) • d2 - d1‖ ^ 2 with hx
  set a := ‖d1‖ ^ 2 + ‖(2 : ℝ) • d1 - d0‖ ^ 2 with ha
  have hx0 : 0 ≤ x := by positivity
  have ha0 : 0 ≤ a := by positivity
  have hd : ‖d2‖ ≤ Real.sqrt x := Real.le_sqrt_of_sq_le (by rw [hx]; nlinarith [sq_nonneg ‖(2 : ℝ) • d2 - d1‖])
  refine le_of_sq_le (Real.sqrt_nonneg _) (Real.sqrt_nonneg _) (by positivity) ?_
  rw [Real.sq_sqrt hx0, Real.sq_sqrt ha0]
  have h6 : x ≤ a + 6 * (‖r‖ * ‖d2‖) := by
    rw [hx, ha, n1, n2]
    nlinarith
  have h7 : ‖r‖ * ‖d2‖ ≤ ‖r‖ * Real.sqrt x := mul_le_mul_of_nonneg_left hd (norm_nonneg _)
  linarith

theorem backward_steps {d g : ℕ → E} {h τ : ℝ} (hh : 0 ≤ h) (N : ℕ) (hg : ∀ k, ⟪g (k + 1), d (k + 1)⟫ ≤ 0)
    (hd : ∀ k < N, ∃ r, ‖r‖ ≤ τ ∧ d (k + 1) = d k + h • g (k + 1) + r) : ‖d N‖ ≤ ‖d 0‖ + N * τ := by
  have key : ∀ k ≤ N, ‖d k‖ ≤ ‖d 0‖ + k * τ := by
    intro k
    induction k with
    | zero => simp
    | succ k ih =>
      intro hk
      obtain ⟨r, hr, e⟩ := hd k (by omega)
      have := backward_contracts hh (hg k) e
      have := ih (by omega)
      push_cast
      linarith
  exact key N le_rfl

theorem trapezoid_steps {d g : ℕ → E} {h τ : ℝ} (hh : 0 ≤ h) (N : ℕ) (hg : ∀ k, ⟪g k, d k⟫ ≤ 0)
    (hd : ∀ k < N, ∃ r, ‖r‖ ≤ τ ∧ d (k + 1) = d k + (h / 2) • (g k + g (k + 1)) + r) :
    ‖d N‖ ≤ ‖d 0‖ + h / 2 * ‖g 0‖ + N * τ := by
  have hg' : ∀ k, ⟪(h / 2) • g k, d k⟫ ≤ 0 := fun k => by
    rw [inner_smul_left]
    exact mul_nonpos_of_nonneg_of_nonpos (by simpa using div_nonneg hh zero_le_two) (hg k)
  have key : ∀ k ≤ N, ‖d k - (h / 2) • g k‖ ≤ ‖d 0 - (h / 2) • g 0‖ + k * τ := by
    intro k
    induction k with
    | zero => simp
    | succ k ih =>
      intro hk
      obtain ⟨r, hr, e⟩ := hd k (by omega)
      have e' : d (k + 1) - (h / 2) • g (k + 1) = (d k + (h / 2) • g k) + r := by
        rw [e, smul_add]; abel
      have h1 := norm_add_le (d k + (h / 2) • g k) r
      have h2 := norm_add_le_norm_sub (hg' k)
      have := ih (by omega)
      rw [e']
      push_cast
      linarith
  have h0 := norm_sub_le (d 0) ((h / 2) • g 0)
  rw [norm_smul, Real.norm_of_nonneg (by positivity)] at h0
  have := norm_le_norm_sub (hg' N)
  have := key N le_rfl
  linarith

theorem bdf2_steps {d e g : ℕ → E} {h τ : ℝ} (hh : 0 ≤ h) (N : ℕ) (hg : ∀ k, ⟪g (k + 1), d (k + 1)⟫ ≤ 0)
    (he : ∀ k < N, e (k + 1) = d k)
    (hd : ∀ k < N, ∃ r, ‖r‖ ≤ τ ∧ d (k + 1) = (4 / 3 : ℝ) • d k - (1 / 3 : ℝ) • e k + (h * (2 / 3)) • g (k + 1) + r) :
    ‖d N‖ ≤ Real.sqrt (‖d 0‖ ^ 2 + ‖(2 : ℝ) • d 0 - e 0‖ ^ 2) + N * (6 * τ) := by
  have key : ∀ k ≤ N, Real.sqrt (‖d k‖ ^ 2 + ‖(2 : ℝ) • d k - e k‖ ^ 2) ≤
      Real.sqrt (‖d 0‖ ^ 2 + ‖(2 : ℝ) • d 0 - e 0‖ ^ 2) + k * (6 * τ) := by
    intro k
    induction k with
    | zero => simp
    | succ k ih =>
      intro hk
      obtain ⟨r, hr, e'⟩ := hd k (by omega)
      have h1 := bdf2_contracts hh (hg k) e'
      rw [he k (by omega)]
      have := ih (by omega)
      push_cast
      linarith
  refine le_trans (Real.le_sqrt_of_sq_le ?_) (key N le_rfl)
  nlinarith [sq_nonneg ‖(2 : ℝ) • d N - e N‖]

end inner

variable {n : Nat}

/-- A vector as a point of Euclidean space. -/
noncomputable def toE (v : Vec ℝ n) : EuclideanSpace ℝ (Fin n) := WithLp.toLp 2 v

theorem toE_norm (v : Vec ℝ n) : ‖toE v‖ = length v := by
  simp [toE, EuclideanSpace.norm_eq, length]

theorem toE_inner (v w : Vec ℝ n) : inner ℝ (toE v) (toE w) = ∑ i, v i * w i := by
  simp [toE, PiLp.inner_apply, mul_comm]

theorem toE_ext {v w : EuclideanSpace ℝ (Fin n)} (h : ∀ i, v i = w i) : v = w := by
  ext i; exact h i

theorem toE_apply (v : Vec ℝ n) (i : Fin n) : toE v i = v i := rfl

end Nbkode
