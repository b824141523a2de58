import Mathlib.Tactic.Linarith
import Mathlib.Tactic.FieldSimp
import Mathlib.Tactic.Ring
import Mathlib.Analysis.SpecialFunctions.Sqrt

/-! Recurrences of second order. -/

set_option autoImplicit false

namespace Nbkode

/-- A quadratic form which each step of the recurrence changes by a square. -/
theorem lyapunov {a b y0 y1 y2 : ℝ} (h : y2 = a * y1 - b * y0) :
    (1 + b) * (y2 ^ 2 + y1 ^ 2) - 2 * a * y2 * y1 = (1 + b) * (y1 ^ 2 + y0 ^ 2) - 2 * a * y1 * y0 - (1 - b) * (y2 - y0) ^ 2 := by
  subst h; ring

theorem form_lower {a b y0 y1 : ℝ} : (1 + b - |a|) * (y1 ^ 2 + y0 ^ 2) ≤ (1 + b) * (y1 ^ 2 + y0 ^ 2) - 2 * a * y1 * y0 := by
  rcases abs_cases a with ⟨h, h0⟩ | ⟨h, h0⟩ <;> rw [h]
  · nlinarith [mul_nonneg h0 (sq_nonneg (y1 - y0))]
  · nlinarith [mul_nonneg (neg_nonneg.mpr h0.le) (sq_nonneg (y1 + y0))]

theorem form_upper {a b y0 y1 : ℝ} : (1 + b) * (y1 ^ 2 + y0 ^ 2) - 2 * a * y1 * y0 ≤ (1 + b + |a|) * (y1 ^ 2 + y0 ^ 2) := by
  rcases abs_cases a with ⟨h, h0⟩ | ⟨h, h0⟩ <;> rw [h]
  · nlinarith [mul_nonneg h0 (sq_nonneg (y1 + y0))]
  · nlinarith [mul_nonneg (neg_nonneg.mpr h0.le) (sq_nonneg (y1 - y0))]

/-- The form is monotone along the recurrence. -/
theorem form_decreases {a b : ℝ} (hb : b ≤ 1) {z : ℕ → ℝ} (hz : ∀ j, z (j + 2) = a * z (j + 1) - b * z j) (N : ℕ) :
    (1 + b) * (z (N + 1) ^ 2 + z N ^ 2) - 2 * a * z (N + 1) * z N ≤ (1 + b) * (z 1 ^ 2 + z 0 ^ 2) - 2 * a * z 1 * z 0 := by
  induction N with
  | zero => exact le_refl _
  | succ N ih =>
    refine le_trans ?_ ih
    rw [lyapunov (hz N)]
    have := mul_nonneg (sub_nonneg.mpr hb) (sq_nonneg (z (N + 2) - z N))
    linarith

theorem form_increases {a b : ℝ} (hb : 1 ≤ b) {z : ℕ → ℝ} (hz : ∀ j, z (j + 2) = a * z (j + 1) - b * z j) (N : ℕ) :
    (1 + b) * (z 1 ^ 2 + z 0 ^ 2) - 2 * a * z 1 * z 0 ≤ (1 + b) * (z (N + 1) ^ 2 + z N ^ 2) - 2 * a * z (N + 1) * z N := by
  induction N with
  | zero => exact le_refl _
  | succ N ih =>
    refine le_trans ih ?_
    rw [lyapunov (hz N)]
    have := mul_nonneg (sub_nonneg.mpr hb) (sq_nonneg (z (N + 2) - z N))
    linarith

theorem sq_le_sum {u v : ℝ} : u ^ 2 + v ^ 2 ≤ (|u| + |v|) ^ 2 := by
  nlinarith [sq_abs u, sq_abs v, mul_nonneg (abs_nonneg u) (abs_nonneg v)]

theorem sum_le_sq {u v : ℝ} : (|u| + |v|) ^ 2 ≤ 2 * (u ^ 2 + v ^ 2) := by
  nlinarith [sq_abs u, sq_abs v, sq_nonneg (|u| - |v|)]

/-- Scaling a recurrence. -/
theorem rec_scale {a b ρ : ℝ} (hρ : ρ ≠ 0) {y : ℕ → ℝ} (hy : ∀ j, y (j + 2) = a * y (j + 1) - b * y j) (j : ℕ) :
    y (j + 2) / ρ ^ (j + 2) = a / ρ * (y (j + 1) / ρ ^ (j + 1)) - b / ρ ^ 2 * (y j / ρ ^ j) := by
  rw [hy]
  field_simp
  ring

/-- Both roots of `r^2 - a r + b` inside the unit circle: the recurrence decays. -/
theorem rec_decays {a b : ℝ} (hb : |b| < 1) (ha : |a| < 1 + b) : ∃ K ρ, 0 < ρ ∧ ρ < 1 ∧ ∀ y : ℕ → ℝ,
    (∀ j, y (j + 2) = a * y (j + 1) - b * y j) → ∀ N, |y N| ≤ K * ρ ^ N * (|y 1| + |y 0|) := by
  obtain ⟨δ, d0, d1, d2, d3⟩ : ∃ δ : ℝ, 0 < δ ∧ δ ≤ 1 / 4 ∧ 2 * δ < 1 - |b| ∧ 2 * δ < 1 + b - |a| := by
    refine ⟨min ((1 - |b|) / 4) ((1 + b - |a|) / 4), lt_min (by linarith) (by linarith), ?_, ?_, ?_⟩
    · exact (min_le_left _ _).trans (by linarith [abs_nonneg b])
    · have := min_le_left ((1 - |b|) / 4) ((1 + b - |a|) / 4); linarith
    · have := min_le_right ((1 - |b|) / 4) ((1 + b - |a|) / 4); linarith
  have r0 : 0 < 1 - δ := by linarith
  have r2 : 1 - 2 * δ < (1 - δ) ^ 2 := by nlinarith
  have hρ2 : 0 < (1 - δ) ^ 2 := by positivity
  have hb' : b / (1 - δ) ^ 2 ≤ 1 := by
    rw [div_le_one hρ2]; linarith [le_abs_self b]
  have ha' : 0 < 1 + b / (1 - δ) ^ 2 - |a / (1 - δ)| := by
    rw [abs_div, abs_of_pos r0]
    have : 0 < ((1 - δ) ^ 2 + b - |a| * (1 - δ)) / (1 - δ) ^ 2 := by
      apply div_pos _ hρ2
      nlinarith [mul_nonneg (abs_nonneg a) d0.le]
    have e : 1 + b / (1 - δ) ^ 2 - |a| / (1 - δ) = ((1 - δ) ^ 2 + b - |a| * (1 - δ)) / (1 - δ) ^ 2 := by field_simp
    rw [e]; exact this
  set m := 1 + b / (1 - δ) ^ 2 - |a / (1 - δ)| with hm
  set M := 1 + b / (1 - δ) ^ 2 + |a / (1 - δ)| with hM
  have hM0 : 0 ≤ M := by have := abs_nonneg (a / (1 - δ)); linarith
  refine ⟨Real.sqrt (M / m) / (1 - δ), 1 - δ, r0, by linarith, fun y hy N => ?_⟩
  have key := form_decreases hb' (z := fun j => y j / (1 - δ) ^ j) (fun j => rec_scale r0.ne' hy j) N
  have k1 := (form_lower (a := a / (1 - δ)) (b := b / (1 - δ) ^ 2) (y0 := y N / (1 - δ) ^ N) (y1 := y (N + 1) / (1 - δ) ^ (N + 1))).trans key
  have k2 := k1.trans form_upper
  have k3 : (y N / (1 - δ) ^ N) ^ 2 ≤ M / m * (((|y 1| + |y 0|) / (1 - δ)) ^ 2) := by
    have e1 : (y 1 / (1 - δ) ^ 1) ^ 2 + (y 0 / (1 - δ) ^ 0) ^ 2 ≤ ((|y 1| + |y 0|) / (1 - δ)) ^ 2 := by
      rw [pow_one, pow_zero, div_one, div_pow, div_pow, ← sub_nonneg]
      have : (|y 1| + |y 0|) ^ 2 / (1 - δ) ^ 2 - (y 1 ^ 2 / (1 - δ) ^ 2 + y 0 ^ 2) =
        ((|y 1| + |y 0|) ^ 2 - y 1 ^ 2 - (1 - δ) ^ 2 * y 0 ^ 2) / (1 - δ) ^ 2 := by field_simp; ring
      rw [this]
      refine div_nonneg ?_ hρ2.le
      have h1 : (1 - δ) ^ 2 ≤ 1 := by nlinarith
      nlinarith [sq_le_sum (u := y 1) (v := y 0), mul_nonneg (sub_nonneg.mpr h1) (sq_nonneg (y 0))]
    rw [div_mul_eq_mul_div, le_div_iff₀ ha']
    have e2 : M * ((y 1 / (1 - δ) ^ 1) ^ 2 + (y 0 / (1 - δ) ^ 0) ^ 2) ≤ M * ((|y 1| + |y 0|) / (1 - δ)) ^ 2 :=
      mul_le_mul_of_nonneg_left e1 hM0
    have e3 := mul_nonneg ha'.le (sq_nonneg (y (N + 1) / (1 - δ) ^ (N + 1)))
    nlinarith
  have k4 : |y N / (1 - δ) ^ N| ≤ Real.sqrt (M / m) * ((|y 1| + |y 0|) / (1 - δ)) := by
    have h1 : 0 ≤ (|y 1| + |y 0|) / (1 - δ) := by positivity
    rw [← Real.sqrt_sq h1, ← Real.sqrt_mul (div_nonneg hM0 ha'.le), ← Real.sqrt_sq_eq_abs]
    exact Real.sqrt_le_sqrt k3
  rw [abs_div, abs_of_pos (pow_pos r0 N), div_le_iff₀ (pow_pos r0 N)] at k4
  refine k4.trans (le_of_eq ?_)
  ring

/-- Both roots outside: it grows. -/
theorem rec_explodes {a b : ℝ} (hb : 1 < b) (ha : |a| < 1 + b) : ∃ K ρ, 0 < K ∧ 1 < ρ ∧ ∀ y : ℕ → ℝ,
    (∀ j, y (j + 2) = a * y (j + 1) - b * y j) → ∀ N, K * ρ ^ N * (|y 1| + |y 0|) ≤ |y N| + |y (N + 1)| := by
  obtain ⟨δ, d0, d1, d2, d3⟩ : ∃ δ : ℝ, 0 < δ ∧ δ ≤ 1 ∧ 3 * δ < b - 1 ∧ |a| * δ < 1 + b - |a| := by
    refine ⟨min (min 1 ((b - 1) / 4)) ((1 + b - |a|) / (|a| + 1)), lt_min (lt_min one_pos (by linarith)) (div_pos (by linarith) (by positivity)), ?_, ?_, ?_⟩
    · exact (min_le_left _ _).trans (min_le_left _ _)
    · have := (min_le_left (min 1 ((b - 1) / 4)) ((1 + b - |a|) / (|a| + 1))).trans (min_le_right _ _); linarith
    · have h1 := min_le_right (min 1 ((b - 1) / 4)) ((1 + b - |a|) / (|a| + 1))
      have h2 : |a| * ((1 + b - |a|) / (|a| + 1)) < 1 + b - |a| := by
        rw [← mul_div_assoc, div_lt_iff₀ (by positivity)]
        nlinarith [abs_nonneg a]
      exact lt_of_le_of_lt (mul_le_mul_of_nonneg_left h1 (abs_nonneg a)) h2
  have r0 : 0 < 1 + δ := by linarith
  have r2 : (1 + δ) ^ 2 ≤ 1 + 3 * δ := by nlinarith
  have hρ2 : 0 < (1 + δ) ^ 2 := by positivity
  have hb' : 1 ≤ b / (1 + δ) ^ 2 := by
    rw [le_div_iff₀ hρ2]; linarith
  have ha' : 0 < 1 + b / (1 + δ) ^ 2 - |a / (1 + δ)| := by
    rw [abs_div, abs_of_pos r0]
    have : 0 < ((1 + δ) ^ 2 + b - |a| * (1 + δ)) / (1 + δ) ^ 2 := by
      apply div_pos _ hρ2
      nlinarith
    have e : 1 + b / (1 + δ) ^ 2 - |a| / (1 + δ) = ((1 + δ) ^ 2 + b - |a| * (1 + δ)) / (1 + δ) ^ 2 := by field_simp
    rw [e]; exact this
  set m := 1 + b / (1 + δ) ^ 2 - |a / (1 + δ)| with hm
  set M := 1 + b / (1 + δ) ^ 2 + |a / (1 + δ)| with hM
  have hM0 : 0 < M := by have := abs_nonneg (a / (1 + δ)); linarith
  refine ⟨Real.sqrt (m / M / 2) / (1 + δ), 1 + δ, div_pos (Real.sqrt_pos.mpr (by positivity)) r0, by linarith, fun y hy N => ?_⟩
  have key := form_increases hb' (z := fun j => y j / (1 + δ) ^ j) (fun j => rec_scale r0.ne' hy j) N
  have k1 := (form_lower (a := a / (1 + δ)) (b := b / (1 + δ) ^ 2) (y0 := y 0 / (1 + δ) ^ 0) (y1 := y 1 / (1 + δ) ^ 1)).trans key
  have k2 := k1.trans form_upper
  have p0 : 0 < (1 + δ) ^ N := pow_pos r0 N
  have k3 : m / M / 2 * ((|y 1| + |y 0|) / (1 + δ)) ^ 2 ≤ ((|y N| + |y (N + 1)|) / (1 + δ) ^ N) ^ 2 := by
    have e1 : ((|y 1| + |y 0|) / (1 + δ)) ^ 2 ≤ 2 * ((y 1 / (1 + δ) ^ 1) ^ 2 + (y 0 / (1 + δ) ^ 0) ^ 2) := by
      rw [pow_one, pow_zero, div_one, div_pow, div_pow, ← sub_nonneg]
      have : 2 * (y 1 ^ 2 / (1 + δ) ^ 2 + y 0 ^ 2) - (|y 1| + |y 0|) ^ 2 / (1 + δ) ^ 2 =
        (2 * (y 1 ^ 2 + (1 + δ) ^ 2 * y 0 ^ 2) - (|y 1| + |y 0|) ^ 2) / (1 + δ) ^ 2 := by field_simp
      rw [this]
      refine div_nonneg ?_ hρ2.le
      have h1 : 1 ≤ (1 + δ) ^ 2 := by nlinarith
      nlinarith [sum_le_sq (u := y 1) (v := y 0), mul_nonneg (sub_nonneg.mpr h1) (sq_nonneg (y 0))]
    have e2 : (y (N + 1) / (1 + δ) ^ (N + 1)) ^ 2 + (y N / (1 + δ) ^ N) ^ 2 ≤ ((|y N| + |y (N + 1)|) / (1 + δ) ^ N) ^ 2 := by
      have h1 : |y (N + 1) / (1 + δ) ^ (N + 1)| ≤ |y (N + 1)| / (1 + δ) ^ N := by
        rw [abs_div, abs_of_pos (pow_pos r0 (N + 1))]
        refine div_le_div_of_nonneg_left (abs_nonneg _) p0 ?_
        rw [pow_succ]
        nlinarith
      have h2 : (y (N + 1) / (1 + δ) ^ (N + 1)) ^ 2 ≤ (|y (N + 1)| / (1 + δ) ^ N) ^ 2 := by
        rw [← sq_abs]
        exact pow_le_pow_left₀ (abs_nonneg _) h1 2
      have h3 : (y N / (1 + δ) ^ N) ^ 2 = (|y N| / (1 + δ) ^ N) ^ 2 := by rw [div_pow, div_pow, sq_abs]
      have h4 : ((|y N| + |y (N + 1)|) / (1 + δ) ^ N) ^ 2 = (|y N| / (1 + δ) ^ N) ^ 2 + (|y (N + 1)| / (1 + δ) ^ N) ^ 2 +
          2 * (|y N| / (1 + δ) ^ N) * (|y (N + 1)| / (1 + δ) ^ N) := by ring
      have h5 : 0 ≤ 2 * (|y N| / (1 + δ) ^ N) * (|y (N + 1)| / (1 + δ) ^ N) := by positivity
      rw [h4, h3]; linarith
    have e3 : m * ((|y 1| + |y 0|) / (1 + δ)) ^ 2 ≤ 2 * (M * ((|y N| + |y (N + 1)|) / (1 + δ) ^ N) ^ 2) := by
      have := mul_le_mul_of_nonneg_left e1 ha'.le
      have := mul_le_mul_of_nonneg_left e2 hM0.le
      nlinarith
    rw [div_div, div_mul_eq_mul_div, div_le_iff₀ (by positivity)]
    linarith
  have k4 : Real.sqrt (m / M / 2) * ((|y 1| + |y 0|) / (1 + δ)) ≤ (|y N| + |y (N + 1)|) / (1 + δ) ^ N := by
    have h1 : 0 ≤ (|y 1| + |y 0|) / (1 + δ) := by positivity
    have h2 : 0 ≤ (|y N| + |y (N + 1)|) / (1 + δ) ^ N := by positivity
    rw [← Real.sqrt_sq h1, ← Real.sqrt_mul (by positivity), ← Real.sqrt_sq h2]
    exact Real.sqrt_le_sqrt k3
  rw [le_div_iff₀ p0] at k4
  refine le_trans (le_of_eq ?_) k4
  ring

/-- One root outside and one inside. -/
theorem rec_grows {r μ : ℝ} (hμ : |μ| < 1) {y : ℕ → ℝ} (hy : ∀ j, y (j + 2) = (r + μ) * y (j + 1) - r * μ * y j) (N : ℕ) :
    |r| ^ N * |y 1 - μ * y 0| ≤ |y N| + |y (N + 1)| := by
  have h : y (N + 1) - μ * y N = r ^ N * (y 1 - μ * y 0) := by
    induction N with
    | zero => simp
    | succ N ih =>
      have := hy N
      rw [pow_succ]
      linear_combination this + r * ih
  rw [← abs_pow, ← abs_mul, ← h]
  refine (abs_sub _ _).trans ?_
  rw [abs_mul]
  nlinarith [abs_nonneg (y N), abs_nonneg (y (N + 1))]

end Nbkode
