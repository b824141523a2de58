import Verif.Spec.Stiff
import Verif.Proofs.Stiff
import Verif.Props.TwoStep
import Verif.Props.Dissipative

/-!
# BDF1 to BDF6 are stable on stiff problems for every step size (C110)
-/

set_option autoImplicit false
set_option linter.unusedSectionVars false

namespace Nbkode
open Py Spec Solver

variable {p : Nat}

theorem implicit_step (lib : Lib ℝ) (zo : ZeroOpts ℝ) (he : 0 < zo.secantEps) (ht : 0 ≤ zo.tol) (hr : 0 ≤ zo.rtol)
    (c : MultistepCoef ℝ p) (b : Bound ℝ) (lam : ℝ) (g : ℝ → ℝ) (st : St ℝ 1 (histExtra p) Unit) (hreg : 1 + st.h * lam * c.Bn ≠ 0) :
    ∃ y' f', defect c st.cache st.h y' f' = 0 ∧ f' = decaying lam g (st.t + st.h) y' ∧
      ∀ st', Takes (⟨implicitMultistep lib zo c, pureRhs (decaying lam g), b⟩ : Solver ℝ 1 (histExtra p) Unit) st st' ↔
        st' = ⟨st.cache.push (st.t + st.h) y' f', st.h, ()⟩ := by
  obtain ⟨y', f', h1, h2, h3⟩ := linear_exact lib zo he ht hr c (-lam) g b st (by
    intro e; apply hreg; rw [← e]; ring)
  refine ⟨y', f', h3, h1, fun st' => ⟨fun h => ?_, fun h => by rw [h]; exact h2⟩⟩
  have h' : Takes ⟨implicitMultistep lib zo c, pureRhs fun t (y : Vec ℝ 1) i => -lam * y i + g t, b⟩ st st' := h
  unfold Takes at h' h2
  rw [h2] at h'
  cases h'
  rfl

/-- The differences of the histories, oldest first, and of the states that follow. -/
noncomputable def diffs (u v : ℕ → St ℝ 1 (histExtra p) Unit) (m : ℕ) : ℝ :=
  if m < p then ago (u 0).cache.ys (p - m) 0 - ago (v 0).cache.ys (p - m) 0 else (u (m - p)).y 0 - (v (m - p)).y 0

theorem stiff_of (lib : Lib ℝ) (zo : ZeroOpts ℝ) (he : 0 < zo.secantEps) (ht : 0 ≤ zo.tol) (hr : 0 ≤ zo.rtol)
    (c : MultistepCoef ℝ p) (hB : ∀ i, c.B i = 0) (hBn : 0 ≤ c.Bn) (b : Bound ℝ)
    (hroots : ∀ x : ℝ, 0 < x → ∀ z : ℂ, ((1 + x * c.Bn : ℝ) : ℂ) * z ^ (p + 1) + ∑ i, (c.A i : ℂ) * z ^ (i : ℕ) = 0 → ‖z‖ < 1) :
    StableAtEveryStep fun rhs => (⟨implicitMultistep lib zo c, rhs, b⟩ : Solver ℝ 1 (histExtra p) Unit) := by
  intro x x0
  have hl : 1 + x * c.Bn ≠ 0 := by positivity
  obtain ⟨K, ρ, r0, r1, hK⟩ := recurrence_decays c.A hl (hroots x x0)
  refine ⟨K * ρ ^ p, ρ, r0, r1, fun lam g h hx => ⟨fun st hst => ?_, fun t₀ u v hu hv N => ?_⟩⟩
  · obtain ⟨y', f', -, -, h3⟩ := implicit_step lib zo he ht hr c b lam g st (by rw [hst, hx]; exact hl)
    exact ⟨⟨st.cache.push (st.t + st.h) y' f', st.h, ()⟩, hst, (h3 _).mpr rfl⟩
  have inv : ∀ {w : ℕ → St ℝ 1 (histExtra p) Unit}, StepsOn (fun rhs => ⟨implicitMultistep lib zo c, rhs, b⟩) lam g t₀ h w → ∀ j,
      ((w j).h = h ∧ (w j).t = t₀ + j * h) ∧ (∀ i < p, ago (w (j + 1)).cache.ys (i + 1) = ago (w j).cache.ys i) ∧
      (1 + x * c.Bn) * (w (j + 1)).y 0 + ∑ i : Fin (p + 1), c.A i.rev * ago (w j).cache.ys i 0 = h * c.Bn * g (t₀ + j * h + h) := by
    intro w hw
    have step : ∀ j, (w j).h = h → (w j).t = t₀ + j * h → ((w (j + 1)).h = h ∧ (w (j + 1)).t = t₀ + (j + 1 : ℕ) * h) ∧
        (∀ i < p, ago (w (j + 1)).cache.ys (i + 1) = ago (w j).cache.ys i) ∧
        (1 + x * c.Bn) * (w (j + 1)).y 0 + ∑ i : Fin (p + 1), c.A i.rev * ago (w j).cache.ys i 0 = h * c.Bn * g (t₀ + j * h + h) := by
      intro j e1 e2
      obtain ⟨y', f', h1, h2, h3⟩ := implicit_step lib zo he ht hr c b lam g (w j) (by rw [e1, hx]; exact hl)
      have h4 := (h3 _).mp (hw.takes j)
      rw [e1, e2] at h4
      rw [e1] at h1
      rw [e1, e2] at h2
      rw [h4]
      refine ⟨⟨rfl, ?_⟩, ?_, ?_⟩
      · refine (ago_push (w j).cache.ts (t₀ + j * h + h)).1.trans ?_
        push_cast; ring
      · intro i hi
        exact (ago_push (w j).cache.ys y').2 i (by unfold histExtra; omega)
      · have h5 := congrFun h1 0
        simp only [defect, hB, zero_mul, Finset.sum_const_zero, add_zero, Pi.zero_apply] at h5
        rw [h2] at h5
        simp only [decaying] at h5
        have e : (⟨(w j).cache.push (t₀ + j * h + h) y' f', h, ()⟩ : St ℝ 1 (histExtra p) Unit).y = y' := push_y _ _ _ _
        rw [e, ← hx]
        linarith
    have both : ∀ j, (w j).h = h ∧ (w j).t = t₀ + j * h := by
      intro j
      induction j with
      | zero => exact ⟨hw.size, by rw [hw.now]; push_cast; ring⟩
      | succ j ih => exact (step j ih.1 ih.2).1
    exact fun j => ⟨both j, (step j (both j).1 (both j).2).2⟩
  have hd : ∀ j, ∀ i ≤ p, ago (u j).cache.ys i 0 - ago (v j).cache.ys i 0 = diffs u v (p + j - i) := by
    intro j
    induction j with
    | zero =>
      intro i hi
      unfold diffs
      rcases Nat.eq_zero_or_pos i with rfl | hi0
      · rw [if_neg (by omega), show p + 0 - 0 - p = 0 by omega]; rfl
      · rw [if_pos (by omega), show p - (p + 0 - i) = i by omega]
    | succ j ih =>
      intro i hi
      cases i with
      | zero =>
        unfold diffs
        rw [if_neg (by omega), show p + (j + 1) - 0 - p = j + 1 by omega]; rfl
      | succ i =>
        rw [(inv hu j).2.1 i (by omega), (inv hv j).2.1 i (by omega), ih i (by omega)]
        congr 1
        omega
  have hrec : ∀ m, (1 + x * c.Bn) * diffs u v (m + (p + 1)) + ∑ i, c.A i * diffs u v (m + (i : ℕ)) = 0 := by
    intro m
    have e1 := (inv hu m).2.2
    have e2 := (inv hv m).2.2
    have e3 : diffs u v (m + (p + 1)) = (u (m + 1)).y 0 - (v (m + 1)).y 0 := by
      unfold diffs
      rw [if_neg (by omega), show m + (p + 1) - p = m + 1 by omega]
    have e4 : ∑ i, c.A i * diffs u v (m + (i : ℕ)) =
        ∑ i : Fin (p + 1), c.A i.rev * ago (u m).cache.ys i 0 - ∑ i : Fin (p + 1), c.A i.rev * ago (v m).cache.ys i 0 := by
      rw [← Finset.sum_sub_distrib, ← Equiv.sum_comp Fin.revPerm]
      refine Finset.sum_congr rfl fun i _ => ?_
      rw [← mul_sub, hd m i (by omega), Fin.revPerm_apply, Fin.val_rev]
      congr 2
      omega
    rw [e3, e4]
    linarith
  have key := hK (diffs u v) hrec (p + N)
  have e5 : diffs u v (p + N) = (u N).y 0 - (v N).y 0 := by
    unfold diffs
    rw [if_neg (by omega), show p + N - p = N by omega]
  have e6 : ∑ j ∈ Finset.range (p + 1), |diffs u v j| = ∑ i ∈ Finset.range (p + 1), |ago (u 0).cache.ys i 0 - ago (v 0).cache.ys i 0| := by
    rw [← Finset.sum_range_reflect]
    refine Finset.sum_congr rfl fun i hi => ?_
    have := Finset.mem_range.mp hi
    rw [hd 0 i (by omega)]
    congr 2
  rw [e5, e6] at key
  refine key.trans (le_of_eq ?_)
  rw [pow_add]
  ring

/-- If `z` is not inside the unit circle, `1/z = (1 - a) - b i` for `a`, `b` in the disc about `(1, 0)`. -/
theorem outside_inverse {z : ℂ} (hn : ¬ ‖z‖ < 1) : ∃ a b : ℝ, 0 ≤ a ∧ a ≤ 2 ∧ b ^ 2 ≤ 2 * a - a ^ 2 ∧ z ≠ 0 ∧ z * ((1 - a : ℂ) - b * Complex.I) = 1 := by
  rw [not_lt] at hn
  have hz0 : z ≠ 0 := by
    intro e
    rw [e, norm_zero] at hn
    linarith
  have h1 : ‖z⁻¹‖ ≤ 1 := by
    rw [norm_inv]
    exact inv_le_one_of_one_le₀ hn
  have h2 : z⁻¹.re ^ 2 + z⁻¹.im ^ 2 ≤ 1 := by
    have := Complex.sq_norm z⁻¹
    rw [Complex.normSq_apply] at this
    have h3 : ‖z⁻¹‖ ^ 2 ≤ 1 := pow_le_one₀ (norm_nonneg _) h1
    nlinarith
  refine ⟨1 - z⁻¹.re, -z⁻¹.im, by nlinarith [sq_nonneg z⁻¹.im], by nlinarith [sq_nonneg z⁻¹.im], by nlinarith, hz0, ?_⟩
  have : (1 - ((1 - z⁻¹.re : ℝ) : ℂ)) - ((-z⁻¹.im : ℝ) : ℂ) * Complex.I = z⁻¹ := by
    apply Complex.ext <;> simp
  rw [this, mul_inv_cancel₀ hz0]

theorem roots_BDF1 (x : ℝ) (x0 : 0 < x) (z : ℂ)
    (hz : ((1 + x * (BDF1 : MultistepCoef ℝ 0).Bn : ℝ) : ℂ) * z ^ (0 + 1) + ∑ i, ((BDF1 : MultistepCoef ℝ 0).A i : ℂ) * z ^ (i : ℕ) = 0) : ‖z‖ < 1 := by
  by_contra hn
  obtain ⟨a, b, ha, ha2, hb, hz0, h1⟩ := outside_inverse hn
  have hz : (1 + x * (1)) * z ^ 1 + (-1) * z ^ 0 = 0 := by
    have s1 : ∀ F : Fin (0 + 1) → ℂ, ∑ i, F i = F 0 := fun F => Fin.sum_univ_one F
    rw [s1] at hz
    rw [← hz]
    simp [BDF1, q]
    try ring
  set ζ : ℂ := (1 - a : ℂ) - b * Complex.I with hζ
  have h2 : (1 + x * (1)) + (-1) * ζ ^ 1 = 0 := by
    have e : ∀ m : ℕ, z ^ m * ζ ^ m = 1 := fun m => by rw [← mul_pow, h1, one_pow]
    linear_combination ζ ^ 1 * hz - (1 + x * (1) : ℂ) * e 1 - (-1 : ℂ) * ζ ^ 1 * e 0
  have hre := congrArg Complex.re h2
  rw [hζ] at hre
  simp at hre
  linarith

theorem roots_BDF2 (x : ℝ) (x0 : 0 < x) (z : ℂ)
    (hz : ((1 + x * (BDF2 : MultistepCoef ℝ 1).Bn : ℝ) : ℂ) * z ^ (1 + 1) + ∑ i, ((BDF2 : MultistepCoef ℝ 1).A i : ℂ) * z ^ (i : ℕ) = 0) : ‖z‖ < 1 := by
  by_contra hn
  obtain ⟨a, b, ha, ha2, hb, hz0, h1⟩ := outside_inverse hn
  have hz : (1 + x * (2/3)) * z ^ 2 + (1/3) * z ^ 0 + (-4/3) * z ^ 1 = 0 := by
    have s1 : ∀ F : Fin (1 + 1) → ℂ, ∑ i, F i = F 0 + F 1 := fun F => Fin.sum_univ_two F
    rw [s1] at hz
    rw [← hz]
    simp [BDF2, q]
    try ring
  set ζ : ℂ := (1 - a : ℂ) - b * Complex.I with hζ
  have h2 : (1 + x * (2/3)) + (1/3) * ζ ^ 2 + (-4/3) * ζ ^ 1 = 0 := by
    have e : ∀ m : ℕ, z ^ m * ζ ^ m = 1 := fun m => by rw [← mul_pow, h1, one_pow]
    linear_combination ζ ^ 2 * hz - (1 + x * (2/3) : ℂ) * e 2 - (1/3 : ℂ) * ζ ^ 2 * e 0 - (-4/3 : ℂ) * ζ ^ 1 * e 1
  have hre := congrArg Complex.re h2
  have him := congrArg Complex.im h2
  rw [hζ] at hre him
  simp [pow_succ] at hre him
  have hq : b * (1 + a) = 0 := by linear_combination (3/2) * him
  have hpos : 0 < 1 + a := by
    linarith
  have hb0 : b = 0 := (mul_eq_zero.mp hq).resolve_right hpos.ne'
  rw [hb0] at hre
  have hsum : x + (a ^ 1 / 1 + a ^ 2 / 2) = 0 := by linear_combination (3/2) * hre
  have : 0 ≤ a ^ 1 / 1 + a ^ 2 / 2 := by positivity
  linarith

theorem roots_BDF3 (x : ℝ) (x0 : 0 < x) (z : ℂ)
    (hz : ((1 + x * (BDF3 : MultistepCoef ℝ 2).Bn : ℝ) : ℂ) * z ^ (2 + 1) + ∑ i, ((BDF3 : MultistepCoef ℝ 2).A i : ℂ) * z ^ (i : ℕ) = 0) : ‖z‖ < 1 := by
  by_contra hn
  obtain ⟨a, b, ha, ha2, hb, hz0, h1⟩ := outside_inverse hn
  have hz : (1 + x * (6/11)) * z ^ 3 + (-2/11) * z ^ 0 + (9/11) * z ^ 1 + (-18/11) * z ^ 2 = 0 := by
    have s1 : ∀ F : Fin (2 + 1) → ℂ, ∑ i, F i = F 0 + F 1 + F 2 := fun F => Fin.sum_univ_three F
    rw [s1] at hz
    rw [← hz]
    simp [BDF3, q]
    try ring
  set ζ : ℂ := (1 - a : ℂ) - b * Complex.I with hζ
  have h2 : (1 + x * (6/11)) + (-2/11) * ζ ^ 3 + (9/11) * ζ ^ 2 + (-18/11) * ζ ^ 1 = 0 := by
    have e : ∀ m : ℕ, z ^ m * ζ ^ m = 1 := fun m => by rw [← mul_pow, h1, one_pow]
    linear_combination ζ ^ 3 * hz - (1 + x * (6/11) : ℂ) * e 3 - (-2/11 : ℂ) * ζ ^ 3 * e 0 - (9/11 : ℂ) * ζ ^ 2 * e 1 - (-18/11 : ℂ) * ζ ^ 1 * e 2
  have hre := congrArg Complex.re h2
  have him := congrArg Complex.im h2
  rw [hζ] at hre him
  simp [pow_succ] at hre him
  have hq : b * (1 + a + a ^ 2 - b ^ 2 / 3) = 0 := by linear_combination (11/6) * him
  have hpos : 0 < 1 + a + a ^ 2 - b ^ 2 / 3 := by
    nlinarith [sq_nonneg a]
  have hb0 : b = 0 := (mul_eq_zero.mp hq).resolve_right hpos.ne'
  rw [hb0] at hre
  have hsum : x + (a ^ 1 / 1 + a ^ 2 / 2 + a ^ 3 / 3) = 0 := by linear_combination (11/6) * hre
  have : 0 ≤ a ^ 1 / 1 + a ^ 2 / 2 + a ^ 3 / 3 := by positivity
  linarith

theorem roots_BDF4 (x : ℝ) (x0 : 0 < x) (z : ℂ)
    (hz : ((1 + x * (BDF4 : MultistepCoef ℝ 3).Bn : ℝ) : ℂ) * z ^ (3 + 1) + ∑ i, ((BDF4 : MultistepCoef ℝ 3).A i : ℂ) * z ^ (i : ℕ) = 0) : ‖z‖ < 1 := by
  by_contra hn
  obtain ⟨a, b, ha, ha2, hb, hz0, h1⟩ := outside_inverse hn
  have hz : (1 + x * (12/25)) * z ^ 4 + (3/25) * z ^ 0 + (-16/25) * z ^ 1 + (36/25) * z ^ 2 + (-48/25) * z ^ 3 = 0 := by
    have s1 : ∀ F : Fin (3 + 1) → ℂ, ∑ i, F i = F 0 + F 1 + F 2 + F 3 := fun F => Fin.sum_univ_four F
    rw [s1] at hz
    rw [← hz]
    simp [BDF4, q]
    try ring
  set ζ : ℂ := (1 - a : ℂ) - b * Complex.I with hζ
  have h2 : (1 + x * (12/25)) + (3/25) * ζ ^ 4 + (-16/25) * ζ ^ 3 + (36/25) * ζ ^ 2 + (-48/25) * ζ ^ 1 = 0 := by
    have e : ∀ m : ℕ, z ^ m * ζ ^ m = 1 := fun m => by rw [← mul_pow, h1, one_pow]
    linear_combination ζ ^ 4 * hz - (1 + x * (12/25) : ℂ) * e 4 - (3/25 : ℂ) * ζ ^ 4 * e 0 - (-16/25 : ℂ) * ζ ^ 3 * e 1 - (36/25 : ℂ) * ζ ^ 2 * e 2 - (-48/25 : ℂ) * ζ ^ 1 * e 3
  have hre := congrArg Complex.re h2
  have him := congrArg Complex.im h2
  rw [hζ] at hre him
  simp [pow_succ] at hre him
  have hq : b * (1 + a + a ^ 2 + a ^ 3 - (1 / 3 + a) * b ^ 2) = 0 := by linear_combination (25/12) * him
  have hpos : 0 < 1 + a + a ^ 2 + a ^ 3 - (1 / 3 + a) * b ^ 2 := by
    have h := mul_le_mul_of_nonneg_left hb (show 0 ≤ 1 / 3 + a by linarith)
    nlinarith [mul_nonneg ha (sq_nonneg (a - 1 / 3)), mul_nonneg ha ha]
  have hb0 : b = 0 := (mul_eq_zero.mp hq).resolve_right hpos.ne'
  rw [hb0] at hre
  have hsum : x + (a ^ 1 / 1 + a ^ 2 / 2 + a ^ 3 / 3 + a ^ 4 / 4) = 0 := by linear_combination (25/12) * hre
  have : 0 ≤ a ^ 1 / 1 + a ^ 2 / 2 + a ^ 3 / 3 + a ^ 4 / 4 := by positivity
  linarith

theorem roots_BDF5 (x : ℝ) (x0 : 0 < x) (z : ℂ)
    (hz : ((1 + x * (BDF5 : MultistepCoef ℝ 4).Bn : ℝ) : ℂ) * z ^ (4 + 1) + ∑ i, ((BDF5 : MultistepCoef ℝ 4).A i : ℂ) * z ^ (i : ℕ) = 0) : ‖z‖ < 1 := by
  by_contra hn
  obtain ⟨a, b, ha, ha2, hb, hz0, h1⟩ := outside_inverse hn
  have hz : (1 + x * (60/137)) * z ^ 5 + (-12/137) * z ^ 0 + (75/137) * z ^ 1 + (-200/137) * z ^ 2 + (300/137) * z ^ 3 + (-300/137) * z ^ 4 = 0 := by
    have s1 : ∀ F : Fin (4 + 1) → ℂ, ∑ i, F i = F 0 + F 1 + F 2 + F 3 + F 4 := fun F => Fin.sum_univ_five F
    rw [s1] at hz
    rw [← hz]
    simp [BDF5, q]
    try ring
  set ζ : ℂ := (1 - a : ℂ) - b * Complex.I with hζ
  have h2 : (1 + x * (60/137)) + (-12/137) * ζ ^ 5 + (75/137) * ζ ^ 4 + (-200/137) * ζ ^ 3 + (300/137) * ζ ^ 2 + (-300/137) * ζ ^ 1 = 0 := by
    have e : ∀ m : ℕ, z ^ m * ζ ^ m = 1 := fun m => by rw [← mul_pow, h1, one_pow]
    linear_combination ζ ^ 5 * hz - (1 + x * (60/137) : ℂ) * e 5 - (-12/137 : ℂ) * ζ ^ 5 * e 0 - (75/137 : ℂ) * ζ ^ 4 * e 1 - (-200/137 : ℂ) * ζ ^ 3 * e 2 - (300/137 : ℂ) * ζ ^ 2 * e 3 - (-300/137 : ℂ) * ζ ^ 1 * e 4
  have hre := congrArg Complex.re h2
  have him := congrArg Complex.im h2
  rw [hζ] at hre him
  simp [pow_succ] at hre him
  have hq : b * (1 + a + a ^ 2 + a ^ 3 + a ^ 4 - (1 / 3 + a + 2 * a ^ 2) * b ^ 2 + 1 / 5 * (b ^ 2) ^ 2) = 0 := by linear_combination (137/60) * him
  have hpos : 0 < 1 + a + a ^ 2 + a ^ 3 + a ^ 4 - (1 / 3 + a + 2 * a ^ 2) * b ^ 2 + 1 / 5 * (b ^ 2) ^ 2 := by
    have h : (1 / 3 + a + 2 * a ^ 2) * b ^ 2 - 1 / 5 * (b ^ 2) ^ 2 ≤ (1 / 3 + a + 2 * a ^ 2) * (2 * a - a ^ 2) - 1 / 5 * (2 * a - a ^ 2) ^ 2 := by
      have := mul_nonneg (sub_nonneg.mpr hb) (show 0 ≤ (1 / 3 + a + 2 * a ^ 2) - 1 / 5 * (b ^ 2 + (2 * a - a ^ 2)) by nlinarith [sq_nonneg a])
      nlinarith
    nlinarith [mul_nonneg ha ha, sq_nonneg (a ^ 2 - 7 / 16 * a), sq_nonneg a, sq_nonneg (a - 1)]
  have hb0 : b = 0 := (mul_eq_zero.mp hq).resolve_right hpos.ne'
  rw [hb0] at hre
  have hsum : x + (a ^ 1 / 1 + a ^ 2 / 2 + a ^ 3 / 3 + a ^ 4 / 4 + a ^ 5 / 5) = 0 := by linear_combination (137/60) * hre
  have : 0 ≤ a ^ 1 / 1 + a ^ 2 / 2 + a ^ 3 / 3 + a ^ 4 / 4 + a ^ 5 / 5 := by positivity
  linarith

set_option maxHeartbeats 1000000 in
theorem roots_BDF6 (x : ℝ) (x0 : 0 < x) (z : ℂ)
    (hz : ((1 + x * (BDF6 : MultistepCoef ℝ 5).Bn : ℝ) : ℂ) * z ^ (5 + 1) + ∑ i, ((BDF6 : MultistepCoef ℝ 5).A i : ℂ) * z ^ (i : ℕ) = 0) : ‖z‖ < 1 := by
  by_contra hn
  obtain ⟨a, b, ha, ha2, hb, hz0, h1⟩ := outside_inverse hn
  have hz : (1 + x * (60/147)) * z ^ 6 + (10/147) * z ^ 0 + (-72/147) * z ^ 1 + (225/147) * z ^ 2 + (-400/147) * z ^ 3 + (450/147) * z ^ 4 + (-360/147) * z ^ 5 = 0 := by
    have s1 : ∀ F : Fin (5 + 1) → ℂ, ∑ i, F i = F 0 + F 1 + F 2 + F 3 + F 4 + F 5 := fun F => Fin.sum_univ_six F
    rw [s1] at hz
    rw [← hz]
    simp [BDF6, q]
    try ring
  set ζ : ℂ := (1 - a : ℂ) - b * Complex.I with hζ
  have h2 : (1 + x * (60/147)) + (10/147) * ζ ^ 6 + (-72/147) * ζ ^ 5 + (225/147) * ζ ^ 4 + (-400/147) * ζ ^ 3 + (450/147) * ζ ^ 2 + (-360/147) * ζ ^ 1 = 0 := by
    have e : ∀ m : ℕ, z ^ m * ζ ^ m = 1 := fun m => by rw [← mul_pow, h1, one_pow]
    linear_combination ζ ^ 6 * hz - (1 + x * (60/147) : ℂ) * e 6 - (10/147 : ℂ) * ζ ^ 6 * e 0 - (-72/147 : ℂ) * ζ ^ 5 * e 1 - (225/147 : ℂ) * ζ ^ 4 * e 2 - (-400/147 : ℂ) * ζ ^ 3 * e 3 - (450/147 : ℂ) * ζ ^ 2 * e 4 - (-360/147 : ℂ) * ζ ^ 1 * e 5
  have hre := congrArg Complex.re h2
  have him := congrArg Complex.im h2
  rw [hζ] at hre him
  simp [pow_succ] at hre him
  have hq : b * (1 + a + a ^ 2 + a ^ 3 + a ^ 4 + a ^ 5 - (1 / 3 + a + 2 * a ^ 2 + 10 / 3 * a ^ 3) * b ^ 2 + (1 / 5 + a) * (b ^ 2) ^ 2) = 0 := by linear_combination (49/20) * him
  have hpos : 0 < 1 + a + a ^ 2 + a ^ 3 + a ^ 4 + a ^ 5 - (1 / 3 + a + 2 * a ^ 2 + 10 / 3 * a ^ 3) * b ^ 2 + (1 / 5 + a) * (b ^ 2) ^ 2 := by
    have h : (1 / 3 + a + 2 * a ^ 2 + 10 / 3 * a ^ 3) * b ^ 2 - (1 / 5 + a) * (b ^ 2) ^ 2 ≤
        (1 / 3 + a + 2 * a ^ 2 + 10 / 3 * a ^ 3) * (2 * a - a ^ 2) - (1 / 5 + a) * (2 * a - a ^ 2) ^ 2 := by
      have h3 : 0 ≤ (1 / 3 + a + 2 * a ^ 2 + 10 / 3 * a ^ 3) - (1 / 5 + a) * (b ^ 2 + (2 * a - a ^ 2)) := by
        have h4 := mul_le_mul_of_nonneg_left hb (show 0 ≤ 1 / 5 + a by linarith)
        nlinarith [mul_nonneg ha (sq_nonneg (a - 1 / 2)), sq_nonneg a, mul_nonneg ha ha, sq_nonneg (a - 1 / 3)]
      have := mul_nonneg (sub_nonneg.mpr hb) h3
      nlinarith
    nlinarith [mul_nonneg ha ha, sq_nonneg (a ^ 2 - 1 / 2 * a), mul_nonneg ha (sq_nonneg (a ^ 2 - 1 / 2 * a)), sq_nonneg a, sq_nonneg (a - 1), mul_nonneg ha (sq_nonneg (a - 1))]
  have hb0 : b = 0 := (mul_eq_zero.mp hq).resolve_right hpos.ne'
  rw [hb0] at hre
  have hsum : x + (a ^ 1 / 1 + a ^ 2 / 2 + a ^ 3 / 3 + a ^ 4 / 4 + a ^ 5 / 5 + a ^ 6 / 6) = 0 := by linear_combination (49/20) * hre
  have : 0 ≤ a ^ 1 / 1 + a ^ 2 / 2 + a ^ 3 / 3 + a ^ 4 / 4 + a ^ 5 / 5 + a ^ 6 / 6 := by positivity
  linarith

section
variable (lib : Lib ℝ) (zo : ZeroOpts ℝ) (he : 0 < zo.secantEps) (ht : 0 ≤ zo.tol) (hr : 0 ≤ zo.rtol) (b : Bound ℝ)
include he ht hr

/-- **C110** for `BDF1`. -/
theorem C110_BDF1 : StableAtEveryStep fun rhs => (⟨implicitMultistep lib zo BDF1, rhs, b⟩ : Solver ℝ 1 (histExtra 0) Unit) :=
  stiff_of lib zo he ht hr BDF1 (fun _ => rfl) (by norm_num [BDF1, q]) b roots_BDF1

/-- **C110** for `BDF2`. -/
theorem C110_BDF2 : StableAtEveryStep fun rhs => (⟨implicitMultistep lib zo BDF2, rhs, b⟩ : Solver ℝ 1 (histExtra 1) Unit) :=
  stiff_of lib zo he ht hr BDF2 (fun _ => rfl) (by norm_num [BDF2, q]) b roots_BDF2

/-- **C110** for `BDF3`. -/
theorem C110_BDF3 : StableAtEveryStep fun rhs => (⟨implicitMultistep lib zo BDF3, rhs, b⟩ : Solver ℝ 1 (histExtra 2) Unit) :=
  stiff_of lib zo he ht hr BDF3 (fun _ => rfl) (by norm_num [BDF3, q]) b roots_BDF3

/-- **C110** for `BDF4`. -/
theorem C110_BDF4 : StableAtEveryStep fun rhs => (⟨implicitMultistep lib zo BDF4, rhs, b⟩ : Solver ℝ 1 (histExtra 3) Unit) :=
  stiff_of lib zo he ht hr BDF4 (fun _ => rfl) (by norm_num [BDF4, q]) b roots_BDF4

/-- **C110** for `BDF5`. -/
theorem C110_BDF5 : StableAtEveryStep fun rhs => (⟨implicitMultistep lib zo BDF5, rhs, b⟩ : Solver ℝ 1 (histExtra 4) Unit) :=
  stiff_of lib zo he ht hr BDF5 (fun _ => rfl) (by norm_num [BDF5, q]) b roots_BDF5

/-- **C110** for `BDF6`. -/
theorem C110_BDF6 : StableAtEveryStep fun rhs => (⟨implicitMultistep lib zo BDF6, rhs, b⟩ : Solver ℝ 1 (histExtra 5) Unit) :=
  stiff_of lib zo he ht hr BDF6 (fun _ => rfl) (by norm_num [BDF6, q]) b roots_BDF6

/-- **C110** for `BackwardEuler`. -/
theorem C110_BackwardEuler : StableAtEveryStep fun rhs => (⟨implicitMultistep lib zo BackwardEuler, rhs, b⟩ : Solver ℝ 1 (histExtra 0) Unit) := by
  refine stiff_of lib zo he ht hr BackwardEuler (fun i => ?_) (by norm_num [BackwardEuler, AdamsMoulton1]) b fun x x0 z hz => roots_BDF1 x x0 z ?_
  · rw [show i = 0 from Fin.ext (by have := i.isLt; show i.val = 0; omega)]; rfl
  · rw [← hz]
    simp [BackwardEuler, AdamsMoulton1, BDF1, adamsA]

/-- **C110** for `AdamsMoulton2`, the trapezoidal rule: each step multiplies the difference of two runs by `(1 - x/2) / (1 + x/2)`, `x = h lam`, which is
between -1 and 1. -/
theorem C110_AdamsMoulton2 (x : ℝ) (x0 : 0 < x) : |(1 - x / 2) / (1 + x / 2)| < 1 ∧ ∀ (lam : ℝ) (g : ℝ → ℝ) (h : ℝ), h * lam = x →
    (∀ st : St ℝ 1 (histExtra 0) Unit, st.h = h → ∃ st', st'.h = h ∧ Takes (⟨implicitMultistep lib zo AdamsMoulton2, pureRhs (decaying lam g), b⟩ : Solver ℝ 1 (histExtra 0) Unit) st st') ∧
    ∀ (t₀ : ℝ) (u v : ℕ → St ℝ 1 (histExtra 0) Unit),
      StepsOn (fun rhs => (⟨implicitMultistep lib zo AdamsMoulton2, rhs, b⟩ : Solver ℝ 1 (histExtra 0) Unit)) lam g t₀ h u →
      StepsOn (fun rhs => (⟨implicitMultistep lib zo AdamsMoulton2, rhs, b⟩ : Solver ℝ 1 (histExtra 0) Unit)) lam g t₀ h v →
      (u 0).f = decaying lam g t₀ (u 0).y → (v 0).f = decaying lam g t₀ (v 0).y →
      ∀ N, (u N).y 0 - (v N).y 0 = ((1 - x / 2) / (1 + x / 2)) ^ N * ((u 0).y 0 - (v 0).y 0) := by
  have hx2 : 0 < 1 + x / 2 := by linarith
  refine ⟨?_, fun lam g h hx => ⟨fun st hst => ?_, fun t₀ u v hu hv fu fv => ?_⟩⟩
  · rw [abs_lt, lt_div_iff₀ hx2, div_lt_iff₀ hx2]
    constructor <;> linarith
  · obtain ⟨y', f', -, -, h3⟩ := implicit_step lib zo he ht hr AdamsMoulton2 b lam g st (by
      rw [hst, hx]; simp only [AdamsMoulton2, q]; norm_num; linarith)
    exact ⟨⟨st.cache.push (st.t + st.h) y' f', st.h, ()⟩, hst, (h3 _).mpr rfl⟩
  have inv : ∀ {w : ℕ → St ℝ 1 (histExtra 0) Unit},
      StepsOn (fun rhs => (⟨implicitMultistep lib zo AdamsMoulton2, rhs, b⟩ : Solver ℝ 1 (histExtra 0) Unit)) lam g t₀ h w →
      (w 0).f = decaying lam g t₀ (w 0).y → ∀ j, ((w j).h = h ∧ (w j).t = t₀ + j * h ∧ (w j).f = decaying lam g (t₀ + j * h) (w j).y) ∧
        (1 + x / 2) * (w (j + 1)).y 0 = (1 - x / 2) * (w j).y 0 + h / 2 * (g (t₀ + j * h + h) + g (t₀ + j * h)) := by
    intro w hw fw
    have step : ∀ j, (w j).h = h → (w j).t = t₀ + j * h → (w j).f = decaying lam g (t₀ + j * h) (w j).y →
        ((w (j + 1)).h = h ∧ (w (j + 1)).t = t₀ + (j + 1 : ℕ) * h ∧ (w (j + 1)).f = decaying lam g (t₀ + (j + 1 : ℕ) * h) (w (j + 1)).y) ∧
        (1 + x / 2) * (w (j + 1)).y 0 = (1 - x / 2) * (w j).y 0 + h / 2 * (g (t₀ + j * h + h) + g (t₀ + j * h)) := by
      intro j e1 e2 e3
      obtain ⟨y', f', h1, h2, h3⟩ := implicit_step lib zo he ht hr AdamsMoulton2 b lam g (w j) (by
        rw [e1, hx]; simp only [AdamsMoulton2, q]; norm_num; linarith)
      have h4 := (h3 _).mp (hw.takes j)
      rw [e1, e2] at h4
      rw [e1] at h1
      rw [e1, e2] at h2
      rw [h4]
      have ey : (⟨(w j).cache.push (t₀ + j * h + h) y' f', h, ()⟩ : St ℝ 1 (histExtra 0) Unit).y = y' := push_y _ _ _ _
      have ef : (⟨(w j).cache.push (t₀ + j * h + h) y' f', h, ()⟩ : St ℝ 1 (histExtra 0) Unit).f = f' := push_f _ _ _ _
      have et : t₀ + j * h + h = t₀ + (j + 1 : ℕ) * h := by push_cast; ring
      refine ⟨⟨rfl, ?_, ?_⟩, ?_⟩
      · exact (ago_push (w j).cache.ts (t₀ + j * h + h)).1.trans et
      · rw [ey, ef, h2, et]
      · have h5 := congrFun h1 0
        have s1 : ∀ F : Fin (0 + 1) → ℝ, ∑ i, F i = F 0 := fun F => Fin.sum_univ_one F
        simp only [defect, s1, Pi.zero_apply] at h5
        have a1 : ago (w j).cache.fs ((0 : Fin (0 + 1)) : ℕ) = decaying lam g (t₀ + j * h) (w j).y := e3
        have a2 : ago (w j).cache.ys ((0 : Fin (0 + 1)) : ℕ) = (w j).y := rfl
        rw [a1, a2, h2] at h5
        have a3 : (AdamsMoulton2 : MultistepCoef ℝ 0).A (Fin.rev 0) = -1 := by simp [AdamsMoulton2, adamsA]
        have a4 : (AdamsMoulton2 : MultistepCoef ℝ 0).B (Fin.rev 0) = 1 / 2 := by simp [AdamsMoulton2, q]
        have a5 : (AdamsMoulton2 : MultistepCoef ℝ 0).Bn = 1 / 2 := by simp [AdamsMoulton2, q]
        rw [a3, a4, a5] at h5
        simp only [decaying] at h5
        rw [ey, ← hx]
        linear_combination h5
    have both : ∀ j, (w j).h = h ∧ (w j).t = t₀ + j * h ∧ (w j).f = decaying lam g (t₀ + j * h) (w j).y := by
      intro j
      induction j with
      | zero => exact ⟨hw.size, by rw [hw.now]; push_cast; ring, by rw [fw]; push_cast; ring_nf⟩
      | succ j ih => exact (step j ih.1 ih.2.1 ih.2.2).1
    exact fun j => ⟨both j, (step j (both j).1 (both j).2.1 (both j).2.2).2⟩
  intro N
  induction N with
  | zero => rw [pow_zero, one_mul]
  | succ N ih =>
    have e1 := (inv hu fu N).2
    have e2 := (inv hv fv N).2
    rw [pow_succ', mul_assoc, ← ih, div_mul_eq_mul_div, eq_div_iff hx2.ne']
    linear_combination e1 - e2

end

/-! ### Cases -/

namespace Demo

/-- Runs exist from any history. -/
theorem stepsOn_exist (cls : Rhs ℝ 1 → Solver ℝ 1 (histExtra p) Unit) {lam : ℝ} {g : ℝ → ℝ} {h : ℝ}
    (ht : ∀ st, st.h = h → ∃ st', st'.h = h ∧ Takes (cls (pureRhs (decaying lam g))) st st') (st : St ℝ 1 (histExtra p) Unit) (hst : st.h = h) :
    ∃ u, u 0 = st ∧ StepsOn cls lam g st.t h u := by
  choose! F hF1 hF2 using ht
  have hh : ∀ j, (F^[j] st).h = h := by
    intro j
    induction j with
    | zero => exact hst
    | succ j ih => rw [Function.iterate_succ_apply']; exact hF1 _ ih
  refine ⟨fun j => F^[j] st, rfl, hst, rfl, fun j => ?_⟩
  show Takes _ _ (F^[j + 1] _)
  rw [Function.iterate_succ_apply']
  exact hF2 _ (hh j)

/-- A history in which all recorded values are `w`. -/
def level (p : Nat) (w : ℝ) : St ℝ 1 (histExtra p) Unit := ⟨⟨fun _ => 0, fun _ _ => w, fun _ _ => 0⟩, 1, ()⟩

end Demo

open Demo

-- C110: `BDF6` on `y' = -1000 y + sin t` with `h = 1`, from two different histories.
example (b : Bound ℝ) : ∃ K ρ u v, ρ < 1 ∧ (u 0).y 0 = 5 ∧ (v 0).y 0 = 0 ∧
    StepsOn (fun rhs => (⟨implicitMultistep realLib realZeros BDF6, rhs, b⟩ : Solver ℝ 1 (histExtra 5) Unit)) 1000 Real.sin 0 1 u ∧
    StepsOn (fun rhs => (⟨implicitMultistep realLib realZeros BDF6, rhs, b⟩ : Solver ℝ 1 (histExtra 5) Unit)) 1000 Real.sin 0 1 v ∧
    ∀ N, |(u N).y 0 - (v N).y 0| ≤ K * ρ ^ N * 30 := by
  obtain ⟨K, ρ, -, r1, h⟩ := C110_BDF6 realLib realZeros (by norm_num [realZeros]) (by norm_num [realZeros]) (by norm_num [realZeros]) b 1000 (by norm_num)
  obtain ⟨h1, h2⟩ := h 1000 Real.sin 1 (by norm_num)
  obtain ⟨u, u0, hu⟩ := stepsOn_exist (h := 1) (fun rhs => (⟨implicitMultistep realLib realZeros BDF6, rhs, b⟩ : Solver ℝ 1 (histExtra 5) Unit)) h1 (level 5 5) rfl
  obtain ⟨v, v0, hv⟩ := stepsOn_exist (h := 1) (fun rhs => (⟨implicitMultistep realLib realZeros BDF6, rhs, b⟩ : Solver ℝ 1 (histExtra 5) Unit)) h1 (level 5 0) rfl
  refine ⟨K, ρ, u, v, r1, by rw [u0]; rfl, by rw [v0]; rfl, hu, hv, fun N => (h2 0 u v hu hv N).trans (le_of_eq ?_)⟩
  rw [u0, v0]
  have : ∀ i, |ago (level 5 5).cache.ys i 0 - ago (level 5 0).cache.ys i 0| = 5 := fun i => by
    show |(5 : ℝ) - 0| = 5
    norm_num
  simp only [this]
  norm_num

-- C110: a step is possible with each class, whatever the history.
example (b : Bound ℝ) (st : St ℝ 1 (histExtra 2) Unit) (hst : st.h = 100) : ∃ st',
    Takes (⟨implicitMultistep realLib realZeros BDF3, pureRhs (decaying 7 Real.sin), b⟩ : Solver ℝ 1 (histExtra 2) Unit) st st' := by
  obtain ⟨K, ρ, -, r1, h⟩ := C110_BDF3 realLib realZeros (by norm_num [realZeros]) (by norm_num [realZeros]) (by norm_num [realZeros]) b 700 (by norm_num)
  obtain ⟨st', -, h'⟩ := (h 7 Real.sin 100 (by norm_num)).1 st hst
  exact ⟨st', h'⟩

-- C110: the trapezoidal rule with `h lam = 6` halves the difference and changes its sign in each step.
example (b : Bound ℝ) : ∃ u v, (u 0).y 0 = 5 ∧ (v 0).y 0 = 0 ∧
    StepsOn (fun rhs => (⟨implicitMultistep realLib realZeros AdamsMoulton2, rhs, b⟩ : Solver ℝ 1 (histExtra 0) Unit)) 6 (fun _ => 0) 0 1 u ∧
    StepsOn (fun rhs => (⟨implicitMultistep realLib realZeros AdamsMoulton2, rhs, b⟩ : Solver ℝ 1 (histExtra 0) Unit)) 6 (fun _ => 0) 0 1 v ∧
    ∀ N, (u N).y 0 - (v N).y 0 = (-1 / 2) ^ N * 5 := by
  obtain ⟨-, h⟩ := C110_AdamsMoulton2 realLib realZeros (by norm_num [realZeros]) (by norm_num [realZeros]) (by norm_num [realZeros]) b 6 (by norm_num)
  obtain ⟨h1, h2⟩ := h 6 (fun _ => 0) 1 (by norm_num)
  obtain ⟨u, u0, hu⟩ := stepsOn_exist (h := 1) (fun rhs => (⟨implicitMultistep realLib realZeros AdamsMoulton2, rhs, b⟩ : Solver ℝ 1 (histExtra 0) Unit)) h1 ⟨⟨fun _ => 0, fun _ _ => 5, fun _ _ => -30⟩, 1, ()⟩ rfl
  obtain ⟨v, v0, hv⟩ := stepsOn_exist (h := 1) (fun rhs => (⟨implicitMultistep realLib realZeros AdamsMoulton2, rhs, b⟩ : Solver ℝ 1 (histExtra 0) Unit)) h1 ⟨⟨fun _ => 0, fun _ _ => 0, fun _ _ => 0⟩, 1, ()⟩ rfl
  refine ⟨u, v, by rw [u0]; rfl, by rw [v0]; rfl, hu, hv, fun N => ?_⟩
  rw [h2 0 u v hu hv (by rw [u0]; funext i; show (-30 : ℝ) = -6 * 5 + 0; norm_num) (by rw [v0]; funext i; show (0 : ℝ) = -6 * 0 + 0; norm_num) N, u0, v0]
  show _ * ((5 : ℝ) - 0) = _
  norm_num

/-! ### Cases for C77 with one equation -/

theorem Demo.decaying_dissipative : Dissipative (decaying 7 Real.sin) := by
  intro t y z
  rw [Fin.sum_univ_one]
  simp only [decaying]
  nlinarith [sq_nonneg (y 0 - z 0)]

theorem Demo.decaying_lipschitz (t : ℝ) (y z : Vec ℝ 1) : |decaying 7 Real.sin t y 0 - decaying 7 Real.sin t z 0| ≤ 7 * |y 0 - z 0| := by
  simp only [decaying]
  rw [show -7 * y 0 + Real.sin t - (-7 * z 0 + Real.sin t) = (-7) * (y 0 - z 0) by ring, abs_mul]
  norm_num

-- C77: `BackwardEuler` on `y' = -7 y + sin t` with steps of size 1.
example (N : ℕ) : ∃ u v : ℕ → St ℝ 1 (histExtra 0) Unit, (u 0).y 0 = 5 ∧ (v 0).y 0 = 0 ∧
    (∀ k, Takes ⟨implicitMultistep realLib realZeros BackwardEuler, pureRhs (decaying 7 Real.sin), .inf⟩ (u k) (u (k + 1))) ∧
    (∀ k, Takes ⟨implicitMultistep realLib realZeros BackwardEuler, pureRhs (decaying 7 Real.sin), .inf⟩ (v k) (v (k + 1))) ∧
    length (fun i => (u N).y i - (v N).y i) ≤ length (fun i => (u 0).y i - (v 0).y i) + N * (2 * (2 * (1 + (u 0).h * 7) * realZeros.tol)) := by
  have z1 : 0 < realZeros.secantEps := by norm_num [realZeros]
  have z2 : 0 ≤ realZeros.tol := by norm_num [realZeros]
  have z3 : realZeros.rtol = 0 := by norm_num [realZeros]
  obtain ⟨K, ρ, -, r1, h⟩ := C110_BackwardEuler realLib realZeros z1 z2 z3.ge .inf 7 (by norm_num)
  obtain ⟨h1, h2⟩ := h 7 Real.sin 1 (by norm_num)
  obtain ⟨u, u0, hu⟩ := stepsOn_exist (h := 1) (fun rhs => (⟨implicitMultistep realLib realZeros BackwardEuler, rhs, .inf⟩ : Solver ℝ 1 (histExtra 0) Unit)) h1 (level 0 5) rfl
  obtain ⟨v, v0, hv⟩ := stepsOn_exist (h := 1) (fun rhs => (⟨implicitMultistep realLib realZeros BackwardEuler, rhs, .inf⟩ : Solver ℝ 1 (histExtra 0) Unit)) h1 (level 0 0) rfl
  refine ⟨u, v, by rw [u0]; rfl, by rw [v0]; rfl, hu.takes, hv.takes, ?_⟩
  exact C77_BackwardEuler_scalar realLib realZeros z1 z2 z3 _ decaying_lipschitz decaying_dissipative .inf .inf u v N (fun k _ => hu.takes k) (fun k _ => hv.takes k)
    (by rw [u0, v0]; rfl) (by rw [u0, v0]; rfl) (by rw [u0]; exact zero_le_one)

-- C77: near the equilibrium 0 of `y' = -7 y`.
example (N : ℕ) : ∃ u : ℕ → St ℝ 1 (histExtra 0) Unit, (u 0).y 0 = 5 ∧ (∀ k, Takes ⟨implicitMultistep realLib realZeros BackwardEuler, pureRhs (decaying 7 fun _ => 0), .inf⟩ (u k) (u (k + 1))) ∧
    length (fun i => (u N).y i - (0 : Vec ℝ 1) i) ≤ 5 + N * (2 * (1 + (u 0).h * 7) * realZeros.tol) := by
  have z1 : 0 < realZeros.secantEps := by norm_num [realZeros]
  have z2 : 0 ≤ realZeros.tol := by norm_num [realZeros]
  have z3 : realZeros.rtol = 0 := by norm_num [realZeros]
  obtain ⟨K, ρ, -, r1, h⟩ := C110_BackwardEuler realLib realZeros z1 z2 z3.ge .inf 7 (by norm_num)
  obtain ⟨h1, h2⟩ := h 7 (fun _ => 0) 1 (by norm_num)
  obtain ⟨u, u0, hu⟩ := stepsOn_exist (h := 1) (fun rhs => (⟨implicitMultistep realLib realZeros BackwardEuler, rhs, .inf⟩ : Solver ℝ 1 (histExtra 0) Unit)) h1 (level 0 5) rfl
  refine ⟨u, by rw [u0]; rfl, hu.takes, ?_⟩
  refine (C77_BackwardEuler_equilibrium_scalar realLib realZeros z1 z2 z3 (decaying 7 fun _ => 0) (L := 7) (fun t y z => ?_) (fun t y z => ?_) .inf u N (fun k _ => hu.takes k)
    (by rw [u0]; exact zero_le_one) 0 fun t => ?_).trans (le_of_eq ?_)
  · simp only [decaying]
    rw [show -7 * y 0 + 0 - (-7 * z 0 + 0) = (-7) * (y 0 - z 0) by ring, abs_mul]
    norm_num
  · rw [Fin.sum_univ_one]
    simp only [decaying]
    nlinarith [sq_nonneg (y 0 - z 0)]
  · funext i
    simp [decaying]
  · congr 1
    rw [u0]
    unfold length
    rw [Fin.sum_univ_one]
    show Real.sqrt ((5 - 0) ^ 2) = 5
    rw [sub_zero]
    exact Real.sqrt_sq (by norm_num)

-- C77: the trapezoidal rule and `BDF2`.
example (N : ℕ) : ∃ u v : ℕ → St ℝ 1 (histExtra 0) Unit, (u 0).y 0 = 5 ∧ (v 0).y 0 = 0 ∧
    (∀ k, Takes ⟨implicitMultistep realLib realZeros AdamsMoulton2, pureRhs (decaying 7 Real.sin), .inf⟩ (u k) (u (k + 1))) ∧
    (∀ k, Takes ⟨implicitMultistep realLib realZeros AdamsMoulton2, pureRhs (decaying 7 Real.sin), .inf⟩ (v k) (v (k + 1))) ∧
    length (fun i => (u N).y i - (v N).y i) ≤ length (fun i => (u 0).y i - (v 0).y i) +
      (u 0).h / 2 * length (fun i => decaying 7 Real.sin (u 0).t (u 0).y i - decaying 7 Real.sin (u 0).t (v 0).y i) +
      N * (2 * (2 * (1 + (u 0).h / 2 * 7) * realZeros.tol)) := by
  have z1 : 0 < realZeros.secantEps := by norm_num [realZeros]
  have z2 : 0 ≤ realZeros.tol := by norm_num [realZeros]
  have z3 : realZeros.rtol = 0 := by norm_num [realZeros]
  obtain ⟨-, h⟩ := C110_AdamsMoulton2 realLib realZeros z1 z2 z3.ge .inf 7 (by norm_num)
  obtain ⟨h1, h2⟩ := h 7 Real.sin 1 (by norm_num)
  obtain ⟨u, u0, hu⟩ := stepsOn_exist (h := 1) (fun rhs => (⟨implicitMultistep realLib realZeros AdamsMoulton2, rhs, .inf⟩ : Solver ℝ 1 (histExtra 0) Unit)) h1 ⟨⟨fun _ => 0, fun _ _ => 5, fun _ _ => -35⟩, 1, ()⟩ rfl
  obtain ⟨v, v0, hv⟩ := stepsOn_exist (h := 1) (fun rhs => (⟨implicitMultistep realLib realZeros AdamsMoulton2, rhs, .inf⟩ : Solver ℝ 1 (histExtra 0) Unit)) h1 (level 0 0) rfl
  refine ⟨u, v, by rw [u0]; rfl, by rw [v0]; rfl, hu.takes, hv.takes, ?_⟩
  exact C77_AdamsMoulton2_scalar realLib realZeros z1 z2 z3 _ decaying_lipschitz decaying_dissipative .inf .inf u v N (fun k _ => hu.takes k) (fun k _ => hv.takes k)
    (by rw [u0, v0]; rfl) (by rw [u0, v0]; rfl) (by rw [u0]; exact zero_le_one)
    (by rw [u0]; funext i; show (-35 : ℝ) = -7 * 5 + Real.sin 0; rw [Real.sin_zero]; norm_num)
    (by rw [v0]; funext i; show (0 : ℝ) = -7 * 0 + Real.sin 0; rw [Real.sin_zero]; norm_num)

example (N : ℕ) : ∃ u v : ℕ → St ℝ 1 (histExtra 1) Unit, (u 0).y 0 = 5 ∧ (v 0).y 0 = 0 ∧
    (∀ k, Takes ⟨implicitMultistep realLib realZeros BDF2, pureRhs (decaying 7 Real.sin), .inf⟩ (u k) (u (k + 1))) ∧
    (∀ k, Takes ⟨implicitMultistep realLib realZeros BDF2, pureRhs (decaying 7 Real.sin), .inf⟩ (v k) (v (k + 1))) ∧
    length (fun i => (u N).y i - (v N).y i) ≤
      Real.sqrt (length (fun i => (u 0).y i - (v 0).y i) ^ 2 +
        length (fun i => 2 * ((u 0).y i - (v 0).y i) - (ago (u 0).cache.ys 1 i - ago (v 0).cache.ys 1 i)) ^ 2) +
      N * (12 * (2 * (1 + 2 * (u 0).h / 3 * 7) * realZeros.tol)) := by
  have z1 : 0 < realZeros.secantEps := by norm_num [realZeros]
  have z2 : 0 ≤ realZeros.tol := by norm_num [realZeros]
  have z3 : realZeros.rtol = 0 := by norm_num [realZeros]
  obtain ⟨K, ρ, -, r1, h⟩ := C110_BDF2 realLib realZeros z1 z2 z3.ge .inf 7 (by norm_num)
  obtain ⟨h1, h2⟩ := h 7 Real.sin 1 (by norm_num)
  obtain ⟨u, u0, hu⟩ := stepsOn_exist (h := 1) (fun rhs => (⟨implicitMultistep realLib realZeros BDF2, rhs, .inf⟩ : Solver ℝ 1 (histExtra 1) Unit)) h1 (level 1 5) rfl
  obtain ⟨v, v0, hv⟩ := stepsOn_exist (h := 1) (fun rhs => (⟨implicitMultistep realLib realZeros BDF2, rhs, .inf⟩ : Solver ℝ 1 (histExtra 1) Unit)) h1 (level 1 0) rfl
  refine ⟨u, v, by rw [u0]; rfl, by rw [v0]; rfl, hu.takes, hv.takes, ?_⟩
  exact C77_BDF2_scalar realLib realZeros z1 z2 z3 _ decaying_lipschitz decaying_dissipative .inf .inf u v N (fun k _ => hu.takes k) (fun k _ => hv.takes k)
    (by rw [u0, v0]; rfl) (by rw [u0, v0]; rfl) (by rw [u0]; exact zero_le_one)

end Nbkode
