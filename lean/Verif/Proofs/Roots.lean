import Verif.Props.Zeros
import Verif.Spec.Roots
import Mathlib.Analysis.Calculus.MeanValue
import Mathlib.MeasureTheory.Integral.IntervalIntegral.FundThmCalculus
import Mathlib.Data.Nat.Fib.Basic
import Mathlib.Analysis.Calculus.Deriv.Pow

/-! # Local convergence of the scalar root finders -/

set_option autoImplicit false
set_option linter.unusedSectionVars false

namespace Nbkode
open Py Spec Solver

/-! ### The loops return -/

theorem newtonLoop_total (f f' : ℝ → ℝ) (f2 : Option (ℝ → ℝ)) (tol rtol : ℝ) (m itr : ℕ) (p0 : ℝ) (pp : Option ℝ) (fc : ℕ)
    (h : m ≠ 0 ∨ pp ≠ none) : ∃ r, newtonLoop (fun x => .ok (f x)) (fun x => .ok (f' x)) (f2.map fun g x => .ok (g x)) tol rtol m itr p0 pp fc = .ok r := by
  induction m generalizing itr p0 pp fc with
  | zero =>
    cases pp with
    | none => simp at h
    | some p => exact ⟨_, rfl⟩
  | succ m ih =>
    rw [newtonLoop.eq_3]
    simp only [bind, Except.bind, pure, Except.pure]
    by_cases h0 : f p0 = 0
    · simp [h0]
    by_cases h1 : f' p0 = 0
    · simp [h0, h1]
    have hb : (f p0 == 0) = false := by simpa using h0
    have hb' : (f' p0 == 0) = false := by simpa using h1
    simp only [hb, hb', pyDiv_of_ne h1, Bool.false_eq_true, if_false]
    cases f2 with
    | none =>
      simp only [Option.map_none]
      split
      · exact ⟨_, rfl⟩
      · exact ih _ _ _ _ (Or.inr (by simp))
    | some g =>
      simp only [Option.map_some, Nat.cast_ofNat, pyDiv_of_ne (two_ne_zero (α := ℝ)), pyAbs_eq]
      by_cases ha : |f p0 / f' p0 * g p0 / f' p0 / 2| < 1
      · have hne : 1 - f p0 / f' p0 * g p0 / f' p0 / 2 ≠ 0 := by
          intro h2
          rw [← sub_eq_zero.mp h2, abs_one] at ha
          exact lt_irrefl _ ha
        simp only [ha, if_true, pyDiv_of_ne hne]
        split
        · exact ⟨_, rfl⟩
        · exact ih _ _ _ _ (Or.inr (by simp))
      · simp only [ha, if_false]
        split
        · exact ⟨_, rfl⟩
        · exact ih _ _ _ _ (Or.inr (by simp))

theorem secantLoop_total (f : ℝ → ℝ) (tol rtol : ℝ) (m itr : ℕ) (p0 p1 q0 q1 : ℝ) (pp : Option ℝ) (fc : ℕ)
    (h : m ≠ 0 ∨ pp ≠ none) : ∃ r, secantLoop (fun x => .ok (f x)) tol rtol m itr p0 p1 q0 q1 pp fc = .ok r := by
  induction m generalizing itr p0 p1 q0 q1 pp fc with
  | zero =>
    cases pp with
    | none => simp at h
    | some p => exact ⟨_, rfl⟩
  | succ m ih =>
    rw [secantLoop.eq_3]
    by_cases hq : q1 = q0
    · subst hq
      simp [pyDiv_of_ne (two_ne_zero (α := ℝ)), bind, Except.bind, pure, Except.pure]
    have hb : (q1 == q0) = false := by simpa using hq
    rw [hb]
    simp only [Bool.false_eq_true, if_false, pyAbs_eq]
    have key : ∀ (qu qv : ℝ), qu ≠ qv → qu ≠ 0 → 1 - qv / qu ≠ 0 := by
      intro qu qv h1 h2 h4
      exact h1 ((div_eq_one_iff_eq h2).mp (sub_eq_zero.mp h4).symm).symm
    by_cases hlt : |q0| < |q1|
    · have hq1 : q1 ≠ 0 := by
        rintro rfl; rw [abs_zero] at hlt; exact absurd hlt (not_lt.mpr (abs_nonneg _))
      simp only [hlt, if_true, pyDiv_of_ne hq1, bind, Except.bind]
      rw [pyDiv_of_ne (key q1 q0 hq hq1)]
      simp only [pure, Except.pure]
      split
      · exact ⟨_, rfl⟩
      · exact ih _ _ _ _ _ _ _ (Or.inr (by simp))
    · have hq0 : q0 ≠ 0 := by
        rintro rfl
        rw [abs_zero, not_lt] at hlt
        exact hq (abs_eq_zero.mp (le_antisymm hlt (abs_nonneg _)))
      simp only [hlt, if_false, pyDiv_of_ne hq0, bind, Except.bind]
      rw [pyDiv_of_ne (key q0 q1 (Ne.symm hq) hq0)]
      simp only [pure, Except.pure]
      split
      · exact ⟨_, rfl⟩
      · exact ih _ _ _ _ _ _ _ (Or.inr (by simp))

/-! ### From the rate of one step to the whole search -/

/-- Steps of order `k` near `x` make the search succeed. -/
theorem newtonLoop_local (f f' : ℝ → ℝ) (f2 : Option (ℝ → ℝ)) {x r C tol rtol : ℝ} {k : ℕ} (hk : 2 ≤ k) (hC : 0 < C) (hr : C * r ≤ 1 / 2)
    (htol : 0 < tol) (hrt : 0 ≤ rtol) (hz : ∀ p, |p - x| ≤ r → f p = 0 → p = x) (hd : ∀ p, |p - x| ≤ r → f' p ≠ 0)
    (hs : ∀ p p', |p - x| ≤ r → NewtonStep (fun x => .ok (f x)) (fun x => .ok (f' x)) (f2.map fun g x => .ok (g x)) p p' →
      |p' - x| ≤ C ^ (k - 1) * |p - x| ^ k) (m itr : ℕ) (p0 : ℝ) (h0 : |p0 - x| ≤ r) (pp : Option ℝ) (fc : ℕ)
    (hm : 2 / C * (C * |p0 - x|) ^ k ^ m ≤ tol) (res : NewtonResult ℝ)
    (hres : newtonLoop (fun x => .ok (f x)) (fun x => .ok (f' x)) (f2.map fun g x => .ok (g x)) tol rtol (m + 1) itr p0 pp fc = .ok res) :
    res.flag = .ok ∧ |res.p - x| ≤ C ^ (k - 1) * (2 * (tol + rtol * (|x| + r))) ^ k := by
  have hr0 : 0 ≤ r := (abs_nonneg _).trans h0
  have hB : 0 ≤ C ^ (k - 1) * (2 * (tol + rtol * (|x| + r))) ^ k := by positivity
  have step : ∀ p0 p, |p0 - x| ≤ r → NewtonStep (fun x => .ok (f x)) (fun x => .ok (f' x)) (f2.map fun g x => .ok (g x)) p0 p →
      C * |p - x| ≤ (C * |p0 - x|) ^ k ∧ |p - x| ≤ |p0 - x| / 2 := by
    intro p0 p h0 h
    have h1 := hs p0 p h0 h
    obtain ⟨j, rfl⟩ : ∃ j, k = j + 2 := ⟨k - 2, by omega⟩
    have hce : C * |p0 - x| ≤ 1 / 2 := (mul_le_mul_of_nonneg_left h0 hC.le).trans hr
    have hce0 : 0 ≤ C * |p0 - x| := by positivity
    rw [show j + 2 - 1 = j + 1 by omega] at h1
    refine ⟨?_, ?_⟩
    · calc C * |p - x| ≤ C * (C ^ (j + 1) * |p0 - x| ^ (j + 2)) := mul_le_mul_of_nonneg_left h1 hC.le
        _ = _ := by rw [mul_pow]; ring
    · calc |p - x| ≤ (C * |p0 - x|) ^ (j + 1) * |p0 - x| := by rw [mul_pow]; refine h1.trans (le_of_eq ?_); ring
        _ ≤ (1 / 2) * |p0 - x| := by
            refine mul_le_mul_of_nonneg_right ?_ (abs_nonneg _)
            calc (C * |p0 - x|) ^ (j + 1) ≤ (C * |p0 - x|) ^ 1 := pow_le_pow_of_le_one hce0 (by linarith) (by omega)
              _ ≤ 1 / 2 := by rw [pow_one]; exact hce
        _ = _ := by ring
  have accept : ∀ p0 p, |p0 - x| ≤ r → NewtonStep (fun x => .ok (f x)) (fun x => .ok (f' x)) (f2.map fun g x => .ok (g x)) p0 p →
      |p - p0| ≤ tol + rtol * |p0| → |p - x| ≤ C ^ (k - 1) * (2 * (tol + rtol * (|x| + r))) ^ k := by
    intro p0 p h0 h hc
    have h1 := (step p0 p h0 h).2
    have h2 : |p0 - x| ≤ |p - p0| + |p - x| := by
      have := abs_sub_le p0 p x
      rwa [abs_sub_comm p0 p] at this
    have h3 : |p0| ≤ |x| + r := by
      have := abs_sub_abs_le_abs_sub p0 x
      linarith
    have h4 : |p0 - x| ≤ 2 * (tol + rtol * (|x| + r)) := by
      have := mul_le_mul_of_nonneg_left h3 hrt
      linarith
    refine (hs p0 p h0 h).trans (mul_le_mul_of_nonneg_left ?_ (by positivity))
    exact pow_le_pow_left₀ (abs_nonneg _) h4 _
  induction m generalizing itr p0 pp fc with
  | zero =>
    rcases newtonLoop_succ _ _ _ _ _ _ _ _ _ _ _ hres with ⟨h1, h2, h3, -⟩ | ⟨v, h1, h2, h3, -⟩ | ⟨p, h1, ⟨h2, h3, h4, -⟩ | ⟨h2, -⟩⟩
    · refine ⟨h3, ?_⟩
      rw [h2, hz p0 h0 (Except.ok.inj h1), sub_self, abs_zero]
      exact hB
    · exact absurd (Except.ok.inj h3) (hd p0 h0)
    · exact ⟨h4, h3 ▸ accept p0 p h0 h1 h2⟩
    · exfalso
      apply h2
      have h3 := (step p0 p h0 h1).2
      have h4 := abs_sub_le p x p0
      rw [abs_sub_comm x p0] at h4
      rw [pow_zero, pow_one, ← mul_assoc, div_mul_cancel₀ _ hC.ne'] at hm
      have : 0 ≤ rtol * |p0| := by positivity
      linarith [abs_nonneg (p0 - x)]
  | succ m ih =>
    rcases newtonLoop_succ _ _ _ _ _ _ _ _ _ _ _ hres with ⟨h1, h2, h3, -⟩ | ⟨v, h1, h2, h3, -⟩ | ⟨p, h1, ⟨h2, h3, h4, -⟩ | ⟨h2, fc', h3⟩⟩
    · refine ⟨h3, ?_⟩
      rw [h2, hz p0 h0 (Except.ok.inj h1), sub_self, abs_zero]
      exact hB
    · exact absurd (Except.ok.inj h3) (hd p0 h0)
    · exact ⟨h4, h3 ▸ accept p0 p h0 h1 h2⟩
    · obtain ⟨g1, g2⟩ := step p0 p h0 h1
      refine ih _ p (by linarith [abs_nonneg (p0 - x)]) _ fc' (le_trans ?_ hm) h3
      refine mul_le_mul_of_nonneg_left ?_ (by positivity)
      calc (C * |p - x|) ^ k ^ m ≤ ((C * |p0 - x|) ^ k) ^ k ^ m := pow_le_pow_left₀ (by positivity) g1 _
        _ = _ := by rw [← pow_mul, ← pow_succ']

/-- Secant steps near `x` make the search succeed. -/
theorem secantLoop_local (f : ℝ → ℝ) {x r C tol rtol : ℝ} (hC : 0 < C) (hr : C * r ≤ 1 / 2) (htol : 0 < tol) (hrt : 0 ≤ rtol)
    (hi : ∀ p p', |p - x| ≤ r → |p' - x| ≤ r → f p = f p' → p = p')
    (hs : ∀ p0 p1 p, |p0 - x| ≤ r → |p1 - x| ≤ r → SecantPoint p0 (f p0) p1 (f p1) p → |p - x| ≤ C * |p0 - x| * |p1 - x|)
    (m itr : ℕ) (p0 p1 : ℝ) (h0 : |p0 - x| ≤ r) (h1 : |p1 - x| ≤ r) (hne : p0 ≠ p1) (pp : Option ℝ) (fc j : ℕ)
    (hj0 : C * |p0 - x| ≤ (1 / 2) ^ Nat.fib j) (hj1 : C * |p1 - x| ≤ (1 / 2) ^ Nat.fib (j + 1))
    (hm : 2 / C * (1 / 2) ^ Nat.fib (j + 1 + m) ≤ tol) (res : NewtonResult ℝ)
    (hres : secantLoop (fun x => .ok (f x)) tol rtol (m + 1) itr p0 p1 (f p0) (f p1) pp fc = .ok res) :
    res.flag = .ok ∧ |res.p - x| ≤ tol + rtol * (|x| + r) := by
  have hr0 : 0 ≤ r := (abs_nonneg _).trans h0
  have step : ∀ p0 p1 p, |p0 - x| ≤ r → |p1 - x| ≤ r → SecantPoint p0 (f p0) p1 (f p1) p →
      |p - x| ≤ |p1 - x| / 2 := by
    intro p0 p1 p h0 h1 h
    have h2 := hs p0 p1 p h0 h1 h
    have h3 : C * |p0 - x| ≤ 1 / 2 := (mul_le_mul_of_nonneg_left h0 hC.le).trans hr
    have := mul_le_mul_of_nonneg_right h3 (abs_nonneg (p1 - x))
    linarith
  have accept : ∀ p0 p1 p, |p0 - x| ≤ r → |p1 - x| ≤ r → SecantPoint p0 (f p0) p1 (f p1) p → |p - p1| ≤ tol + rtol * |p1| →
      |p - x| ≤ tol + rtol * (|x| + r) := by
    intro p0 p1 p h0 h1 h hc
    have h2 := step p0 p1 p h0 h1 h
    have h3 : |p1 - x| ≤ |p - p1| + |p - x| := by
      have := abs_sub_le p1 p x
      rwa [abs_sub_comm p1 p] at this
    have h4 : |p1| ≤ |x| + r := by
      have := abs_sub_abs_le_abs_sub p1 x
      linarith
    have := mul_le_mul_of_nonneg_left h4 hrt
    linarith
  induction m generalizing itr p0 p1 pp fc j with
  | zero =>
    rcases secantLoop_succ _ _ _ _ _ _ _ _ _ _ _ _ hres with ⟨h2, -⟩ | ⟨p, h2, ⟨h3, rfl⟩ | ⟨q, h3, -⟩⟩
    · exact absurd (hi p0 p1 h0 h1 h2.symm) hne
    · exact ⟨rfl, accept p0 p1 p h0 h1 h2 h3⟩
    · exfalso
      apply h3
      have h4 := step p0 p1 p h0 h1 h2
      have h5 := abs_sub_le p x p1
      rw [abs_sub_comm x p1] at h5
      have h6 := mul_le_mul_of_nonneg_left hj1 (show 0 ≤ 2 / C by positivity)
      rw [← mul_assoc, div_mul_cancel₀ _ hC.ne'] at h6
      have : 0 ≤ rtol * |p1| := by positivity
      rw [add_zero] at hm
      linarith [abs_nonneg (p1 - x)]
  | succ m ih =>
    rcases secantLoop_succ _ _ _ _ _ _ _ _ _ _ _ _ hres with ⟨h2, -⟩ | ⟨p, h2, ⟨h3, rfl⟩ | ⟨q, h3, hq, h4⟩⟩
    · exact absurd (hi p0 p1 h0 h1 h2.symm) hne
    · exact ⟨rfl, accept p0 p1 p h0 h1 h2 h3⟩
    · cases hq
      have h5 := step p0 p1 p h0 h1 h2
      have h6 := hs p0 p1 p h0 h1 h2
      refine ih _ p1 p h1 (by linarith [abs_nonneg (p1 - x)]) ?_ _ _ (j + 1) hj1 ?_ ?_ h4
      · rintro rfl
        apply h3
        rw [sub_self, abs_zero]
        positivity
      · rw [Nat.fib_add_two, pow_add]
        calc C * |p - x| ≤ C * (C * |p0 - x| * |p1 - x|) := mul_le_mul_of_nonneg_left h6 hC.le
          _ = (C * |p0 - x|) * (C * |p1 - x|) := by ring
          _ ≤ _ := mul_le_mul hj0 hj1 (by positivity) (by positivity)
      · rw [show j + 1 + 1 + m = j + 1 + (m + 1) by ring]
        exact hm

/-! ### The rate of one step -/

section rates
variable {f f' f2 : ℝ → ℝ} {x ρ L : ℝ}

/-- Near a simple root the function is close to its tangent there. -/
theorem slope_near (hρ : 0 < ρ) (hd : ∀ y, |y - x| ≤ ρ → HasDerivAt f (f' y) y)
    (hL : ∀ y z, |y - x| ≤ ρ → |z - x| ≤ ρ → |f' y - f' z| ≤ L * |y - z|) (hL0 : 0 ≤ L) {y z w : ℝ} (hy : |y - x| ≤ ρ) (hz : |z - x| ≤ ρ)
    (hw : |w - x| ≤ ρ) {R : ℝ} (hyw : |y - w| ≤ R) (hzw : |z - w| ≤ R) :
    |f y - f z - f' w * (y - z)| ≤ L * R * |y - z| := by
  have hmem : ∀ v ∈ Set.uIcc z y, |v - x| ≤ ρ ∧ |v - w| ≤ R := by
    intro v hv
    have h1 : v ∈ Set.Icc (x - ρ) (x + ρ) := by
      refine (Set.uIcc_subset_Icc ?_ ?_) hv
      · rw [abs_le] at hz; constructor <;> linarith
      · rw [abs_le] at hy; constructor <;> linarith
    have h2 : v ∈ Set.Icc (w - R) (w + R) := by
      refine (Set.uIcc_subset_Icc ?_ ?_) hv
      · rw [abs_le] at hzw; constructor <;> linarith
      · rw [abs_le] at hyw; constructor <;> linarith
    exact ⟨abs_le.mpr ⟨by linarith [h1.1], by linarith [h1.2]⟩, abs_le.mpr ⟨by linarith [h2.1], by linarith [h2.2]⟩⟩
  have := (convex_uIcc z y).norm_image_sub_le_of_norm_hasDerivWithin_le (f := fun v => f v - f' w * v) (f' := fun v => f' v - f' w)
    (C := L * R) (x := z) (y := y)
    (fun v hv => ((hd v (hmem v hv).1).sub (by simpa using (hasDerivAt_id v).const_mul (f' w))).hasDerivWithinAt)
    (fun v hv => (hL v w (hmem v hv).1 hw).trans (mul_le_mul_of_nonneg_left (hmem v hv).2 hL0)) Set.left_mem_uIcc Set.right_mem_uIcc
  rw [Real.norm_eq_abs, Real.norm_eq_abs] at this
  refine le_trans (le_of_eq ?_) this
  congr 1; ring

theorem newton_rate (hρ : 0 < ρ) (hd : ∀ y, |y - x| ≤ ρ → HasDerivAt f (f' y) y)
    (hL : ∀ y z, |y - x| ≤ ρ → |z - x| ≤ ρ → |f' y - f' z| ≤ L * |y - z|) (hL0 : 0 ≤ L) (h0 : f x = 0) (h1 : f' x ≠ 0) :
    ∃ r C, 0 < r ∧ 0 < C ∧ C * r ≤ 1 / 2 ∧ (∀ p p', |p - x| ≤ r → |p' - x| ≤ r → f p = f p' → p = p') ∧
      (∀ p, |p - x| ≤ r → f' p ≠ 0 ∧ |p - f p / f' p - x| ≤ C * |p - x| ^ 2) ∧
      ∀ p0 p1 p, |p0 - x| ≤ r → |p1 - x| ≤ r → SecantPoint p0 (f p0) p1 (f p1) p → |p - x| ≤ C * |p0 - x| * |p1 - x| := by
  have ha : 0 < |f' x| := abs_pos.mpr h1
  set a := |f' x| with had
  set C := (2 * L + 1) / a with hCd
  have hC : 0 < C := by positivity
  set r := min ρ (1 / (2 * C)) with hrd
  have hr : 0 < r := lt_min hρ (by positivity)
  have hrρ : r ≤ ρ := min_le_left _ _
  have hCr : C * r ≤ 1 / 2 := by
    calc C * r ≤ C * (1 / (2 * C)) := mul_le_mul_of_nonneg_left (min_le_right _ _) hC.le
      _ = 1 / 2 := by field_simp
  have hCa : C * a = 2 * L + 1 := by rw [hCd]; field_simp
  have hLr : L * r ≤ a / 2 := by
    have : (C * r) * a ≤ 1 / 2 * a := mul_le_mul_of_nonneg_right hCr ha.le
    have h2 : (C * r) * a = 2 * (L * r) + r := by linear_combination r * hCa
    linarith
  have hx : |x - x| ≤ ρ := by rw [sub_self, abs_zero]; exact hρ.le
  have slope : ∀ p p', |p - x| ≤ r → |p' - x| ≤ r → a / 2 * |p - p'| ≤ |f p - f p'| := by
    intro p p' hp hp'
    have h2 := slope_near hρ hd hL hL0 (hp.trans hrρ) (hp'.trans hrρ) hx hp hp'
    have h3 : |f' x * (p - p')| ≤ |f p - f p'| + |f p - f p' - f' x * (p - p')| := by
      have := abs_sub_abs_le_abs_sub (f' x * (p - p')) (f p - f p')
      rw [abs_sub_comm (f' x * (p - p'))] at this
      linarith
    rw [abs_mul, ← had] at h3
    have := mul_le_mul_of_nonneg_right hLr (abs_nonneg (p - p'))
    linarith
  refine ⟨r, C, hr, hC, hCr, fun p p' hp hp' he => ?_, fun p hp => ?_, fun p0 p1 p hp0 hp1 hs => ?_⟩
  · have := slope p p' hp hp'
    rw [he, sub_self, abs_zero] at this
    have h2 : |p - p'| ≤ 0 := by
      by_contra hc
      have := mul_pos (half_pos ha) (not_le.mp hc)
      linarith
    exact sub_eq_zero.mp (abs_eq_zero.mp (le_antisymm h2 (abs_nonneg _)))
  · have hd1 : a / 2 ≤ |f' p| := by
      have h2 := hL x p hx (hp.trans hrρ)
      rw [abs_sub_comm x p] at h2
      have h3 := mul_le_mul_of_nonneg_left hp hL0
      have h4 := abs_sub_abs_le_abs_sub (f' x) (f' p)
      rw [← had] at h4
      linarith
    have hd0 : f' p ≠ 0 := abs_pos.mp ((half_pos ha).trans_le hd1)
    refine ⟨hd0, ?_⟩
    have h2 := slope_near hρ hd hL hL0 (hp.trans hrρ) hx (hp.trans hrρ) (R := |p - x|) (by rw [sub_self, abs_zero]; exact abs_nonneg _)
      (by rw [abs_sub_comm])
    rw [h0, sub_zero] at h2
    have e : p - f p / f' p - x = -((f p - f' p * (p - x)) / f' p) := by field_simp; ring
    rw [e, abs_neg, abs_div, div_le_iff₀ (abs_pos.mpr hd0)]
    have h5 : 0 ≤ |p - x| ^ 2 := by positivity
    calc |f p - f' p * (p - x)| ≤ L * |p - x| ^ 2 := by rw [pow_two, ← mul_assoc]; exact h2
      _ ≤ (C * |p - x| ^ 2) * (a / 2) := by nlinarith
      _ ≤ _ := mul_le_mul_of_nonneg_left hd1 (by positivity)
  · obtain ⟨hq, hp⟩ := hs
    set e0 := p0 - x with he0
    set e1 := p1 - x with he1
    -- the divided difference argument
    have hseg : ∀ e, |e| ≤ r → ∀ s ∈ Set.Icc (0 : ℝ) 1, |x + s * e - x| ≤ ρ := by
      intro e he s hs
      rw [add_sub_cancel_left, abs_mul, abs_of_nonneg hs.1]
      calc s * |e| ≤ 1 * |e| := mul_le_mul_of_nonneg_right hs.2 (abs_nonneg _)
        _ ≤ ρ := by rw [one_mul]; exact he.trans hrρ
    have hlin : ∀ (e s : ℝ), HasDerivAt (fun s => x + s * e) e s := fun e s => by
      simpa using ((hasDerivAt_id s).mul_const e).const_add x
    have h2 := (convex_Icc (0 : ℝ) 1).norm_image_sub_le_of_norm_hasDerivWithin_le
      (f := fun s => e0 * f (x + s * e1) - e1 * f (x + s * e0))
      (f' := fun s => e0 * (f' (x + s * e1) * e1) - e1 * (f' (x + s * e0) * e0)) (C := L * |e0| * |e1| * |e1 - e0|) (x := 0) (y := 1)
      (fun s hs => ((((hd _ (hseg e1 hp1 s hs)).comp s (hlin e1 s)).const_mul e0).sub
        (((hd _ (hseg e0 hp0 s hs)).comp s (hlin e0 s)).const_mul e1)).hasDerivWithinAt)
      (fun s hs => by
        have h3 := hL _ _ (hseg e1 hp1 s hs) (hseg e0 hp0 s hs)
        have e3 : e0 * (f' (x + s * e1) * e1) - e1 * (f' (x + s * e0) * e0) = e0 * e1 * (f' (x + s * e1) - f' (x + s * e0)) := by ring
        have e4 : x + s * e1 - (x + s * e0) = s * (e1 - e0) := by ring
        rw [e4, abs_mul, abs_of_nonneg hs.1] at h3
        rw [e3, Real.norm_eq_abs, abs_mul, abs_mul]
        have h5 : s * |e1 - e0| ≤ |e1 - e0| := by nlinarith [hs.2, abs_nonneg (e1 - e0)]
        calc |e0| * |e1| * |f' (x + s * e1) - f' (x + s * e0)| ≤ |e0| * |e1| * (L * |e1 - e0|) :=
              mul_le_mul_of_nonneg_left (h3.trans (mul_le_mul_of_nonneg_left h5 hL0)) (by positivity)
          _ = _ := by ring) (by simp) (by simp)
    simp only [one_mul, zero_mul, add_zero, h0, mul_zero, sub_zero, norm_one, mul_one, Real.norm_eq_abs] at h2
    rw [show x + e1 = p1 by rw [he1]; ring, show x + e0 = p0 by rw [he0]; ring] at h2
    have e5 : (p - x) * (f p1 - f p0) = e0 * f p1 - e1 * f p0 := by rw [he0, he1]; linear_combination hp
    rw [← e5, abs_mul] at h2
    have h6 := slope p1 p0 hp1 hp0
    rw [show p1 - p0 = e1 - e0 by rw [he0, he1]; ring] at h6
    have hne : 0 < |e1 - e0| := by
      refine abs_pos.mpr fun h => hq ?_
      have : p1 = p0 := by rw [he0, he1] at h; linarith
      rw [this]
    have h7 : |p - x| * (a / 2 * |e1 - e0|) ≤ L * |e0| * |e1| * |e1 - e0| :=
      (mul_le_mul_of_nonneg_left h6 (abs_nonneg _)).trans h2
    have h8 : |p - x| * (a / 2) ≤ L * |e0| * |e1| := by
      refine le_of_mul_le_mul_right ?_ hne
      linarith
    have h9 : |p - x| * (a / 2) ≤ C * |e0| * |e1| * (a / 2) := by
      have : C * |e0| * |e1| * (a / 2) = (L + 1 / 2) * (|e0| * |e1|) := by linear_combination (|e0| * |e1| / 2) * hCa
      rw [this]
      have : 0 ≤ |e0| * |e1| := by positivity
      linarith
    exact le_of_mul_le_mul_right h9 (half_pos ha)

theorem halley_rate (hρ : 0 < ρ) (hd : ∀ y, |y - x| ≤ ρ → HasDerivAt f (f' y) y) (hd2 : ∀ y, |y - x| ≤ ρ → HasDerivAt f' (f2 y) y)
    (hL : ∀ y z, |y - x| ≤ ρ → |z - x| ≤ ρ → |f2 y - f2 z| ≤ L * |y - z|) (hL0 : 0 ≤ L) (h0 : f x = 0) (h1 : f' x ≠ 0) :
    ∃ r C, 0 < r ∧ 0 < C ∧ C * r ≤ 1 / 2 ∧ (∀ p, |p - x| ≤ r → f p = 0 → p = x) ∧
      ∀ p, |p - x| ≤ r → f' p ≠ 0 ∧ |f p / f' p * f2 p / f' p / 2| < 1 ∧
        |p - f p / f' p / (1 - f p / f' p * f2 p / f' p / 2) - x| ≤ C ^ 2 * |p - x| ^ 3 := by
  have ha : 0 < |f' x| := abs_pos.mpr h1
  have hx : |x - x| ≤ ρ := by rw [sub_self, abs_zero]; exact hρ.le
  set M := |f2 x| + L * ρ with hMd
  have hM0 : 0 ≤ M := by positivity
  have hf2 : ∀ y, |y - x| ≤ ρ → |f2 y| ≤ M := by
    intro y hy
    have h2 := hL y x hy hx
    have h3 := abs_sub_abs_le_abs_sub (f2 y) (f2 x)
    have h4 := mul_le_mul_of_nonneg_left hy hL0
    linarith
  have hcv : ∀ y z, |y - x| ≤ ρ → |z - x| ≤ ρ → ∀ v ∈ Set.uIcc z y, |v - x| ≤ ρ := by
    intro y z hy hz v hv
    have h1 : v ∈ Set.Icc (x - ρ) (x + ρ) := by
      refine (Set.uIcc_subset_Icc ?_ ?_) hv
      · rw [abs_le] at hz; constructor <;> linarith
      · rw [abs_le] at hy; constructor <;> linarith
    exact abs_le.mpr ⟨by linarith [h1.1], by linarith [h1.2]⟩
  have hLM : ∀ y z, |y - x| ≤ ρ → |z - x| ≤ ρ → |f' y - f' z| ≤ M * |y - z| := by
    intro y z hy hz
    have := (convex_uIcc z y).norm_image_sub_le_of_norm_hasDerivWithin_le (f := f') (f' := f2) (C := M) (x := z) (y := y)
      (fun v hv => (hd2 v (hcv y z hy hz v hv)).hasDerivWithinAt) (fun v hv => hf2 v (hcv y z hy hz v hv)) Set.left_mem_uIcc Set.right_mem_uIcc
    rwa [Real.norm_eq_abs, Real.norm_eq_abs] at this
  obtain ⟨r1, C1, hr1, hC1, hCr1, hinj, hnw, -⟩ := newton_rate hρ hd hLM hM0 h0 h1
  set A := |f' x| with hA
  set C := C1 + 1 + 4 * L / A + 4 * M ^ 2 / A ^ 2 + 4 * M / A with hCd
  have hC : 1 ≤ C := by
    have : 0 ≤ 4 * L / A + 4 * M ^ 2 / A ^ 2 + 4 * M / A := by positivity
    linarith
  set r := min ρ (min r1 (1 / (2 * C))) with hrd
  have hCp : 0 < C := by linarith
  have hr : 0 < r := lt_min hρ (lt_min hr1 (by positivity))
  have hrρ : r ≤ ρ := min_le_left _ _
  have hrr1 : r ≤ r1 := (min_le_right _ _).trans (min_le_left _ _)
  have hCr : C * r ≤ 1 / 2 := by
    calc C * r ≤ C * (1 / (2 * C)) := mul_le_mul_of_nonneg_left ((min_le_right _ _).trans (min_le_right _ _)) hCp.le
      _ = 1 / 2 := by field_simp
  have hMr : 4 * M / A * r ≤ 1 / 2 := by
    refine le_trans (mul_le_mul_of_nonneg_right ?_ hr.le) hCr
    have : 0 ≤ 4 * L / A + 4 * M ^ 2 / A ^ 2 := by positivity
    linarith
  have hMr' : M * r ≤ A / 8 := by
    have := mul_le_mul_of_nonneg_right hMr ha.le
    have e : 4 * M / A * r * A = 4 * (M * r) := by field_simp
    linarith
  refine ⟨r, C, hr, hCp, hCr, fun p hp hfp => hinj p x (hp.trans hrr1) (by rw [sub_self, abs_zero]; exact hr1.le) (by rw [hfp, h0]),
    fun p hp => ?_⟩
  have hpρ := hp.trans hrρ
  have hd1 : A / 2 ≤ |f' p| := by
    have h2 := hLM x p hx hpρ
    rw [abs_sub_comm x p] at h2
    have h3 := mul_le_mul_of_nonneg_left hp hM0
    have h4 := abs_sub_abs_le_abs_sub (f' x) (f' p)
    rw [← hA] at h4
    linarith
  have hdp : 0 < |f' p| := (half_pos ha).trans_le hd1
  have hd0 : f' p ≠ 0 := abs_pos.mp hdp
  -- Taylor
  have taylor : |f p - f' p * (p - x) + f2 p / 2 * (p - x) ^ 2| ≤ L * |p - x| ^ 3 := by
    have key := (convex_uIcc p x).norm_image_sub_le_of_norm_hasDerivWithin_le
      (f := fun y => f y - f' p * (y - p) - f2 p / 2 * (y - p) ^ 2) (f' := fun y => f' y - f' p - f2 p * (y - p)) (C := L * |p - x| * |p - x|)
      (x := p) (y := x)
      (fun v hv => by
        have h2 := (((hd v (hcv x p hx hpρ v hv)).sub (((hasDerivAt_id v).sub_const p).const_mul (f' p))).sub
          ((((hasDerivAt_id v).sub_const p).pow 2).const_mul (f2 p / 2)))
        refine (h2.congr_deriv ?_).hasDerivWithinAt
        simp only [id]
        ring)
      (fun v hv => by
        have hv1 : |v - p| ≤ |p - x| := by
          have := Set.abs_sub_left_of_mem_uIcc hv
          rwa [abs_sub_comm x p] at this
        have h2 := slope_near hρ hd2 hL hL0 (hcv x p hx hpρ v hv) hpρ hpρ (R := |p - x|) hv1 (by rw [sub_self, abs_zero]; exact abs_nonneg _)
        exact h2.trans (mul_le_mul_of_nonneg_left hv1 (by positivity))) Set.left_mem_uIcc Set.right_mem_uIcc
    rw [Real.norm_eq_abs, Real.norm_eq_abs, h0, abs_sub_comm x p] at key
    have e : 0 - f' p * (x - p) - f2 p / 2 * (x - p) ^ 2 - (f p - f' p * (p - p) - f2 p / 2 * (p - p) ^ 2) =
        -(f p - f' p * (p - x) + f2 p / 2 * (p - x) ^ 2) := by ring
    rw [e, abs_neg] at key
    refine key.trans (le_of_eq ?_)
    ring
  have hlin : |f p - f' p * (p - x)| ≤ M * |p - x| ^ 2 := by
    have h2 := slope_near hρ hd hLM hM0 hpρ hx hpρ (R := |p - x|) (by rw [sub_self, abs_zero]; exact abs_nonneg _) (by rw [abs_sub_comm])
    rw [h0, sub_zero] at h2
    refine h2.trans (le_of_eq ?_)
    ring
  set e := p - x with he
  set D := f p / f' p with hD
  set g := f2 p / f' p / 2 with hg
  have hDe : |e - D| ≤ 2 * M / A * |e| ^ 2 := by
    have e1 : e - D = -((f p - f' p * e) / f' p) := by rw [hD]; field_simp; ring
    rw [e1, abs_neg, abs_div, div_le_iff₀ hdp]
    calc _ ≤ M * |e| ^ 2 := hlin
      _ = 2 * M / A * |e| ^ 2 * (A / 2) := by field_simp
      _ ≤ _ := mul_le_mul_of_nonneg_left hd1 (by positivity)
  have hgM : |g| ≤ M / A := by
    rw [hg, abs_div, abs_div, abs_two, div_le_iff₀ two_pos, div_le_iff₀ hdp]
    calc |f2 p| ≤ M := hf2 p hpρ
      _ = M / A * 2 * (A / 2) := by field_simp
      _ ≤ _ := mul_le_mul_of_nonneg_left hd1 (by positivity)
  have hT : |e - D - g * e ^ 2| ≤ 2 * L / A * |e| ^ 3 := by
    have e1 : e - D - g * e ^ 2 = -((f p - f' p * e + f2 p / 2 * e ^ 2) / f' p) := by rw [hD, hg]; field_simp; ring
    rw [e1, abs_neg, abs_div, div_le_iff₀ hdp]
    calc _ ≤ L * |e| ^ 3 := taylor
      _ = 2 * L / A * |e| ^ 3 * (A / 2) := by field_simp
      _ ≤ _ := mul_le_mul_of_nonneg_left hd1 (by positivity)
  have hMA : M / A * |e| ≤ 1 / 8 := by
    have h2 := mul_le_mul_of_nonneg_left hp (show 0 ≤ 4 * M / A by positivity)
    have h3 : M / A * |e| = (4 * M / A * |e|) / 4 := by ring
    linarith
  have hDe' : |e - D| ≤ |e| / 4 := by
    have h2 : 2 * M / A * |e| ^ 2 = 2 * (M / A * |e|) * |e| := by ring
    nlinarith [abs_nonneg e]
  have hDb : |D| ≤ 2 * |e| := by
    have := abs_sub_abs_le_abs_sub D e
    rw [abs_sub_comm D e] at this
    linarith [abs_nonneg e]
  have hag : D * f2 p / f' p / 2 = D * g := by rw [hg]; ring
  have hab : |D * g| ≤ 1 / 4 := by
    rw [abs_mul]
    calc |D| * |g| ≤ (2 * |e|) * (M / A) := mul_le_mul hDb hgM (abs_nonneg _) (by positivity)
      _ = 2 * (M / A * |e|) := by ring
      _ ≤ 1 / 4 := by linarith
  refine ⟨hd0, ?_, ?_⟩
  · rw [hag]; linarith
  · rw [hag]
    have hC4 : 4 * L / A + 4 * M ^ 2 / A ^ 2 ≤ C := by
      have : 0 ≤ 4 * M / A := by positivity
      linarith
    clear_value C M D g A
    have hpos : 1 / 2 ≤ 1 - D * g := by
      have := le_abs_self (D * g)
      linarith
    have hpos' : 0 < 1 - D * g := by linarith
    have e1 : p - D / (1 - D * g) - x = ((e - D - g * e ^ 2) + g * e * (e - D)) / (1 - D * g) := by
      rw [eq_div_iff hpos'.ne']
      have : (p - D / (1 - D * g) - x) * (1 - D * g) = e * (1 - D * g) - D := by
        rw [he]; field_simp; ring
      rw [this]; ring
    rw [e1, abs_div, abs_of_pos hpos', div_le_iff₀ hpos']
    have h2 : |(e - D - g * e ^ 2) + g * e * (e - D)| ≤ (2 * L / A + 2 * M ^ 2 / A ^ 2) * |e| ^ 3 := by
      refine (abs_add_le _ _).trans ?_
      rw [abs_mul, abs_mul]
      have h3 : |g| * |e| * |e - D| ≤ (M / A) * |e| * (2 * M / A * |e| ^ 2) :=
        mul_le_mul (mul_le_mul_of_nonneg_right hgM (abs_nonneg _)) hDe (abs_nonneg _) (by positivity)
      have h4 : (M / A) * |e| * (2 * M / A * |e| ^ 2) = 2 * M ^ 2 / A ^ 2 * |e| ^ 3 := by ring
      linarith
    refine h2.trans ?_
    have h5 : 2 * L / A + 2 * M ^ 2 / A ^ 2 ≤ C ^ 2 * (1 / 2) := by
      have h6 := hC4
      have h7 : C ≤ C ^ 2 := le_self_pow₀ hC two_ne_zero
      have h8 : 2 * L / A + 2 * M ^ 2 / A ^ 2 = (4 * L / A + 4 * M ^ 2 / A ^ 2) / 2 := by ring
      linarith
    have h9 : 0 ≤ |e| ^ 3 := by positivity
    calc _ ≤ C ^ 2 * (1 / 2) * |e| ^ 3 := mul_le_mul_of_nonneg_right h5 h9
      _ = C ^ 2 * |e| ^ 3 * (1 / 2) := by ring
      _ ≤ _ := mul_le_mul_of_nonneg_left hpos (by positivity)

end rates

end Nbkode
