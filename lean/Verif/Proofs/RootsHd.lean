import Verif.Proofs.Contraction
import Verif.Spec.Roots
import Mathlib.Analysis.Calculus.MeanValue
import Mathlib.Analysis.Normed.Module.FiniteDimension

/-! # Local convergence of the root finder for systems -/

set_option autoImplicit false
set_option linter.unusedSectionVars false

namespace Nbkode
open Py Spec Solver

variable {n : ℕ}

/-- A regular matrix is bounded below. -/
theorem regular_below {A : (Fin n → ℝ) →L[ℝ] (Fin n → ℝ)} (h : ∀ v, A v = 0 → v = 0) : ∃ K : ℝ, 0 < K ∧ ∀ v, ‖v‖ ≤ K * ‖A v‖ := by
  have hk : A.toLinearMap.ker = ⊥ := LinearMap.ker_eq_bot'.mpr h
  obtain ⟨K, hK, h1⟩ := A.toLinearMap.exists_antilipschitzWith hk
  refine ⟨K, hK, fun v => ?_⟩
  have h2 := h1.le_mul_dist v 0
  simpa using h2

theorem fderiv_near {F : (Fin n → ℝ) → (Fin n → ℝ)} {F' : (Fin n → ℝ) → (Fin n → ℝ) →L[ℝ] (Fin n → ℝ)} {x : Fin n → ℝ} {ρ L : ℝ} (hL : 0 ≤ L)
    (h : ∀ y z, ‖y - x‖ ≤ ρ → ‖z - x‖ ≤ ρ → HasFDerivAt F (F' y) y ∧ ‖F' y - F' z‖ ≤ L * ‖y - z‖) {s : ℝ} (hs : s ≤ ρ) {u v : Fin n → ℝ}
    (hu : ‖u - x‖ ≤ s) (hv : ‖v - x‖ ≤ s) : ‖F u - F v - F' x (u - v)‖ ≤ L * s * ‖u - v‖ := by
  have hs0 : 0 ≤ s := (norm_nonneg _).trans hu
  have hx : ‖x - x‖ ≤ ρ := by rw [sub_self, norm_zero]; linarith
  refine (convex_closedBall x s).norm_image_sub_le_of_norm_hasFDerivWithin_le' (f := F) (f' := F') (φ := F' x) (fun y hy => ?_) (fun y hy => ?_)
    (mem_closedBall_iff_norm.mpr hv) (mem_closedBall_iff_norm.mpr hu)
  · have hy' := mem_closedBall_iff_norm.mp hy
    exact (h y y (hy'.trans hs) (hy'.trans hs)).1.hasFDerivWithinAt
  · have hy' := mem_closedBall_iff_norm.mp hy
    exact (h y x (hy'.trans hs) hx).2.trans (mul_le_mul_of_nonneg_left hy' hL)

/-- The difference quotients near the Jacobian matrix. -/
theorem centralDiff_of_near {eps : ℝ} (he : eps ≠ 0) {F : (Fin n → ℝ) → (Fin n → ℝ)} {A : (Fin n → ℝ) →L[ℝ] (Fin n → ℝ)} {x y : Fin n → ℝ} {κ : ℝ}
    (hc : ∀ u v, ‖u - x‖ ≤ ‖y - x‖ + |eps| → ‖v - x‖ ≤ ‖y - x‖ + |eps| → ‖F u - F v - A (u - v)‖ ≤ κ * ‖u - v‖) {J : Fin n → Fin n → ℝ}
    (hJ : CentralDiff eps (fun y : Vec ℝ n => .ok (F y)) y J) (d : Fin n → ℝ) : ‖(fun r => ∑ i, J r i * d i) - A d‖ ≤ n * κ * ‖d‖ := by
  have hn : ∀ i (e : ℝ), |e| = |eps| → ‖Function.update y i (y i + e) - x‖ ≤ ‖y - x‖ + |eps| := by
    intro i e hee
    have : Function.update y i (y i + e) - x = (y - x) + Pi.single i e := by
      funext k
      by_cases hk : k = i
      · subst hk; simp; ring
      · simp [hk]
    rw [this]
    refine (norm_add_le _ _).trans ?_
    rw [Pi.norm_single, Real.norm_eq_abs, hee]
  have hcol : ∀ r i, |J r i - A (Pi.single i 1) r| ≤ κ := by
    intro r i
    obtain ⟨a, b, ha, hb, hab⟩ := hJ i
    cases ha; cases hb
    have h1 := hc (Function.update y i (y i + eps)) (Function.update y i (y i - eps)) (hn i eps rfl)
      (by rw [sub_eq_add_neg]; exact hn i (-eps) (abs_neg _))
    have e1 : Function.update y i (y i + eps) - Function.update y i (y i - eps) = (2 * eps) • (Pi.single i 1 : Fin n → ℝ) := by
      funext k
      by_cases hk : k = i
      · subst hk; simp; ring
      · simp [hk]
    rw [e1, map_smul, norm_smul, Pi.norm_single, norm_one, mul_one, Real.norm_eq_abs] at h1
    have h2 : (0 : ℝ) < |2 * eps| := abs_pos.mpr (mul_ne_zero two_ne_zero he)
    refine le_of_mul_le_mul_right ?_ h2
    rw [← abs_mul, hab r]
    refine le_trans (le_of_eq ?_) ((norm_le_pi_norm _ r).trans h1)
    rw [Real.norm_eq_abs]
    congr 1
    rw [sub_mul, div_mul_cancel₀ _ (mul_ne_zero two_ne_zero he)]
    simp only [Pi.sub_apply, Pi.smul_apply, smul_eq_mul]
    ring
  have hA : ∀ r, A d r = ∑ i, A (Pi.single i 1) r * d i := by
    intro r
    have : d = ∑ i, d i • (Pi.single i 1 : Fin n → ℝ) := by
      funext k
      simp [Finset.sum_apply, Pi.single_apply]
    conv_lhs => rw [this]
    rw [map_sum, Finset.sum_apply]
    refine Finset.sum_congr rfl fun i _ => ?_
    rw [map_smul, Pi.smul_apply, smul_eq_mul, mul_comm]
  rcases Nat.eq_zero_or_pos n with rfl | hpos
  · have : (fun r => ∑ i, J r i * d i) - A d = 0 := Subsingleton.elim _ _
    rw [this, norm_zero]; simp
  have hκ : 0 ≤ κ := (abs_nonneg _).trans (hcol ⟨0, hpos⟩ ⟨0, hpos⟩)
  refine (pi_norm_le_iff_of_nonneg (by positivity)).mpr fun r => ?_
  rw [Real.norm_eq_abs, Pi.sub_apply, hA, ← Finset.sum_sub_distrib]
  simp only [← sub_mul]
  exact abs_sum_mul_le (hcol r)

theorem euclid_le_norm {lib : Lib ℝ} (hlib : ∀ x, lib.sqrt x = Real.sqrt x) (v : Fin n → ℝ) : euclid lib (v : Vec ℝ n) ≤ n * ‖v‖ := by
  unfold euclid
  rw [hlib]
  refine Real.sqrt_le_iff.mpr ⟨by positivity, ?_⟩
  calc ∑ i, v i ^ 2 ≤ ∑ _i : Fin n, ‖v‖ ^ 2 := Finset.sum_le_sum fun i _ => by
        rw [← sq_abs (v i)]
        exact pow_le_pow_left₀ (abs_nonneg _) (norm_le_pi_norm v i) 2
    _ = n * ‖v‖ ^ 2 := by rw [Finset.sum_const, Finset.card_univ, Fintype.card_fin, nsmul_eq_mul]
    _ ≤ (n * ‖v‖) ^ 2 := by
        rw [mul_pow]
        refine mul_le_mul_of_nonneg_right ?_ (sq_nonneg _)
        rcases Nat.eq_zero_or_pos n with rfl | hn
        · simp
        · have : (1 : ℝ) ≤ n := by exact_mod_cast hn
          nlinarith

theorem norm_le_euclid {lib : Lib ℝ} (hlib : ∀ x, lib.sqrt x = Real.sqrt x) (v : Fin n → ℝ) : ‖v‖ ≤ euclid lib (v : Vec ℝ n) := by
  unfold euclid
  rw [hlib]
  refine (pi_norm_le_iff_of_nonneg (Real.sqrt_nonneg _)).mpr fun r => ?_
  rw [Real.norm_eq_abs, ← Real.sqrt_sq_eq_abs]
  exact Real.sqrt_le_sqrt (Finset.single_le_sum (f := fun i => v i ^ 2) (fun i _ => sq_nonneg _) (Finset.mem_univ r))

/-- One update of `newton_hd` near a regular root. -/
theorem newtonHd_rate {F : (Fin n → ℝ) → (Fin n → ℝ)} {F' : (Fin n → ℝ) → (Fin n → ℝ) →L[ℝ] (Fin n → ℝ)} {x : Fin n → ℝ} (h : RegularRoot F F' x) :
    ∃ r C : ℝ, 0 < r ∧ 0 < C ∧ C * (2 * r) ≤ 1 / 2 ∧ (∀ y, ‖y - x‖ ≤ r → ‖y - x‖ ≤ C * ‖F y‖ ∧ ‖F y‖ ≤ C * ‖y - x‖) ∧
      ∀ eps : ℝ, eps ≠ 0 → |eps| ≤ r → ∀ y, ‖y - x‖ ≤ r → ∀ J : Fin n → Fin n → ℝ, CentralDiff eps (fun y : Vec ℝ n => .ok (F y)) y J →
        (∀ v : Vec ℝ n, (∀ i, ∑ j, J i j * v j = 0) → v = 0) ∧
          ∀ d : Vec ℝ n, (∀ i, ∑ j, J i j * d j = -F y i) → ‖y + d - x‖ ≤ C * (‖y - x‖ + |eps|) * ‖y - x‖ := by
  obtain ⟨ρ, L0, hρ, hsm⟩ := h.smooth
  obtain ⟨K, hK, hbelow⟩ := regular_below h.regular
  obtain ⟨L, hL, hsm⟩ : ∃ L : ℝ, 0 ≤ L ∧ ∀ y z, ‖y - x‖ ≤ ρ → ‖z - x‖ ≤ ρ → HasFDerivAt F (F' y) y ∧ ‖F' y - F' z‖ ≤ L * ‖y - z‖ :=
    ⟨|L0|, abs_nonneg _, fun y z hy hz => ⟨(hsm y z hy hz).1, (hsm y z hy hz).2.trans (mul_le_mul_of_nonneg_right (le_abs_self _) (norm_nonneg _))⟩⟩
  have hnear : ∀ {s : ℝ}, s ≤ ρ → ∀ {u v : Fin n → ℝ}, ‖u - x‖ ≤ s → ‖v - x‖ ≤ s → ‖F u - F v - F' x (u - v)‖ ≤ L * s * ‖u - v‖ :=
    fun hs _ _ hu hv => fderiv_near hL hsm hs hu hv
  set A := F' x with hA
  set C : ℝ := 2 * K * L * (n + 1) + 2 * K + (‖A‖ + L * ρ) with hC
  have hn0 : (0 : ℝ) ≤ n := Nat.cast_nonneg n
  have hC0 : 0 < C := by positivity
  have hCK : 2 * K * L * (n + 1) ≤ C := by
    have : 0 ≤ ‖A‖ + L * ρ := by positivity
    linarith
  have hC2 : 2 * K ≤ C := by
    have : 0 ≤ ‖A‖ + L * ρ := by positivity
    have : 0 ≤ 2 * K * L * (n + 1) := by positivity
    linarith
  have hC3 : ‖A‖ + L * ρ ≤ C := by
    have : 0 ≤ 2 * K * L * (n + 1) := by positivity
    linarith
  clear_value C
  refine ⟨min (ρ / 2) (1 / (4 * C)), C, by positivity, hC0, ?_, fun y hy => ?_, fun eps he hle y hy J hJ => ?_⟩
  · have : min (ρ / 2) (1 / (4 * C)) ≤ 1 / (4 * C) := min_le_right _ _
    calc C * (2 * min (ρ / 2) (1 / (4 * C))) ≤ C * (2 * (1 / (4 * C))) := by gcongr
      _ = 1 / 2 := by field_simp; norm_num
  · have hr1 : ‖y - x‖ ≤ ρ / 2 := hy.trans (min_le_left _ _)
    have hr2 : ‖y - x‖ ≤ 1 / (4 * C) := hy.trans (min_le_right _ _)
    have h1 := hnear (s := ‖y - x‖) (by linarith) le_rfl (show ‖x - x‖ ≤ _ by rw [sub_self, norm_zero]; exact norm_nonneg _)
    rw [h.root, sub_zero] at h1
    set e := ‖y - x‖ with hedef
    have he0 : 0 ≤ e := norm_nonneg _
    constructor
    · have h2 : ‖A (y - x)‖ ≤ ‖F y‖ + L * e * e := by
        have : A (y - x) = F y - (F y - A (y - x)) := by abel
        rw [this]
        exact (norm_sub_le _ _).trans (by linarith)
      have h3 := hbelow (y - x)
      rw [← hedef] at h3
      have h4 : C * e ≤ 1 / 4 := by
        calc C * e ≤ C * (1 / (4 * C)) := by gcongr
          _ = 1 / 4 := by field_simp
      have h5 : K * L * e ≤ 1 / 8 := by
        have : 2 * K * L * e ≤ 2 * K * L * (n + 1) * e := by
          have : 0 ≤ 2 * K * L * e := by positivity
          nlinarith
        have := mul_le_mul_of_nonneg_right hCK he0
        linarith
      have h6 : K * (L * e * e) ≤ 1 / 8 * e := by
        have := mul_le_mul_of_nonneg_right h5 he0
        linarith
      have h7 : K * ‖A (y - x)‖ ≤ K * ‖F y‖ + K * (L * e * e) := by
        have := mul_le_mul_of_nonneg_left h2 hK.le
        linarith
      have h8 : 2 * K * ‖F y‖ ≤ C * ‖F y‖ := mul_le_mul_of_nonneg_right hC2 (norm_nonneg _)
      linarith
    · have h2 : ‖F y‖ ≤ ‖A (y - x)‖ + L * e * e := by
        have : F y = A (y - x) + (F y - A (y - x)) := by abel
        rw [this]
        refine (norm_add_le _ _).trans ?_
        have : A (y - x) + (F y - A (y - x)) - A (y - x) = F y - A (y - x) := by abel
        simpa [this] using h1
      have h3 := A.le_opNorm (y - x)
      rw [← hedef] at h3
      have h4 : L * e * e ≤ L * ρ * e := by gcongr; linarith
      have h5 := mul_le_mul_of_nonneg_right hC3 he0
      linarith
  · set e := ‖y - x‖ with hedef
    have he0 : 0 ≤ e := norm_nonneg _
    have ha0 := abs_nonneg eps
    have hs : e + |eps| ≤ ρ := by
      have := min_le_left (ρ / 2) (1 / (4 * C))
      linarith
    have hs2 : C * (e + |eps|) ≤ 1 / 2 := by
      have := min_le_right (ρ / 2) (1 / (4 * C))
      calc C * (e + |eps|) ≤ C * (2 * (1 / (4 * C))) := by gcongr; linarith
        _ = 1 / 2 := by field_simp; norm_num
    set s := e + |eps| with hsdef
    have hs0 : 0 ≤ s := by positivity
    have hJA := centralDiff_of_near (κ := L * s) he (fun u v hu hv => hnear hs hu hv) hJ
    have hKs : K * (n * (L * s)) ≤ 1 / 4 := by
      have h1 : K * (n * (L * s)) ≤ K * L * (n + 1) * s := by
        have : 0 ≤ K * L * s := by positivity
        nlinarith
      have := mul_le_mul_of_nonneg_right hCK hs0
      linarith
    constructor
    · intro v hv
      have h1 := hJA v
      have e1 : (fun r => ∑ i, J r i * v i) - A v = -A v := by
        rw [show (fun r => ∑ i, J r i * v i) = (0 : Fin n → ℝ) from funext hv, zero_sub]
      rw [e1, norm_neg] at h1
      have h2 := hbelow v
      have h3 : ‖(v : Fin n → ℝ)‖ ≤ 1 / 4 * ‖(v : Fin n → ℝ)‖ := by
        calc _ ≤ _ := h2
          _ ≤ K * (n * (L * s) * ‖(v : Fin n → ℝ)‖) := by gcongr
          _ = K * (n * (L * s)) * ‖(v : Fin n → ℝ)‖ := by ring
          _ ≤ _ := by gcongr
      have h4 : ‖(v : Fin n → ℝ)‖ ≤ 0 := by linarith [norm_nonneg (v : Fin n → ℝ)]
      exact norm_le_zero_iff.mp h4
    · intro d hd
      have h1 := hJA d
      rw [show (fun r => ∑ i, J r i * d i) = -F y from funext hd] at h1
      have h2 := hnear (s := e) (by linarith) le_rfl (show ‖x - x‖ ≤ _ by rw [sub_self, norm_zero]; exact he0)
      rw [h.root, sub_zero] at h2
      have e1 : A (y + d - x) = -(F y - A (y - x)) - (-F y - A d) := by
        rw [show y + d - x = (y - x) + d by abel, map_add]; abel
      have h3 : ‖A (y + d - x)‖ ≤ L * e * e + n * (L * s) * ‖(d : Fin n → ℝ)‖ := by
        rw [e1]
        refine (norm_sub_le _ _).trans ?_
        rw [norm_neg]
        exact add_le_add h2 h1
      have h4 : ‖(d : Fin n → ℝ)‖ ≤ ‖y + d - x‖ + e := by
        rw [show (d : Fin n → ℝ) = (y + d - x) - (y - x) by abel]
        refine (norm_sub_le _ _).trans (le_of_eq ?_)
        rw [show (y + (y + d - x - (y - x)) - x) = y + d - x by abel]
      set E := ‖y + d - x‖ with hE
      have hE0 : 0 ≤ E := norm_nonneg _
      have h5 : E ≤ K * (L * e * e + n * (L * s) * (E + e)) := by
        refine (hbelow _).trans ?_
        refine mul_le_mul_of_nonneg_left (h3.trans ?_) hK.le
        gcongr
      have h6 : K * (L * e * e) ≤ K * L * s * e := by
        have : K * L * e * e ≤ K * L * s * e := by gcongr; linarith
        linarith
      have h7 : K * (n * (L * s)) * E ≤ 1 / 4 * E := by gcongr
      have h8 : 2 * K * L * (n + 1) * s * e ≤ C * s * e := by gcongr
      have h9 : 0 ≤ K * L * (n + 1) * s * e := by positivity
      linarith

end Nbkode
