import Verif.Proofs.Convergence

/-! # The order of continuous extensions of explicit Runge-Kutta methods -/

set_option autoImplicit false

namespace Nbkode
open Spec Filter Asymptotics Topology

/-- The order conditions of a continuous extension `y + x * ∑ⱼ (∑ₘ pⱼₘ θ^(m+1)) kⱼ`. -/
def DenseConditions {s d : ℕ} (A : Fin s → Fin s → ℝ) (P : Fin s → Fin d → ℝ) (q : ℕ) : Prop :=
  ∀ τ : Tree, τ.order ≤ q → ∀ m : Fin d, ∑ i, P i m * τ.weight A i = if m.val + 1 = τ.order then 1 / (τ.density : ℝ) else 0

section
variable {E : Type} [NormedAddCommGroup E] [NormedSpace ℝ E] [CompleteSpace E] {s : ℕ}
variable {F : E → E} {Y : ℝ → E} {t₀ : ℝ}

/-- The weights at `θ`. -/
def denseWeight {s d : ℕ} (P : Fin s → Fin d → ℝ) (θ : ℝ) (j : Fin s) : ℝ := ∑ m, P j m * θ ^ (m.val + 1)

theorem series_dense (Q : (k : ℕ) → E [×k]→L[ℝ] E) {q d : ℕ} (hd : q ≤ d) (x θ : ℝ) :
    ∑ m : Fin d, θ ^ (m.val + 1) • Tree.series Q (fun τ => if m.val + 1 = τ.order then Tree.exact τ else 0) q x =
      Tree.series Q Tree.exact q (θ * x) := by
  simp only [Tree.series, Finset.smul_sum]
  rw [Finset.sum_comm]
  refine Finset.sum_congr rfl fun τ hτ => ?_
  simp only [smul_smul]
  rw [← Finset.sum_smul]
  congr 1
  have h1 := τ.order_pos
  have h2 := Tree.mem_upTo.mp hτ
  rw [Finset.sum_eq_single (⟨τ.order - 1, by omega⟩ : Fin d)]
  · have e : τ.order - 1 + 1 = τ.order := by omega
    simp only [e, if_true]
    rw [mul_pow]; ring
  · intro m _ hm
    have : ¬ m.val + 1 = τ.order := fun h => hm (Fin.ext (by simp; omega))
    simp [this]
  · intro h; exact absurd (Finset.mem_univ _) h

theorem dense_error {q d : ℕ} (hF : ContDiffAt ℝ q F (Y t₀)) (hY : ∀ᶠ t in 𝓝 t₀, HasDerivAt Y (F (Y t)) t)
    {A : Fin s → Fin s → ℝ} (hA : ∀ i j, i ≤ j → A i j = 0) {P : Fin s → Fin d → ℝ} (hd : q ≤ d)
    (hP : DenseConditions A P q) :
    ∃ C r, 0 < r ∧ ∀ (t x θ : ℝ) (K : Fin s → E), |t - t₀| < r → |x| < r → 0 ≤ θ → θ ≤ 1 →
      (∀ i, K i = F (Y t + x • ∑ j, A i j • K j)) →
      ‖Y t + x • ∑ j, denseWeight P θ j • K j - Y (t + θ * x)‖ ≤ C * |x| ^ (q + 1) := by
  have hYc : ContinuousAt Y t₀ := hY.self_of_nhds.continuousAt
  have h1 : ∀ m : Fin d, ∃ C, ∀ᶠ ω in stepsNear F Y A t₀, ‖ω.1.2 • ∑ j, P j m • ω.2 j -
      Tree.series (Tree.coeffs F q (Y ω.1.1)) (fun τ => if m.val + 1 = τ.order then Tree.exact τ else 0) q ω.1.2‖ ≤
      C * ‖ω.1.2 ^ (q + 1)‖ := fun m =>
    (weighted_error hF hYc hA (fun j => P j m) (fun τ hτ => hP τ hτ m)).bound
  choose C hC using h1
  obtain ⟨r1, hr1, h1⟩ := stepsNear_eventually (eventually_all.mpr hC)
  obtain ⟨C2, h2⟩ := (Tree.solution_expand (F := F) (Y := Y) (t₀ := t₀) (q := fun t => Tree.coeffs F q (Y t)) (M := q)
    (fun k => (Tree.coeffs_isBigO hF k).comp_tendsto hYc.tendsto) hY
    (Tree.taylor_of_contDiffAt hF (hYc.tendsto.comp tendsto_fst))).bound
  obtain ⟨pa, ha, pb, hb, hab⟩ := eventually_prod_iff.mp h2
  obtain ⟨r2, hr2, ha'⟩ := Metric.eventually_nhds_iff.mp ha
  obtain ⟨r3, hr3, hb'⟩ := Metric.eventually_nhds_iff.mp hb
  refine ⟨∑ m, |C m| + |C2|, min r1 (min r2 r3), lt_min hr1 (lt_min hr2 hr3), fun t x θ K ht hx h0 h1' hK => ?_⟩
  have hθx : |θ * x| ≤ |x| := by
    rw [abs_mul, abs_of_nonneg h0]; exact mul_le_of_le_one_left (abs_nonneg _) h1'
  have e1 := h1 t x K (ht.trans_le (min_le_left _ _)) (hx.trans_le (min_le_left _ _)) hK
  have e2 := hab (ha' (show dist t t₀ < r2 by
      rw [Real.dist_eq]; exact ht.trans_le ((min_le_right _ _).trans (min_le_left _ _))))
    (hb' (show dist (θ * x) 0 < r3 by
      rw [Real.dist_eq, sub_zero]; exact hθx.trans_lt (hx.trans_le ((min_le_right _ _).trans (min_le_right _ _)))))
  simp only [norm_pow, Real.norm_eq_abs] at e1 e2
  have key : Y t + x • ∑ j, denseWeight P θ j • K j - Y (t + θ * x) =
      ∑ m : Fin d, θ ^ (m.val + 1) • (x • ∑ j, P j m • K j -
        Tree.series (Tree.coeffs F q (Y t)) (fun τ => if m.val + 1 = τ.order then Tree.exact τ else 0) q x) -
      (Y (t + θ * x) - Y t - Tree.series (Tree.coeffs F q (Y t)) Tree.exact q (θ * x)) := by
    simp only [smul_sub, Finset.sum_sub_distrib]
    rw [series_dense _ hd]
    have : x • ∑ j, denseWeight P θ j • K j = ∑ m : Fin d, θ ^ (m.val + 1) • x • ∑ j, P j m • K j := by
      simp only [denseWeight, Finset.smul_sum, Finset.sum_smul, smul_smul]
      rw [Finset.sum_comm]
      refine Finset.sum_congr rfl fun m _ => Finset.sum_congr rfl fun j _ => ?_
      congr 1; ring
    rw [this]; abel
  rw [key, add_mul]
  refine (norm_sub_le _ _).trans (add_le_add ?_ ?_)
  · rw [Finset.sum_mul]
    refine (norm_sum_le _ _).trans (Finset.sum_le_sum fun m _ => ?_)
    rw [norm_smul, norm_pow, Real.norm_of_nonneg h0]
    refine (mul_le_of_le_one_left (norm_nonneg _) (pow_le_one₀ h0 h1')).trans ((e1 m).trans ?_)
    exact mul_le_mul_of_nonneg_right (le_abs_self _) (by positivity)
  · refine e2.trans ?_
    refine (mul_le_mul_of_nonneg_right (le_abs_self C2) (by positivity)).trans ?_
    exact mul_le_mul_of_nonneg_left (pow_le_pow_left₀ (abs_nonneg _) hθx _) (abs_nonneg _)
end

section
variable {n s d : ℕ} {f : ℝ → Vec ℝ n → Vec ℝ n} {y : ℝ → Vec ℝ n} {t₀ : ℝ}

/-- `y + x * ∑ⱼ wⱼ(θ) kⱼ`. -/
def denseNew (P : Fin s → Fin d → ℝ) (x θ : ℝ) (v : Vec ℝ n) (K : Fin s → Vec ℝ n) : Vec ℝ n := fun i =>
  v i + x * ∑ j, denseWeight P θ j * K j i

theorem rk_dense_error {q : ℕ} (hf : ContDiffAt ℝ q (fun x : ℝ × (Fin n → ℝ) => f x.1 x.2) (t₀, y t₀))
    (hy : ∀ᶠ t in 𝓝 t₀, HasDerivAt (F := Fin n → ℝ) y (f t (y t)) t) {T : Tableau ℝ s} (hT : Explicit T)
    (hR : RowSums T) {P : Fin (s + 1) → Fin d → ℝ} (hd : q ≤ d) (hP : DenseConditions T.A P q) :
    ∃ C r, 0 < r ∧ ∀ t x θ K, |t - t₀| < r → |x| < r → 0 ≤ θ → θ ≤ 1 → RKStages T (pureRhs f) t x (y t) K →
      ∀ i, |denseNew P x θ (y t) K i - y (t + θ * x) i| ≤ C * |x| ^ (q + 1) := by
  have hF : ContDiffAt ℝ q (withTime f) ((fun t => ((t, y t) : ℝ × (Fin n → ℝ))) t₀) := contDiffAt_const.prodMk hf
  have hY : ∀ᶠ t in 𝓝 t₀, HasDerivAt (fun t => ((t, y t) : ℝ × (Fin n → ℝ))) (withTime f (t, y t)) t :=
    hy.mono fun t ht => (hasDerivAt_id t).prodMk ht
  obtain ⟨C, r, hr, h⟩ := dense_error hF hY hT.upper hd hP
  refine ⟨C, r, hr, fun t x θ K ht hx h0 h1 hK i => ?_⟩
  have h1 := h t x θ (fun i => (1, K i)) ht hx h0 h1 (withTime_stages hR hK)
  have h2 := (norm_snd_le _).trans h1
  have h3 := (norm_le_pi_norm _ i).trans h2
  rw [Real.norm_eq_abs] at h3
  refine le_trans (le_of_eq ?_) h3
  congr 1
  simp only [denseNew, Prod.snd_sub, Prod.snd_add, Prod.smul_snd, Prod.snd_sum, Pi.sub_apply, Pi.add_apply, Pi.smul_apply,
    Finset.sum_apply, smul_eq_mul]

theorem uniform_dense_error {q : ℕ} (hf : ContDiff ℝ q (joint f)) {a b : ℝ}
    (hy : ∀ t ∈ Set.Ioo a b, SolvesAt f y t) {t₁ : ℝ} (h0 : a < t₀) (h1 : t₁ < b) {T : Tableau ℝ s} (hT : Explicit T)
    (hR : RowSums T) {P : Fin (s + 1) → Fin d → ℝ} (hd : q ≤ d) (hP : DenseConditions T.A P q) :
    ∃ C r, 0 ≤ C ∧ 0 < r ∧ ∀ (t x θ : ℝ), t ∈ Set.Icc t₀ t₁ → |x| < r → 0 ≤ θ → θ ≤ 1 →
      ∀ i, |denseNew P x θ (y t) (fun j => stageFn T f j (t, x, y t)) i - y (t + θ * x) i| ≤ C * |x| ^ (q + 1) := by
  refine isCompact_Icc.induction_on (p := fun S => ∃ C r, 0 ≤ C ∧ 0 < r ∧ ∀ (t x θ : ℝ), t ∈ S → |x| < r → 0 ≤ θ → θ ≤ 1 →
      ∀ i, |denseNew P x θ (y t) (fun j => stageFn T f j (t, x, y t)) i - y (t + θ * x) i| ≤ C * |x| ^ (q + 1)) ?_ ?_ ?_ ?_
  · exact ⟨0, 1, le_rfl, one_pos, fun t x _ h => absurd h (Set.notMem_empty t)⟩
  · rintro S S' hS ⟨C, r, hC, hr, h⟩
    exact ⟨C, r, hC, hr, fun t x θ ht => h t x θ (hS ht)⟩
  · rintro S S' ⟨C, r, hC, hr, h⟩ ⟨C', r', hC', hr', h'⟩
    refine ⟨max C C', min r r', le_max_of_le_left hC, lt_min hr hr', fun t x θ ht hx e0 e1 d => ?_⟩
    rcases ht with ht | ht
    · exact (h t x θ ht (hx.trans_le (min_le_left _ _)) e0 e1 d).trans
        (mul_le_mul_of_nonneg_right (le_max_left _ _) (by positivity))
    · exact (h' t x θ ht (hx.trans_le (min_le_right _ _)) e0 e1 d).trans
        (mul_le_mul_of_nonneg_right (le_max_right _ _) (by positivity))
  · intro t ht
    have hmem : t ∈ Set.Ioo a b := ⟨h0.trans_le ht.1, ht.2.trans_lt h1⟩
    obtain ⟨C, r, hr, h⟩ := rk_dense_error (t₀ := t) (y := y) (f := f) hf.contDiffAt
      (Filter.eventually_of_mem (isOpen_Ioo.mem_nhds hmem) hy) hT hR hd hP
    refine ⟨Metric.ball t r, mem_nhdsWithin_of_mem_nhds (Metric.ball_mem_nhds t hr), max C 0, r, le_max_right _ _, hr,
      fun t' x θ ht' hx e0 e1 i => ?_⟩
    refine (h t' x θ _ ?_ hx e0 e1 (stageFn_stages hT f t' x (y t')) i).trans
      (mul_le_mul_of_nonneg_right (le_max_left _ _) (by positivity))
    simpa [Real.dist_eq] using ht'

/-- The continuous extension is Lipschitz in the state. -/
theorem dense_lipschitz (T : Tableau ℝ s) (P : Fin (s + 1) → Fin d → ℝ) (hf : ContDiff ℝ 1 (joint f))
    {t₁ : ℝ} (hy : ContinuousOn (Y := Fin n → ℝ) y (Set.Icc t₀ t₁)) :
    ∃ L, 0 ≤ L ∧ ∀ t ∈ Set.Icc t₀ t₁, ∀ x ∈ Set.Icc (0 : ℝ) 1, ∀ v : Vec ℝ n, ‖(v - y t : Fin n → ℝ)‖ ≤ 1 →
      ∀ θ ∈ Set.Icc (0 : ℝ) 1, ∀ i,
      |denseNew P x θ v (fun j => stageFn T f j (t, x, v)) i - denseNew P x θ (y t) (fun j => stageFn T f j (t, x, y t)) i| ≤
        L * ‖(v - y t : Fin n → ℝ)‖ := by
  have h := fun m : Fin d => incr_lipschitz (T := { T with B := fun j => P j m }) hf hy
  choose L hL h using h
  refine ⟨1 + ∑ m, L m, by have := Finset.sum_nonneg fun m (_ : m ∈ Finset.univ) => hL m; linarith,
    fun t ht x hx v hv θ hθ i => ?_⟩
  have hs : ∀ (m : Fin d) (j : Fin (s + 1)) ω, stageFn { T with B := fun j => P j m } f j ω = stageFn T f j ω := by
    intro m j ω
    induction hj : j.val using Nat.strong_induction_on generalizing j with
    | _ k ih =>
      rw [stageFn, stageFn]
      congr 3
      refine Finset.sum_congr rfl fun l _ => ?_
      rw [ih l.1.val (by have := l.2; rw [← hj]; exact this) l.1 rfl]
  have e : ∀ v : Fin n → ℝ, denseNew P x θ v (fun j => stageFn T f j (t, x, v)) i =
      v i + x * ∑ m : Fin d, θ ^ (m.val + 1) * incr { T with B := fun j => P j m } f (t, x, v) i := by
    intro v
    simp only [denseNew, denseWeight, incr, Finset.sum_apply, Pi.smul_apply, smul_eq_mul, hs, Finset.sum_mul, Finset.mul_sum]
    rw [Finset.sum_comm]
    congr 1
    refine Finset.sum_congr rfl fun m _ => Finset.sum_congr rfl fun j _ => ?_
    ring
  rw [e, e]
  have e2 : ∀ a b : ℝ, ∀ g g' : Fin d → ℝ, (a + x * ∑ m : Fin d, θ ^ (m.val + 1) * g m) -
      (b + x * ∑ m : Fin d, θ ^ (m.val + 1) * g' m) = (a - b) + ∑ m : Fin d, x * θ ^ (m.val + 1) * (g m - g' m) := by
    intro a b g g'
    simp only [mul_sub, Finset.sum_sub_distrib, Finset.mul_sum, mul_assoc]
    ring
  rw [e2, add_mul, one_mul, Finset.sum_mul]
  refine (abs_add_le _ _).trans (add_le_add ?_ ((Finset.abs_sum_le_sum_abs _ _).trans (Finset.sum_le_sum fun m _ => ?_)))
  · exact norm_le_pi_norm (v - y t : Fin n → ℝ) i
  · rw [abs_mul]
    have h1 : |x * θ ^ (m.val + 1)| ≤ 1 := by
      rw [abs_of_nonneg (mul_nonneg hx.1 (pow_nonneg hθ.1 _))]
      exact mul_le_one₀ hx.2 (pow_nonneg hθ.1 _) (pow_le_one₀ hθ.1 hθ.2)
    refine (mul_le_of_le_one_left (abs_nonneg _) h1).trans ?_
    exact (norm_le_pi_norm (_ : Fin n → ℝ) i).trans (h m t ht x hx v hv)

end
end Nbkode
