import Verif.Proofs.TreesRK
import Verif.Spec.RungeKutta
import Mathlib.Analysis.Calculus.Deriv.Prod
import Mathlib.Analysis.Calculus.ContDiff.Operations

/-! # The local error of a Runge-Kutta step for `y' = f(t, y)` -/

set_option autoImplicit false

namespace Nbkode
open Spec Filter Asymptotics Topology

section
variable {E : Type} [NormedAddCommGroup E] [NormedSpace ℝ E] [CompleteSpace E] {s : ℕ}
variable {F : E → E} {Y : ℝ → E} {t₀ : ℝ}

/-- The times, step sizes and stages of the steps from points of the curve `Y`, near `t₀` and `0`. -/
def stepsNear (F : E → E) (Y : ℝ → E) (A : Fin s → Fin s → ℝ) (t₀ : ℝ) : Filter ((ℝ × ℝ) × (Fin s → E)) :=
  ((𝓝 t₀ ×ˢ 𝓝 0) ×ˢ ⊤) ⊓ 𝓟 {ω | ∀ i, ω.2 i = F (Y ω.1.1 + ω.1.2 • ∑ j, A i j • ω.2 j)}

theorem stepsNear_eventually {A : Fin s → Fin s → ℝ} {P : (ℝ × ℝ) × (Fin s → E) → Prop}
    (h : ∀ᶠ ω in stepsNear F Y A t₀, P ω) : ∃ r, 0 < r ∧ ∀ (t x : ℝ) (K : Fin s → E), |t - t₀| < r → |x| < r →
      (∀ i, K i = F (Y t + x • ∑ j, A i j • K j)) → P ((t, x), K) := by
  rw [stepsNear, eventually_inf_principal] at h
  obtain ⟨pa, ha, pb, hb, hab⟩ := eventually_prod_iff.mp h
  obtain ⟨pc, hc, pd, hd, hcd⟩ := eventually_prod_iff.mp ha
  obtain ⟨r1, h1, hc'⟩ := Metric.eventually_nhds_iff.mp hc
  obtain ⟨r2, h2, hd'⟩ := Metric.eventually_nhds_iff.mp hd
  rw [eventually_top] at hb
  refine ⟨min r1 r2, lt_min h1 h2, fun t x K ht hx hK => ?_⟩
  refine hab (hcd (hc' ?_) (hd' ?_)) (hb K) hK
  · rw [Real.dist_eq]; exact ht.trans_le (min_le_left _ _)
  · rw [Real.dist_eq, sub_zero]; exact hx.trans_le (min_le_right _ _)

theorem stepsNear_tendsto (A : Fin s → Fin s → ℝ) :
    Tendsto (fun ω : (ℝ × ℝ) × (Fin s → E) => ω.1) (stepsNear F Y A t₀) (𝓝 t₀ ×ˢ 𝓝 0) :=
  tendsto_fst.mono_left inf_le_left

/-- A weighted sum of the stages of a step from a point of `Y`. -/
theorem weighted_error {p : ℕ} (hF : ContDiffAt ℝ p F (Y t₀)) (hY : ContinuousAt Y t₀) {A : Fin s → Fin s → ℝ}
    (hA : ∀ i j, i ≤ j → A i j = 0) (B : Fin s → ℝ) {c : Tree → ℝ}
    (hB : ∀ τ : Tree, τ.order ≤ p → ∑ i, B i * τ.weight A i = c τ) :
    (fun ω : (ℝ × ℝ) × (Fin s → E) =>
      ω.1.2 • ∑ j, B j • ω.2 j - Tree.series (Tree.coeffs F p (Y ω.1.1)) c p ω.1.2) =O[stepsNear F Y A t₀]
      fun ω => ω.1.2 ^ (p + 1) := by
  have h1 := stepsNear_tendsto (F := F) (Y := Y) (t₀ := t₀) A
  have ht : Tendsto (fun ω : (ℝ × ℝ) × (Fin s → E) => ω.1.1) (stepsNear F Y A t₀) (𝓝 t₀) := tendsto_fst.comp h1
  have hh : Tendsto (fun ω : (ℝ × ℝ) × (Fin s → E) => ω.1.2) (stepsNear F Y A t₀) (𝓝 0) := tendsto_snd.comp h1
  have hy : Tendsto (fun ω : (ℝ × ℝ) × (Fin s → E) => Y ω.1.1) (stepsNear F Y A t₀) (𝓝 (Y t₀)) := hY.tendsto.comp ht
  have key := Tree.update_expand (G := fun ω δ => F (Y ω.1.1 + δ)) (q := fun ω => Tree.coeffs F p (Y ω.1.1)) (M := p) hh
    (fun k => (Tree.coeffs_isBigO hF k).comp_tendsto hy) (Tree.taylor_of_contDiffAt hF hy) hA (K := fun ω => ω.2)
    (fun i => by
      have : ∀ᶠ ω in stepsNear F Y A t₀, ∀ i, ω.2 i = F (Y ω.1.1 + ω.1.2 • ∑ j, A i j • ω.2 j) :=
        eventually_inf_principal.mpr (Eventually.of_forall fun ω h => h)
      exact this.mono fun ω h => h i) B
  refine key.congr_left fun ω => ?_
  rw [Tree.series_congr _ _ hB]

/-- Steps of a method that satisfies the order conditions up to `p`, from points of a solution. -/
theorem local_error {p : ℕ} (hF : ContDiffAt ℝ p F (Y t₀)) (hY : ∀ᶠ t in 𝓝 t₀, HasDerivAt Y (F (Y t)) t)
    {A : Fin s → Fin s → ℝ} (hA : ∀ i j, i ≤ j → A i j = 0) {B : Fin s → ℝ} (hB : OrderConditions A B p) :
    ∃ C r, 0 < r ∧ ∀ (t x : ℝ) (K : Fin s → E), |t - t₀| < r → |x| < r → (∀ i, K i = F (Y t + x • ∑ j, A i j • K j)) →
      ‖Y t + x • ∑ j, B j • K j - Y (t + x)‖ ≤ C * |x| ^ (p + 1) := by
  have hYc : ContinuousAt Y t₀ := hY.self_of_nhds.continuousAt
  have h1 := weighted_error hF hYc hA B (c := Tree.exact) hB
  have h2 := (Tree.solution_expand (F := F) (Y := Y) (t₀ := t₀) (q := fun t => Tree.coeffs F p (Y t)) (M := p)
    (fun k => (Tree.coeffs_isBigO hF k).comp_tendsto hYc.tendsto) hY
    (Tree.taylor_of_contDiffAt hF (hYc.tendsto.comp tendsto_fst))).comp_tendsto
    (stepsNear_tendsto (F := F) (Y := Y) (t₀ := t₀) A)
  obtain ⟨C, hC⟩ := (h1.sub h2).bound
  obtain ⟨r, hr, h⟩ := stepsNear_eventually hC
  refine ⟨C, r, hr, fun t x K ht hx hK => ?_⟩
  have := h t x K ht hx hK
  simp only [Function.comp_apply, norm_pow, Real.norm_eq_abs] at this
  refine le_trans (le_of_eq ?_) this
  congr 1
  abel

/-- Weights for which the conditions vanish up to `p`. -/
theorem local_estimate {p : ℕ} (hF : ContDiffAt ℝ p F (Y t₀)) (hY : ContinuousAt Y t₀)
    {A : Fin s → Fin s → ℝ} (hA : ∀ i j, i ≤ j → A i j = 0) {B : Fin s → ℝ}
    (hB : ∀ τ : Tree, τ.order ≤ p → ∑ i, B i * τ.weight A i = 0) :
    ∃ C r, 0 < r ∧ ∀ (t x : ℝ) (K : Fin s → E), |t - t₀| < r → |x| < r → (∀ i, K i = F (Y t + x • ∑ j, A i j • K j)) →
      ‖x • ∑ j, B j • K j‖ ≤ C * |x| ^ (p + 1) := by
  have h1 := weighted_error hF hY hA B (c := fun _ => 0) hB
  obtain ⟨C, hC⟩ := h1.bound
  obtain ⟨r, hr, h⟩ := stepsNear_eventually hC
  refine ⟨C, r, hr, fun t x K ht hx hK => ?_⟩
  have := h t x K ht hx hK
  simpa [Tree.series] using this

end

/-! ### With time as an additional component -/

section
variable {n s : ℕ} {f : ℝ → Vec ℝ n → Vec ℝ n} {y : ℝ → Vec ℝ n} {t₀ : ℝ}

/-- `(t, y)' = (1, f(t, y))`. -/
def withTime (f : ℝ → Vec ℝ n → Vec ℝ n) (x : ℝ × (Fin n → ℝ)) : ℝ × (Fin n → ℝ) := (1, f x.1 x.2)

/-- `c_i = sum_j a_ij` for every stage. -/
def RowSums (T : Tableau ℝ s) : Prop := ∀ i, ∑ j, T.A i j = T.C i

theorem withTime_stages {T : Tableau ℝ s} (hR : RowSums T) {t x : ℝ} {v : Vec ℝ n} {K : Fin (s + 1) → Vec ℝ n}
    (hK : RKStages T (pureRhs f) t x v K) (i : Fin (s + 1)) :
    ((1, K i) : ℝ × (Fin n → ℝ)) = withTime f (((t, v) : ℝ × (Fin n → ℝ)) +
      x • ∑ j, T.A i j • ((1, K j) : ℝ × (Fin n → ℝ))) := by
  have h := Except.ok.inj (hK i)
  have e1 : (((t, v) : ℝ × (Fin n → ℝ)) + x • ∑ j, T.A i j • ((1, K j) : ℝ × (Fin n → ℝ))).1 = t + T.C i * x := by
    rw [← hR i, Prod.fst_add, Prod.smul_fst, Prod.fst_sum]
    simp [mul_comm]
  have e2 : (((t, v) : ℝ × (Fin n → ℝ)) + x • ∑ j, T.A i j • ((1, K j) : ℝ × (Fin n → ℝ))).2 =
      fun d => v d + x * ∑ j, T.A i j * K j d := by
    rw [Prod.snd_add, Prod.smul_snd, Prod.snd_sum]
    funext d
    simp [Finset.sum_apply]
  rw [withTime, e1, e2, h]

theorem rk_local_error {p : ℕ} (hf : ContDiffAt ℝ p (fun x : ℝ × (Fin n → ℝ) => f x.1 x.2) (t₀, y t₀))
    (hy : ∀ᶠ t in 𝓝 t₀, HasDerivAt (F := Fin n → ℝ) y (f t (y t)) t) {T : Tableau ℝ s} (hT : Explicit T)
    (hR : RowSums T) (hB : OrderConditions T.A T.B p) :
    ∃ C r, 0 < r ∧ ∀ t x K, |t - t₀| < r → |x| < r → RKStages T (pureRhs f) t x (y t) K →
      ∀ d, |rkNew T x (y t) K d - y (t + x) d| ≤ C * |x| ^ (p + 1) := by
  have hF : ContDiffAt ℝ p (withTime f) ((fun t => ((t, y t) : ℝ × (Fin n → ℝ))) t₀) := contDiffAt_const.prodMk hf
  have hY : ∀ᶠ t in 𝓝 t₀, HasDerivAt (fun t => ((t, y t) : ℝ × (Fin n → ℝ))) (withTime f (t, y t)) t :=
    hy.mono fun t ht => (hasDerivAt_id t).prodMk ht
  obtain ⟨C, r, hr, h⟩ := local_error hF hY hT.upper hB
  refine ⟨C, r, hr, fun t x K ht hx hK d => ?_⟩
  have h1 := h t x (fun i => (1, K i)) ht hx (withTime_stages hR hK)
  have h2 := (norm_snd_le _).trans h1
  have h3 := (norm_le_pi_norm _ d).trans h2
  rw [Real.norm_eq_abs] at h3
  refine le_trans (le_of_eq ?_) h3
  congr 1
  simp only [rkNew, Prod.snd_sub, Prod.snd_add, Prod.smul_snd, Prod.snd_sum, Pi.sub_apply, Pi.add_apply, Pi.smul_apply,
    Finset.sum_apply, smul_eq_mul]

theorem rk_local_estimate {p : ℕ} (hf : ContDiffAt ℝ p (fun x : ℝ × (Fin n → ℝ) => f x.1 x.2) (t₀, y t₀))
    (hy : ContinuousAt (Y := Fin n → ℝ) y t₀) {T : Tableau ℝ s} (hT : Explicit T)
    (hR : RowSums T) {W : Fin (s + 1) → ℝ} (hB : ∀ τ : Tree, τ.order ≤ p → ∑ i, W i * τ.weight T.A i = 0) :
    ∃ C r, 0 < r ∧ ∀ t x K, |t - t₀| < r → |x| < r → RKStages T (pureRhs f) t x (y t) K →
      ∀ d, |x * ∑ j, W j * K j d| ≤ C * |x| ^ (p + 1) := by
  have hF : ContDiffAt ℝ p (withTime f) ((fun t => ((t, y t) : ℝ × (Fin n → ℝ))) t₀) := contDiffAt_const.prodMk hf
  have hY : ContinuousAt (fun t => ((t, y t) : ℝ × (Fin n → ℝ))) t₀ := continuousAt_id.prodMk hy
  obtain ⟨C, r, hr, h⟩ := local_estimate hF hY hT.upper hB
  refine ⟨C, r, hr, fun t x K ht hx hK d => ?_⟩
  have h1 := h t x (fun i => (1, K i)) ht hx (withTime_stages hR hK)
  have h2 := (norm_snd_le _).trans h1
  have h3 := (norm_le_pi_norm _ d).trans h2
  rw [Real.norm_eq_abs] at h3
  refine le_trans (le_of_eq ?_) h3
  congr 1
  simp only [Prod.smul_snd, Prod.snd_sum, Pi.smul_apply, Finset.sum_apply, smul_eq_mul]

end
end Nbkode
