import Verif.Proofs.LocalError
import Verif.Spec.LocalError

/-! # Local errors of a method whose coefficients have a defect -/

set_option autoImplicit false

namespace Nbkode
open Spec Filter Asymptotics Topology

variable {n s : ℕ} {g : Vec ℝ n → Vec ℝ n} {y : ℝ → Vec ℝ n} {t₀ : ℝ}

theorem diff_eq_elementary (g : (Fin n → ℝ) → (Fin n → ℝ)) (v : Fin n → ℝ) {p : ℕ} : ∀ τ : Tree, τ.order ≤ p →
    Tree.diff (Tree.coeffs g p v) τ = elementary g v τ
  | .node k c, h => by
    have h1 : ∀ l, (c l).order ≤ p := fun l => by
      have := Finset.single_le_sum (f := fun l => (c l).order) (fun _ _ => Nat.zero_le _) (Finset.mem_univ l)
      rw [Tree.order] at h
      omega
    have h2 : k < p := by
      have h3 : ∑ _l : Fin k, 1 ≤ ∑ l, (c l).order := Finset.sum_le_sum fun l _ => (c l).order_pos
      rw [Tree.order] at h
      simp only [Finset.sum_const, Finset.card_univ, Fintype.card_fin, smul_eq_mul, mul_one] at h3
      omega
    rw [Tree.diff, elementary, Tree.coeffs, if_pos h2]
    congr 1
    funext l
    exact diff_eq_elementary g v (c l) (h1 l)

theorem series_le (g : (Fin n → ℝ) → (Fin n → ℝ)) (v : Fin n → ℝ) {p : ℕ} {S : Finset Tree}
    (hS : ∀ τ : Tree, τ.order ≤ p → τ ∈ S) {c : Tree → ℝ} {ε : ℝ} (hε : 0 ≤ ε) (hc : ∀ τ : Tree, τ.order ≤ p → |c τ| ≤ ε)
    (x : ℝ) : ‖Tree.series (Tree.coeffs g p v) c p x‖ ≤ ε * ∑ τ ∈ S, |x| ^ τ.order * ‖elementary g v τ‖ := by
  unfold Tree.series
  rw [Finset.mul_sum]
  refine (norm_sum_le _ _).trans ((Finset.sum_le_sum (g := fun τ => ε * (|x| ^ τ.order * ‖elementary g v τ‖))
    fun τ hτ => ?_).trans (Finset.sum_le_sum_of_subset_of_nonneg (fun τ hτ => hS τ (Tree.mem_upTo.mp hτ))
      fun τ _ _ => by positivity))
  have hτ' := Tree.mem_upTo.mp hτ
  rw [diff_eq_elementary g v τ hτ', norm_smul, norm_mul, norm_pow, Real.norm_eq_abs, Real.norm_eq_abs, mul_assoc]
  exact mul_le_mul_of_nonneg_right (hc τ hτ') (by positivity)

theorem series_sub (q : (k : ℕ) → (Fin n → ℝ) [×k]→L[ℝ] (Fin n → ℝ)) (c c' : Tree → ℝ) (p : ℕ) (x : ℝ) :
    Tree.series q c p x - Tree.series q c' p x = Tree.series q (fun τ => c τ - c' τ) p x := by
  unfold Tree.series
  rw [← Finset.sum_sub_distrib]
  exact Finset.sum_congr rfl fun τ _ => by rw [← sub_smul, sub_mul]

theorem autonomous_stages {T : Tableau ℝ s} {t x : ℝ} {v : Vec ℝ n} {K : Fin (s + 1) → Vec ℝ n}
    (hK : RKStages T (pureRhs fun _ => g) t x v K) (i : Fin (s + 1)) :
    (K i : Fin n → ℝ) = g ((v : Fin n → ℝ) + x • ∑ j, T.A i j • (K j : Fin n → ℝ)) := by
  have h := Except.ok.inj (hK i)
  refine h.symm.trans ?_
  show g _ = g _
  congr 1
  funext d
  simp [Finset.sum_apply]

theorem approx_error {p : ℕ} {S : Finset Tree} (hS : ∀ τ : Tree, τ.order ≤ p → τ ∈ S)
    (hg : ContDiffAt ℝ p (E := Fin n → ℝ) (F := Fin n → ℝ) g (y t₀)) (hy : ∀ᶠ t in 𝓝 t₀, SolvesAt (fun _ => g) y t)
    {T : Tableau ℝ s} (hT : Explicit T) {ε : ℝ} (hε : 0 ≤ ε)
    (hB : ∀ τ : Tree, τ.order ≤ p → |∑ i, T.B i * τ.weight T.A i - 1 / (τ.density : ℝ)| ≤ ε) :
    ∃ C r, 0 < r ∧ ∀ (t x : ℝ) (K : Fin (s + 1) → Vec ℝ n), |t - t₀| < r → |x| < r →
      RKStages T (pureRhs fun _ => g) t x (y t) K →
      ∀ d, |rkNew T x (y t) K d - y (t + x) d| ≤ C * |x| ^ (p + 1) +
        ε * ∑ τ ∈ S, |x| ^ τ.order * ‖elementary g (y t) τ‖ := by
  have hYc : ContinuousAt (Y := Fin n → ℝ) y t₀ := hy.self_of_nhds.continuousAt
  have h1 := weighted_error (E := Fin n → ℝ) hg hYc hT.upper T.B (c := fun τ => ∑ i, T.B i * τ.weight T.A i) fun _ _ => rfl
  have h2 := (Tree.solution_expand (E := Fin n → ℝ) (F := g) (Y := y) (t₀ := t₀) (q := fun t => Tree.coeffs g p (y t)) (M := p)
    (fun k => (Tree.coeffs_isBigO hg k).comp_tendsto hYc.tendsto) hy
    (Tree.taylor_of_contDiffAt hg (hYc.tendsto.comp tendsto_fst))).comp_tendsto
    (stepsNear_tendsto (E := Fin n → ℝ) (F := g) (Y := y) (t₀ := t₀) T.A)
  obtain ⟨C, hC⟩ := (h1.sub h2).bound
  obtain ⟨r, hr, h⟩ := stepsNear_eventually hC
  refine ⟨C, r, hr, fun t x K ht hx hK d => ?_⟩
  have h3 := h t x K ht hx (autonomous_stages hK)
  simp only [Function.comp_apply, norm_pow, Real.norm_eq_abs] at h3
  have h4 := series_le g (y t) hS hε hB x
  rw [show (fun τ : Tree => ∑ i, T.B i * τ.weight T.A i - 1 / (τ.density : ℝ)) =
    fun τ => ∑ i, T.B i * τ.weight T.A i - Tree.exact τ from rfl, ← series_sub] at h4
  have h5 := (norm_add_le _ _).trans (add_le_add h3 h4)
  refine le_trans (le_trans (le_of_eq ?_) (norm_le_pi_norm _ d)) h5
  rw [Real.norm_eq_abs]
  congr 1
  simp only [rkNew, Pi.sub_apply, Pi.add_apply, Pi.smul_apply, Finset.sum_apply, smul_eq_mul]
  ring

theorem approx_estimate {p : ℕ} {S : Finset Tree} (hS : ∀ τ : Tree, τ.order ≤ p → τ ∈ S)
    (hg : ContDiffAt ℝ p (E := Fin n → ℝ) (F := Fin n → ℝ) g (y t₀)) (hy : ContinuousAt (Y := Fin n → ℝ) y t₀)
    {T : Tableau ℝ s} (hT : Explicit T) {ε : ℝ} (hε : 0 ≤ ε) {W : Fin (s + 1) → ℝ}
    (hB : ∀ τ : Tree, τ.order ≤ p → |∑ i, W i * τ.weight T.A i| ≤ ε) :
    ∃ C r, 0 < r ∧ ∀ (t x : ℝ) (K : Fin (s + 1) → Vec ℝ n), |t - t₀| < r → |x| < r →
      RKStages T (pureRhs fun _ => g) t x (y t) K →
      ∀ d, |x * ∑ j, W j * K j d| ≤ C * |x| ^ (p + 1) + ε * ∑ τ ∈ S, |x| ^ τ.order * ‖elementary g (y t) τ‖ := by
  have h1 := weighted_error (E := Fin n → ℝ) hg hy hT.upper W (c := fun τ => ∑ i, W i * τ.weight T.A i) fun _ _ => rfl
  obtain ⟨C, hC⟩ := h1.bound
  obtain ⟨r, hr, h⟩ := stepsNear_eventually hC
  refine ⟨C, r, hr, fun t x K ht hx hK d => ?_⟩
  have h3 := h t x K ht hx (autonomous_stages hK)
  simp only [norm_pow, Real.norm_eq_abs] at h3
  have h5 := (norm_add_le _ _).trans (add_le_add h3 (series_le g (y t) hS hε hB x))
  refine le_trans (le_trans (le_of_eq ?_) (norm_le_pi_norm _ d)) h5
  rw [Real.norm_eq_abs]
  congr 1
  simp only [Pi.sub_apply, Pi.add_apply, Pi.smul_apply, Finset.sum_apply, smul_eq_mul]
  ring

end Nbkode
