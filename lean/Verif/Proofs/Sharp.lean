import Verif.Proofs.Tolerance
import Verif.Spec.Tolerance
import Mathlib.Topology.Compactness.Compact
import Mathlib.Analysis.Calculus.IteratedDeriv.Defs

/-! # When an error estimate is sharp -/

set_option autoImplicit false
set_option linter.unusedSectionVars false

namespace Nbkode
open Spec Filter Asymptotics Topology

section
variable {E : Type} [NormedAddCommGroup E] [NormedSpace ℝ E] {s : ℕ}
variable {F : E → E} {Y : ℝ → E} {t₀ : ℝ}

theorem diff_eq_differential (F : E → E) (v : E) {p : ℕ} : ∀ τ : Tree, τ.order ≤ p →
    Tree.diff (Tree.coeffs F p v) τ = differential F v τ
  | .node k c, h => by
    have h1 : ∀ l, (c l).order ≤ p := fun l => by
      have := Finset.single_le_sum (f := fun l => (c l).order) (fun _ _ => Nat.zero_le _) (Finset.mem_univ l)
      rw [Tree.order] at h
      omega
    have h2 : k < p := by
      have h3 : ∑ _l : Fin k, 1 ≤ ∑ l, (c l).order := Finset.sum_le_sum fun l _ => (c l).order_pos
      rw [Tree.order] at h
      simp only [Finset.sum_const, Finset.card_univ, Fintype.card_fin, smul_eq_mul, mul_one] at h3
      omega
    rw [Tree.diff, differential, Tree.coeffs, if_pos h2]
    congr 1
    funext l
    exact diff_eq_differential F v (c l) (h1 l)

theorem diff_continuousAt {p : ℕ} {x : E} (hF : ContDiffAt ℝ p F x) : ∀ τ : Tree,
    ContinuousAt (fun v => Tree.diff (Tree.coeffs F p v) τ) x
  | .node k c => by
    have h1 : ContinuousAt (fun v => Tree.coeffs F p v k) x := by
      unfold Tree.coeffs
      split
      · rename_i hk
        exact (hF.continuousAt_iteratedFDeriv (by exact_mod_cast hk.le)).const_smul ((k.factorial : ℝ)⁻¹)
      · exact continuousAt_const
    have h2 : ContinuousAt (fun v => fun l => Tree.diff (Tree.coeffs F p v) (c l)) x :=
      continuousAt_pi.mpr fun l => diff_continuousAt hF (c l)
    simp only [Tree.diff]
    exact h1.eval h2

open Classical in
/-- Where the first term of the expansion does not vanish, a weighted sum of stages is at least of its size. -/
theorem principal_local [CompleteSpace E] {p : ℕ} (hF : ContDiffAt ℝ p F (Y t₀)) (hY : ContinuousAt Y t₀)
    {A : Fin s → Fin s → ℝ} (hA : ∀ i j, i ≤ j → A i j = 0) {W : Fin s → ℝ}
    (hW : ∀ τ : Tree, τ.order < p → ∑ i, W i * τ.weight A i = 0)
    {S : Finset Tree} (hS : ∀ τ : Tree, τ ∈ S ↔ τ.order = p)
    (hD : ∑ τ ∈ S, (∑ i, W i * τ.weight A i) • differential F (Y t₀) τ ≠ 0) :
    ∃ κ r, 0 < κ ∧ 0 < r ∧ ∀ (t x : ℝ) (K : Fin s → E), |t - t₀| < r → |x| < r →
      (∀ i, K i = F (Y t + x • ∑ j, A i j • K j)) → κ * |x| ^ p ≤ ‖x • ∑ j, W j • K j‖ := by
  set D : E → E := fun v => ∑ τ ∈ S, (∑ i, W i * τ.weight A i) • Tree.diff (Tree.coeffs F p v) τ with hDdef
  have hDe : ∀ v, D v = ∑ τ ∈ S, (∑ i, W i * τ.weight A i) • differential F v τ := fun v =>
    Finset.sum_congr rfl fun τ hτ => by rw [diff_eq_differential F v τ ((hS τ).mp hτ).le]
  have hDc : ContinuousAt D (Y t₀) := by
    have : ∀ τ ∈ S, Tendsto (fun v => (∑ i, W i * τ.weight A i) • Tree.diff (Tree.coeffs F p v) τ) (𝓝 (Y t₀))
        (𝓝 ((∑ i, W i * τ.weight A i) • Tree.diff (Tree.coeffs F p (Y t₀)) τ)) := fun τ _ => (diff_continuousAt hF τ).tendsto.const_smul _
    exact tendsto_finsetSum S this
  have hD0 : 0 < ‖D (Y t₀)‖ := norm_pos_iff.mpr (by rw [hDe]; exact hD)
  have hser : ∀ v x, Tree.series (Tree.coeffs F p v) (fun τ => ∑ i, W i * τ.weight A i) p x = x ^ p • D v := by
    intro v x
    have hsub : S ⊆ Tree.upTo p := fun τ hτ => Tree.mem_upTo.mpr ((hS τ).mp hτ).le
    rw [Tree.series, ← Finset.sum_subset hsub, hDdef, Finset.smul_sum]
    · refine Finset.sum_congr rfl fun τ hτ => ?_
      rw [(hS τ).mp hτ, mul_comm, mul_smul]
    · intro τ h1 h2
      have : τ.order < p := lt_of_le_of_ne (Tree.mem_upTo.mp h1) fun h => h2 ((hS τ).mpr h)
      rw [hW τ this, zero_mul, zero_smul]
  obtain ⟨C, hC⟩ := (weighted_error hF hY hA W (c := fun τ => ∑ i, W i * τ.weight A i) fun _ _ => rfl).bound
  obtain ⟨r, hr, h⟩ := stepsNear_eventually hC
  obtain ⟨r', hr', h'⟩ := Metric.eventually_nhds_iff.mp
    ((hDc.comp hY).norm.eventually_const_lt (half_lt_self hD0))
  set κ := ‖D (Y t₀)‖ / 2 with hκ
  have hκ0 : 0 < κ := half_pos hD0
  refine ⟨κ / 2, min (min r r') (κ / 2 / (|C| + 1)), half_pos hκ0, by positivity, fun t x K ht hx hK => ?_⟩
  have h1 := h t x K (ht.trans_le ((min_le_left _ _).trans (min_le_left _ _))) (hx.trans_le ((min_le_left _ _).trans (min_le_left _ _))) hK
  have h2 : κ < ‖D (Y t)‖ := h' (by rw [Real.dist_eq]; exact ht.trans_le ((min_le_left _ _).trans (min_le_right _ _)))
  have h3 : |x| * (|C| + 1) ≤ κ / 2 := by
    rw [← le_div_iff₀ (by positivity)]
    exact hx.le.trans (min_le_right _ _)
  simp only [hser, norm_pow, Real.norm_eq_abs] at h1
  have h4 : |x| ^ p * ‖D (Y t)‖ ≤ ‖x • ∑ j, W j • K j‖ + C * |x| ^ (p + 1) := by
    have : ‖x ^ p • D (Y t)‖ = |x| ^ p * ‖D (Y t)‖ := by rw [norm_smul, norm_pow, Real.norm_eq_abs]
    rw [← this]
    have := norm_le_norm_add_norm_sub (x • ∑ j, W j • K j) (x ^ p • D (Y t))
    linarith
  have h5 : C * |x| ^ (p + 1) ≤ |x| ^ p * (κ / 2) := by
    have : C * |x| ≤ κ / 2 := le_trans (by nlinarith [le_abs_self C, abs_nonneg x]) h3
    calc C * |x| ^ (p + 1) = |x| ^ p * (C * |x|) := by ring
      _ ≤ _ := mul_le_mul_of_nonneg_left this (by positivity)
  have h6 : |x| ^ p * κ ≤ |x| ^ p * ‖D (Y t)‖ := mul_le_mul_of_nonneg_left h2.le (by positivity)
  linarith

end

variable {n s : ℕ} {f : ℝ → Vec ℝ n → Vec ℝ n} {y : ℝ → Vec ℝ n}

/-- An estimate whose first term does not vanish along the solution is sharp. -/
theorem sharp_of_principal {T : Tableau ℝ s} (hT : Explicit T) (hR : RowSums (withLast T)) {W : Fin (s + 2) → ℝ} {p : ℕ} (hp : 2 ≤ p)
    (hW : ∀ τ : Tree, τ.order < p → ∑ i, W i * τ.weight (withLast T).A i = 0) {t₀ t₁ : ℝ}
    (hf : ∀ t ∈ Set.Icc t₀ t₁, ContDiffAt ℝ p (joint f) (t, y t)) (hy : ∀ t ∈ Set.Icc t₀ t₁, ContinuousAt (Y := Fin n → ℝ) y t)
    (hD : PrincipalNonzero (withLast T) W p f y t₀ t₁) : SharpEstimate T W p f y t₀ t₁ := by
  classical
  have hS : ∀ τ : Tree, τ ∈ (Tree.upTo p).filter (fun τ => τ.order = p) ↔ τ.order = p := fun τ => by
    rw [Finset.mem_filter, Tree.mem_upTo]
    exact ⟨fun h => h.2, fun h => ⟨h.le, h⟩⟩
  set S := (Tree.upTo p).filter (fun τ => τ.order = p)
  have hloc : ∀ t' ∈ Set.Icc t₀ t₁, ∃ κ r, 0 < κ ∧ 0 < r ∧ ∀ (t x : ℝ) (K : Fin (s + 2) → Vec ℝ n), |t - t'| < r → |x| < r →
      RKStages (withLast T) (pureRhs f) t x (y t) K → 0 < x → ∃ d, κ * x ^ p ≤ |x * ∑ j, W j * K j d| := by
    intro t' ht'
    have hF : ContDiffAt ℝ p (withTime f) ((fun t => ((t, y t) : ℝ × (Fin n → ℝ))) t') := contDiffAt_const.prodMk (hf t' ht')
    have hY : ContinuousAt (fun t => ((t, y t) : ℝ × (Fin n → ℝ))) t' := continuousAt_id.prodMk (hy t' ht')
    obtain ⟨κ, r, hκ, hr, h⟩ := principal_local hF hY (withLast_explicit hT).upper hW hS (hD t' ht' S hS)
    refine ⟨κ, r, hκ, hr, fun t x K ht hx hK hx0 => ?_⟩
    have h1 := h t x (fun i => (1, K i)) ht hx (withTime_stages hR hK)
    rw [abs_of_pos hx0] at h1
    have hW1 : ∑ j, W j = 0 := by
      have := hW (.node 0 Fin.elim0) (by simp [Tree.order]; omega)
      simpa [Tree.weight] using this
    have e : x • ∑ j, W j • ((1, K j) : ℝ × (Fin n → ℝ)) = (0, fun d => x * ∑ j, W j * K j d) := by
      refine Prod.ext ?_ (funext fun d => ?_)
      · simp only [Prod.smul_fst, Prod.fst_sum, smul_eq_mul, mul_one, hW1, mul_zero]
      · simp only [Prod.smul_snd, Prod.snd_sum, Pi.smul_apply, Finset.sum_apply, smul_eq_mul]
    rw [e, Prod.norm_mk, norm_zero, max_eq_right (norm_nonneg _)] at h1
    by_contra hcon
    push Not at hcon
    have : ‖(fun d => x * ∑ j, W j * K j d : Fin n → ℝ)‖ < κ * x ^ p :=
      (pi_norm_lt_iff (by positivity)).mpr fun d => by rw [Real.norm_eq_abs]; exact hcon d
    linarith
  choose! κ r hκ hr h using hloc
  obtain ⟨F, hF1, hF2⟩ := isCompact_Icc.elim_nhds_subcover (U := fun t => Metric.ball t (r t))
    (fun t ht => Metric.ball_mem_nhds t (hr t ht))
  rcases F.eq_empty_or_nonempty with rfl | hne
  · refine ⟨1, 1, one_pos, one_pos, fun t h K ht => ?_⟩
    exact absurd (hF2 ht) (by simp)
  obtain ⟨m, hm, hmin⟩ := F.exists_min_image κ hne
  obtain ⟨m', hm', hmin'⟩ := F.exists_min_image r hne
  refine ⟨κ m, r m' / 2, hκ m (hF1 m hm), half_pos (hr m' (hF1 m' hm')), fun t x K ht hx0 hx hK => ?_⟩
  obtain ⟨t', ht', htb⟩ := Set.mem_iUnion₂.mp (hF2 ht)
  obtain ⟨d, hd⟩ := h t' (hF1 t' ht') t x K (by rwa [Metric.mem_ball, Real.dist_eq] at htb)
    (by rw [abs_of_pos hx0]; exact (hx.trans_lt (half_lt_self (hr m' (hF1 m' hm')))).trans_le (hmin' t' ht')) hK hx0
  exact ⟨d, (mul_le_mul_of_nonneg_right (hmin t' ht') (by positivity)).trans hd⟩

end Nbkode
