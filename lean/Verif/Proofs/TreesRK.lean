import Verif.Proofs.Trees
import Mathlib.Analysis.Calculus.MeanValue
import Mathlib.Analysis.Calculus.TaylorIntegral
import Mathlib.Analysis.Calculus.Deriv.Pow

/-! # The local error of a Runge-Kutta step, from the order conditions -/

set_option autoImplicit false

namespace Nbkode
open Spec Filter Asymptotics Topology

namespace Spec.Tree
variable {E : Type} [NormedAddCommGroup E] [NormedSpace ℝ E]
variable {Ω : Type} {l : Filter Ω} {h : Ω → ℝ} {q : Ω → (k : ℕ) → E [×k]→L[ℝ] E} {s : ℕ}

theorem series_eq_slopes (q : (k : ℕ) → E [×k]→L[ℝ] E) (a : Fin s → ℝ) (w : Tree → Fin s → ℝ) (N : ℕ) (h : ℝ) :
    series q (fun τ => ∑ j, a j * w τ j) N h = h • ∑ j, a j • slopes q (fun τ => w τ j) N h := by
  simp only [series, slopes, Finset.smul_sum]
  rw [Finset.sum_comm]
  refine Finset.sum_congr rfl fun τ _ => ?_
  simp only [smul_smul]
  rw [← Finset.sum_smul]
  congr 1
  rw [Finset.sum_mul]
  refine Finset.sum_congr rfl fun j _ => ?_
  have : h ^ τ.order = h * h ^ (τ.order - 1) := by
    rw [← pow_succ']
    congr 1
    have := order_pos τ
    omega
  rw [this]
  ring

theorem up_weight (A : Fin s → Fin s → ℝ) (i : Fin s) :
    up (fun τ => ∑ j, A i j * weight A τ j) = fun τ => weight A τ i := by
  funext τ
  cases τ with
  | node k c => rfl

theorem combine_isBigO {K D : Ω → Fin s → E} {m : ℕ} (hK : ∀ j, (fun ω => K ω j - D ω j) =O[l] fun ω => h ω ^ m)
    (a : Fin s → ℝ) :
    (fun ω => h ω • ∑ j, a j • K ω j - h ω • ∑ j, a j • D ω j) =O[l] fun ω => h ω ^ (m + 1) := by
  have h1 : (fun ω => ∑ j, a j • (K ω j - D ω j)) =O[l] fun ω => h ω ^ m :=
    sum_isBigO fun j _ => (hK j).const_smul_left (a j)
  have h2 := (isBigO_refl h l).smul h1
  refine (h2.congr_left fun ω => ?_).congr_right fun ω => ?_
  · simp only [smul_sub, Finset.sum_sub_distrib]
  · rw [smul_eq_mul, pow_succ']

/-- The stages of an explicit method, expanded in trees. -/
theorem stages_expand {G : Ω → E → E} (hh : Tendsto h l (𝓝 0)) (hq : ∀ k, (fun ω => q ω k) =O[l] fun _ => (1 : ℝ))
    {M : ℕ} (hT : ∀ n ≤ M, Taylor l G q n) {A : Fin s → Fin s → ℝ} (hA : ∀ i j, i ≤ j → A i j = 0)
    {K : Ω → Fin s → E} (hK : ∀ i, (fun ω => K ω i) =ᶠ[l] fun ω => G ω (h ω • ∑ j, A i j • K ω j)) :
    ∀ N ≤ M, ∀ i, (fun ω => K ω i - slopes (q ω) (fun τ => weight A τ i) N (h ω)) =O[l] fun ω => h ω ^ N := by
  intro N
  induction N with
  | zero =>
    intro _
    have key : ∀ m, ∀ i : Fin s, i.val = m → (fun ω => K ω i) =O[l] fun _ => (1 : ℝ) := by
      intro m
      induction m using Nat.strong_induction_on with
      | _ m ih =>
        intro i hi
        have h1 : (fun ω => ∑ j, A i j • K ω j) =O[l] fun _ => (1 : ℝ) := by
          refine sum_isBigO fun j _ => ?_
          by_cases hij : i ≤ j
          · simp only [hA i j hij, zero_smul]
            exact isBigO_zero _ _
          · exact (ih j.val (by rw [← hi]; exact Fin.lt_def.mp (not_le.mp hij)) j rfl).const_smul_left _
        have h2 : (fun ω => h ω • ∑ j, A i j • K ω j) =O[l] h := by
          simpa using (isBigO_refl h l).smul h1
        have h3 := hT 0 (Nat.zero_le _) _ (h2.trans_tendsto hh)
        simp only [Finset.range_zero, Finset.sum_empty, sub_zero, pow_zero] at h3
        exact h3.congr' (hK i).symm (EventuallyEq.refl _ _)
    intro i
    simpa [slopes, upTo] using key i.val i rfl
  | succ N ih =>
    intro hN i
    have h1 := combine_isBigO (ih (by omega)) (fun j => A i j)
    simp only [← series_eq_slopes (q _) (fun j => A i j) (fun τ => weight A τ)] at h1
    have h2 := compose hh hq (hT (N + 1) hN) h1
    rw [up_weight] at h2
    exact h2.congr' ((hK i).symm.sub (EventuallyEq.refl _ _)) (EventuallyEq.refl _ _)

/-- A weighted sum of the stages, expanded in trees. -/
theorem update_expand {G : Ω → E → E} (hh : Tendsto h l (𝓝 0)) (hq : ∀ k, (fun ω => q ω k) =O[l] fun _ => (1 : ℝ))
    {M : ℕ} (hT : ∀ n ≤ M, Taylor l G q n) {A : Fin s → Fin s → ℝ} (hA : ∀ i j, i ≤ j → A i j = 0)
    {K : Ω → Fin s → E} (hK : ∀ i, (fun ω => K ω i) =ᶠ[l] fun ω => G ω (h ω • ∑ j, A i j • K ω j)) (B : Fin s → ℝ) :
    (fun ω => h ω • ∑ j, B j • K ω j - series (q ω) (fun τ => ∑ j, B j * weight A τ j) M (h ω)) =O[l]
      fun ω => h ω ^ (M + 1) := by
  have h1 := combine_isBigO (stages_expand hh hq hT hA hK M le_rfl) B
  simpa only [← series_eq_slopes (q _) B (fun τ => weight A τ)] using h1

theorem series_congr (q : (k : ℕ) → E [×k]→L[ℝ] E) {c c' : Tree → ℝ} {N : ℕ} (h : ℝ)
    (hc : ∀ τ, τ.order ≤ N → c τ = c' τ) : series q c N h = series q c' N h :=
  Finset.sum_congr rfl fun τ hτ => by rw [hc τ (mem_upTo.mp hτ)]

/-! ### The exact solution -/

/-- `1 / γ(τ)`. -/
noncomputable def exact (τ : Tree) : ℝ := 1 / (τ.density : ℝ)

theorem density_pos (τ : Tree) : 0 < τ.density := by
  induction τ with
  | node k c ih =>
    rw [density]
    exact Nat.mul_pos (by omega) (Finset.prod_pos fun l _ => ih l)

theorem exact_order (τ : Tree) : exact τ * τ.order = up exact τ := by
  cases τ with
  | node k c =>
    have h1 : (0 : ℝ) < ∏ l, ((c l).density : ℝ) := Finset.prod_pos fun l _ => by exact_mod_cast density_pos (c l)
    have h2 : (0 : ℝ) < 1 + ∑ l, ((c l).order : ℝ) := by positivity
    simp only [exact, up, density, order, one_div, Finset.prod_inv_distrib]
    push_cast
    field_simp

theorem series_hasDeriv (q : (k : ℕ) → E [×k]→L[ℝ] E) (N : ℕ) (x : ℝ) :
    HasDerivAt (fun x => series q exact N x) (slopes q (up exact) N x) x := by
  unfold series slopes
  refine HasDerivAt.fun_sum fun τ _ => ?_
  rw [← exact_order, mul_assoc]
  exact (((hasDerivAt_pow τ.order x).const_mul (exact τ)).smul_const (diff q τ))

variable {F : E → E} {Y : ℝ → E} {t₀ : ℝ}

theorem integrate {G D : ℝ → ℝ → E} {n : ℕ}
    (h0 : ∀ᶠ ω : ℝ × ℝ in 𝓝 t₀ ×ˢ 𝓝 0, HasDerivAt (G ω.1) (D ω.1 ω.2) ω.2) (h00 : ∀ t, G t 0 = 0)
    (hD : (fun ω : ℝ × ℝ => D ω.1 ω.2) =O[𝓝 t₀ ×ˢ 𝓝 0] fun ω => ω.2 ^ n) :
    (fun ω : ℝ × ℝ => G ω.1 ω.2) =O[𝓝 t₀ ×ˢ 𝓝 0] fun ω => ω.2 ^ (n + 1) := by
  obtain ⟨C, hC0, hC⟩ := hD.exists_nonneg
  replace hC := hC.bound
  obtain ⟨pa, ha, pb, hb, hab⟩ := eventually_prod_iff.mp (h0.and hC)
  obtain ⟨ε, hε, hb'⟩ := Metric.eventually_nhds_iff.mp hb
  refine IsBigO.of_bound C ?_
  refine eventually_prod_iff.mpr ⟨pa, ha, fun x => |x| < ε, ?_, ?_⟩
  · exact Metric.eventually_nhds_iff.mpr ⟨ε, hε, fun y hy => by simpa [Real.dist_eq] using hy⟩
  · intro t ht x hx
    have hin : ∀ y ∈ Set.uIcc 0 x, |y| ≤ |x| := by
      intro y hy
      have := Set.abs_sub_left_of_mem_uIcc hy
      simpa using this
    have key := Convex.norm_image_sub_le_of_norm_hasDerivWithin_le (f := G t) (f' := D t) (s := Set.uIcc 0 x) (x := 0)
      (y := x) (C := C * |x| ^ n)
      (fun y hy => (hab ht (hb' (by rw [Real.dist_eq, sub_zero]; exact (hin y hy).trans_lt hx))).1.hasDerivWithinAt)
      (fun y hy => by
        have h1 := (hab ht (hb' (y := y) (by rw [Real.dist_eq, sub_zero]; exact (hin y hy).trans_lt hx))).2
        refine h1.trans ?_
        rw [norm_pow, Real.norm_eq_abs]
        exact mul_le_mul_of_nonneg_left (pow_le_pow_left₀ (abs_nonneg _) (hin y hy) n) hC0)
      (convex_uIcc _ _) Set.left_mem_uIcc Set.right_mem_uIcc
    rw [h00, sub_zero, sub_zero, Real.norm_eq_abs] at key
    rw [norm_pow, Real.norm_eq_abs, pow_succ]
    linarith

/-- The exact solution, expanded in trees. -/
theorem solution_expand {q : ℝ → (k : ℕ) → E [×k]→L[ℝ] E} (hq : ∀ k, (fun t => q t k) =O[𝓝 t₀] fun _ => (1 : ℝ))
    (hY : ∀ᶠ t in 𝓝 t₀, HasDerivAt Y (F (Y t)) t) {M : ℕ}
    (hT : ∀ n ≤ M, Taylor (𝓝 t₀ ×ˢ 𝓝 0) (fun (ω : ℝ × ℝ) δ => F (Y ω.1 + δ)) (fun ω => q ω.1) n) :
    (fun ω : ℝ × ℝ => Y (ω.1 + ω.2) - Y ω.1 - series (q ω.1) exact M ω.2) =O[𝓝 t₀ ×ˢ 𝓝 0] fun ω => ω.2 ^ (M + 1) := by
  have hh : Tendsto (fun ω : ℝ × ℝ => ω.2) (𝓝 t₀ ×ˢ 𝓝 0) (𝓝 0) := tendsto_snd
  have hq' : ∀ k, (fun ω : ℝ × ℝ => q ω.1 k) =O[𝓝 t₀ ×ˢ 𝓝 0] fun _ => (1 : ℝ) := fun k =>
    (hq k).comp_tendsto tendsto_fst
  have hadd : Tendsto (fun ω : ℝ × ℝ => ω.1 + ω.2) (𝓝 t₀ ×ˢ 𝓝 0) (𝓝 t₀) := by
    simpa using (tendsto_fst (f := 𝓝 t₀) (g := 𝓝 (0 : ℝ))).add tendsto_snd
  have hYc : ContinuousAt Y t₀ := hY.self_of_nhds.continuousAt
  have hder : ∀ N, ∀ᶠ ω : ℝ × ℝ in 𝓝 t₀ ×ˢ 𝓝 0, HasDerivAt (fun x => Y (ω.1 + x) - Y ω.1 - series (q ω.1) exact N x)
      (F (Y (ω.1 + ω.2)) - slopes (q ω.1) (up exact) N ω.2) ω.2 := by
    intro N
    filter_upwards [hadd.eventually hY] with ω hω
    refine HasDerivAt.sub (HasDerivAt.sub_const _ ?_) (series_hasDeriv _ _ _)
    have := hω.scomp ω.2 ((hasDerivAt_id ω.2).const_add ω.1)
    simpa [Function.comp_def] using this
  have h00 : ∀ N t, Y (t + 0) - Y t - series (q t) exact N 0 = 0 := by
    intro N t
    have : series (q t) exact N 0 = 0 := Finset.sum_eq_zero fun τ _ => by
      rw [zero_pow (by have := order_pos τ; omega), mul_zero, zero_smul]
    rw [this]; simp
  have hδ0 : Tendsto (fun ω : ℝ × ℝ => Y (ω.1 + ω.2) - Y ω.1) (𝓝 t₀ ×ˢ 𝓝 0) (𝓝 0) := by
    simpa using (hYc.tendsto.comp hadd).sub (hYc.tendsto.comp tendsto_fst)
  have hslope : ∀ N ≤ M, (fun ω : ℝ × ℝ => F (Y (ω.1 + ω.2)) - slopes (q ω.1) (up exact) N ω.2) =O[𝓝 t₀ ×ˢ 𝓝 0]
      fun ω => ω.2 ^ N := by
    intro N
    induction N with
    | zero =>
      intro _
      have h1 := hT 0 (Nat.zero_le _) _ hδ0
      simp only [Finset.range_zero, Finset.sum_empty, sub_zero, pow_zero, add_sub_cancel] at h1
      simpa [slopes, upTo] using h1
    | succ N ih =>
      intro hN
      have h1 := integrate (G := fun t x => Y (t + x) - Y t - series (q t) exact N x)
        (D := fun t x => F (Y (t + x)) - slopes (q t) (up exact) N x) (hder N) (h00 N) (ih (by omega))
      have h2 := compose hh hq' (hT (N + 1) hN) h1
      simpa only [add_sub_cancel] using h2
  exact integrate (G := fun t x => Y (t + x) - Y t - series (q t) exact M x)
    (D := fun t x => F (Y (t + x)) - slopes (q t) (up exact) M x) (hder M) (h00 M) (hslope M le_rfl)

/-! ### Taylor coefficients of a differentiable function -/

/-- `D^k F(y) / k!`, for `k < M`. -/
noncomputable def coeffs (F : E → E) (M : ℕ) (y : E) (k : ℕ) : E [×k]→L[ℝ] E :=
  if k < M then (k.factorial : ℝ)⁻¹ • iteratedFDeriv ℝ k F y else 0

theorem coeffs_isBigO {M : ℕ} {x : E} (hF : ContDiffAt ℝ M F x) (k : ℕ) :
    (fun y => coeffs F M y k) =O[𝓝 x] fun _ => (1 : ℝ) := by
  unfold coeffs
  split
  · rename_i hk
    have : ContinuousAt (iteratedFDeriv ℝ k F) x := hF.continuousAt_iteratedFDeriv (by exact_mod_cast hk.le)
    exact (this.tendsto.const_smul ((k.factorial : ℝ)⁻¹)).isBigO_one ℝ
  · exact isBigO_zero _ _

theorem taylor_of_contDiffAt {M : ℕ} {x : E} [CompleteSpace E] (hF : ContDiffAt ℝ M F x) {y : Ω → E}
    (hy : Tendsto y l (𝓝 x)) : ∀ n ≤ M, Taylor l (fun ω δ => F (y ω + δ)) (fun ω => coeffs F M (y ω)) n := by
  intro n hn δ hδ
  have hyδ : Tendsto (fun ω => y ω + δ ω) l (𝓝 x) := by simpa using hy.add hδ
  cases n with
  | zero =>
    simp only [Finset.range_zero, Finset.sum_empty, sub_zero, pow_zero]
    exact (hF.continuousAt.tendsto.comp hyδ).isBigO_one ℝ
  | succ m =>
    have hF' : ContDiffAt ℝ (m + 1 : ℕ) F x := hF.of_le (by exact_mod_cast hn)
    have hev := hF'.eventually (by simp)
    have hcont : ContinuousAt (iteratedFDeriv ℝ (m + 1) F) x :=
      hF.continuousAt_iteratedFDeriv (by exact_mod_cast hn)
    obtain ⟨ε, hε, hb⟩ := Metric.eventually_nhds_iff.mp
      (hev.and (hcont.norm.eventually_lt_const (lt_add_one ‖iteratedFDeriv ℝ (m + 1) F x‖)))
    set C := ‖iteratedFDeriv ℝ (m + 1) F x‖ + 1
    refine IsBigO.of_bound ((m.factorial : ℝ)⁻¹ * C) ?_
    filter_upwards [hy.eventually (Metric.ball_mem_nhds x (half_pos hε)),
      hδ.eventually (Metric.ball_mem_nhds 0 (half_pos hε))] with ω h1 h2
    have hin : ∀ t ∈ Set.Icc (0 : ℝ) 1, dist (y ω + t • δ ω) x < ε := by
      intro t ht
      rw [dist_eq_norm]
      have a : ‖y ω - x‖ < ε / 2 := by rw [← dist_eq_norm]; exact h1
      have b : ‖δ ω‖ < ε / 2 := by simpa using h2
      have c : ‖t • δ ω‖ ≤ ‖δ ω‖ := by
        rw [norm_smul, Real.norm_of_nonneg ht.1]
        exact mul_le_of_le_one_left (norm_nonneg _) ht.2
      calc ‖y ω + t • δ ω - x‖ = ‖(y ω - x) + t • δ ω‖ := by congr 1; abel
        _ ≤ ‖y ω - x‖ + ‖t • δ ω‖ := norm_add_le _ _
        _ < ε := by linarith
    have key := map_add_eq_sum_add_integral_iteratedFDeriv (n := m) (f := F) (x := y ω) (y := δ ω)
      (fun t ht => by exact_mod_cast (hb (hin t ht)).1)
    have e : ∑ k ∈ Finset.range (m + 1), (coeffs F M (y ω) k fun _ => δ ω) =
        ∑ k ∈ Finset.range (m + 1), ((k.factorial : ℝ)⁻¹ • iteratedFDeriv ℝ k F (y ω) fun _ => δ ω) := by
      refine Finset.sum_congr rfl fun k hk => ?_
      have : k < M := by have := Finset.mem_range.mp hk; omega
      simp [coeffs, this]
    rw [e, key]
    simp only [add_sub_cancel_left]
    rw [norm_smul, norm_inv, Real.norm_natCast, mul_assoc]
    refine mul_le_mul_of_nonneg_left ?_ (by positivity)
    have hint := intervalIntegral.norm_integral_le_of_norm_le_const (a := 0) (b := 1) (C := C * ‖δ ω‖ ^ (m + 1))
      (f := fun t : ℝ => (1 - t) ^ m • iteratedFDeriv ℝ (m + 1) F (y ω + t • δ ω) fun _ => δ ω) (by
        intro t ht
        rw [Set.uIoc_of_le zero_le_one] at ht
        have ht' : t ∈ Set.Icc (0 : ℝ) 1 := ⟨ht.1.le, ht.2⟩
        rw [norm_smul]
        have a : ‖(1 - t) ^ m‖ ≤ 1 := by
          rw [norm_pow, Real.norm_of_nonneg (by linarith [ht.2])]
          exact pow_le_one₀ (by linarith [ht.2]) (by linarith [ht.1])
        have b : ‖iteratedFDeriv ℝ (m + 1) F (y ω + t • δ ω) fun _ => δ ω‖ ≤ C * ‖δ ω‖ ^ (m + 1) := by
          refine (ContinuousMultilinearMap.le_opNorm _ _).trans ?_
          rw [Finset.prod_const, Finset.card_univ, Fintype.card_fin]
          exact mul_le_mul_of_nonneg_right (hb (hin t ht')).2.le (by positivity)
        calc _ ≤ 1 * _ := mul_le_mul_of_nonneg_right a (norm_nonneg _)
          _ ≤ _ := by rw [one_mul]; exact b)
    rw [norm_pow, norm_norm]
    simpa using hint

end Spec.Tree
end Nbkode
