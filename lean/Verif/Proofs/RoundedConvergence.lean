import Verif.Proofs.RoundedStages

/-! Convergence of Runge-Kutta methods with machine numbers. -/

set_option autoImplicit false
set_option linter.unusedSectionVars false

namespace Nbkode
open Spec Spec.Num Topology

variable {n s k : ℕ}

theorem exists_lipschitz {f : ℝ → Vec ℝ n → Vec ℝ n} (hf : ContDiff ℝ 1 (joint f)) (R : ℝ) :
    ∃ L, 0 ≤ L ∧ LipschitzUpTo f L R := by
  obtain ⟨L, hL⟩ := (isCompact_closedBall (0 : ℝ × (Fin n → ℝ)) R).exists_bound_of_continuousOn
    (hf.continuous_fderiv one_ne_zero).continuousOn
  refine ⟨max L 0, le_max_right _ _, fun t t' v v' ht ht' hv hv' => ?_⟩
  have hmem : ∀ (t : ℝ) (v : Fin n → ℝ), |t| ≤ R → ‖v‖ ≤ R → ((t, v) : ℝ × (Fin n → ℝ)) ∈ Metric.closedBall (0 : ℝ × (Fin n → ℝ)) R := by
    intro t v h1 h2
    rw [mem_closedBall_zero_iff, Prod.norm_def]
    exact max_le (by simpa using h1) h2
  have := (convex_closedBall (0 : ℝ × (Fin n → ℝ)) R).norm_image_sub_le_of_norm_fderiv_le
    (fun x _ => hf.differentiable one_ne_zero x) (fun x hx => (hL x hx).trans (le_max_left L 0))
    (hmem t' v' ht' hv') (hmem t v ht hv)
  refine this.trans (le_of_eq ?_)
  rw [Prod.norm_def]
  simp

/-- The steps considered: from a point near the solution, with a step size up to 1. -/
def nearSolution (y : ℝ → Vec ℝ n) (t₀ T : ℝ) : Set (ℝ × ℝ × (Fin n → ℝ)) :=
  { ω | ω.1 ∈ Set.Icc t₀ T ∧ ω.2.1 ∈ Set.Icc (0 : ℝ) 1 ∧ ‖ω.2.2 - (y ω.1 : Fin n → ℝ)‖ ≤ 1 }

theorem nearSolution_compact {y : ℝ → Vec ℝ n} {t₀ T : ℝ} (hy : ContinuousOn (Y := Fin n → ℝ) y (Set.Icc t₀ T)) :
    IsCompact (nearSolution y t₀ T) := by
  have hK : IsCompact (Set.Icc t₀ T ×ˢ (Set.Icc (0 : ℝ) 1 ×ˢ Metric.closedBall (0 : Fin n → ℝ) 1)) :=
    isCompact_Icc.prod (isCompact_Icc.prod (isCompact_closedBall _ _))
  have hcont : ContinuousOn (fun ω : ℝ × ℝ × (Fin n → ℝ) => ((ω.1, ω.2.1, (y ω.1 : Fin n → ℝ) + ω.2.2) : ℝ × ℝ × (Fin n → ℝ)))
      (Set.Icc t₀ T ×ˢ (Set.Icc (0 : ℝ) 1 ×ˢ Metric.closedBall (0 : Fin n → ℝ) 1)) := by
    have h1 : ContinuousOn (fun ω : ℝ × ℝ × (Fin n → ℝ) => (y ω.1 : Fin n → ℝ))
        (Set.Icc t₀ T ×ˢ (Set.Icc (0 : ℝ) 1 ×ˢ Metric.closedBall (0 : Fin n → ℝ) 1)) :=
      hy.comp continuousOn_fst fun ω hω => hω.1
    exact continuousOn_fst.prodMk ((continuous_fst.comp continuous_snd).continuousOn.prodMk
      (h1.add (continuous_snd.comp continuous_snd).continuousOn))
  convert hK.image_of_continuousOn hcont using 1
  ext ⟨t, x, v⟩
  simp only [nearSolution, Set.mem_setOf_eq, Set.mem_image, Set.mem_prod, Prod.mk.injEq, Prod.exists, mem_closedBall_zero_iff]
  constructor
  · rintro ⟨h1, h2, h3⟩
    exact ⟨t, x, v - y t, ⟨h1, h2, h3⟩, rfl, rfl, by rw [add_sub_cancel]⟩
  · rintro ⟨t', x', w, ⟨h1, h2, h3⟩, rfl, rfl, rfl⟩
    exact ⟨h1, h2, by rwa [add_sub_cancel_left]⟩

theorem exists_region {f : ℝ → Vec ℝ n → Vec ℝ n} (hf : ContDiff ℝ 1 (joint f)) (T' : Tableau ℝ s) {y : ℝ → Vec ℝ n} {t₀ T : ℝ}
    (hy : ContinuousOn (Y := Fin n → ℝ) y (Set.Icc t₀ T)) : ∃ R, 1 ≤ R ∧ Region T' f R (nearSolution y t₀ T) := by
  have hs : ∀ i, Continuous (stageFn T' f i) := fun i => (stageFn_contDiff hf i).continuous
  have hG : Continuous fun ω : ℝ × ℝ × (Fin n → ℝ) =>
      ((ω.1, ω.2.2, (fun i => stageFn T' f i ω), (fun i => ω.1 + T'.C i * ω.2.1),
        fun i => ω.2.2 + ω.2.1 • ∑ j, T'.A i j • stageFn T' f j ω) :
        ℝ × (Fin n → ℝ) × (Fin (s + 1) → Fin n → ℝ) × (Fin (s + 1) → ℝ) × (Fin (s + 1) → Fin n → ℝ)) := by
    refine continuous_fst.prodMk ((continuous_snd.comp continuous_snd).prodMk ((continuous_pi hs).prodMk
      (Continuous.prodMk ?_ ?_)))
    · exact continuous_pi fun i => continuous_fst.add (continuous_const.mul (continuous_fst.comp continuous_snd))
    · refine continuous_pi fun i => (continuous_snd.comp continuous_snd).add
        ((continuous_fst.comp continuous_snd).smul (continuous_finset_sum _ fun j _ => by have := (hs j).const_smul (T'.A i j); exact this))
  obtain ⟨R, hR⟩ := (nearSolution_compact hy).exists_bound_of_continuousOn hG.continuousOn
  have hR' := fun ω hω => (hR ω hω).trans (le_max_left R 1)
  simp only [Prod.norm_def, sup_le_iff] at hR'
  refine ⟨max R 1, le_max_right _ _, ⟨fun ω hω => (hR' ω hω).1, fun ω hω => hω.2.1, fun ω hω => (hR' ω hω).2.1,
    fun ω hω i => (norm_le_pi_norm _ i).trans (hR' ω hω).2.2.1,
    fun ω hω i => (norm_le_pi_norm (fun i => ω.1 + T'.C i * ω.2.1) i).trans (hR' ω hω).2.2.2.1,
    fun ω hω i => (norm_le_pi_norm (fun i => ω.2.2 + ω.2.1 • ∑ j, T'.A i j • stageFn T' f j ω) i).trans
      (hR' ω hω).2.2.2.2⟩⟩

/-- The steps of the class are Runge-Kutta steps up to rounding. -/
def RoundedSteps {X : Rounding → Type} (T' : Tableau ℝ s) (cls : ∀ φ, Rhs (Num φ) n → Solver (Num φ) n k (X φ)) : Prop :=
  ∀ (f : ℝ → Vec ℝ n → Vec ℝ n) (R L : ℝ) (D : Set (ℝ × ℝ × (Fin n → ℝ))), 1 ≤ R → 0 ≤ L → LipschitzUpTo f L (R + 1) →
    Region T' f R D → ∃ c δ, 0 ≤ c ∧ 0 < δ ∧ ∀ (φ : Rounding) (u η κ : ℝ), φ.Accurate u η → 0 ≤ κ → u + η + κ ≤ δ →
      ∀ F, Computes F f κ (R + 1) → ∀ w v : St (Num φ) n k (X φ), w.f = F w.t w.y → Takes (cls φ (pureRhs F)) w v →
        ∃ x : Num φ, v.t = w.t + x ∧ v.f = F v.t v.y ∧ ((w.t.val, x.val, vals w.y) ∈ D → ∀ d,
          |(v.y d).val - ((w.y d).val + x.val * incr T' f (w.t.val, x.val, vals w.y) d)| ≤ c * (u + η + x.val * κ))

theorem gronwall_step' {L M E τ x e e' : ℝ} (hL : 0 ≤ L) (hM : 0 ≤ M) (hE : 0 ≤ E) (hτ : 0 ≤ τ) (hx : 0 ≤ x)
    (he : e ≤ (E + M * τ) * Real.exp (L * τ)) (he' : e' ≤ (1 + L * x) * e + M * x) :
    e' ≤ (E + M * (τ + x)) * Real.exp (L * (τ + x)) := by
  have h1 : 1 + L * x ≤ Real.exp (L * x) := by
    have := Real.add_one_le_exp (L * x); linarith
  have h2 : Real.exp (L * (τ + x)) = Real.exp (L * τ) * Real.exp (L * x) := by rw [← Real.exp_add]; ring_nf
  have h3 : (1 : ℝ) ≤ Real.exp (L * (τ + x)) := Real.one_le_exp (by positivity)
  have h4 : (1 + L * x) * e ≤ Real.exp (L * x) * ((E + M * τ) * Real.exp (L * τ)) := by
    refine (mul_le_mul_of_nonneg_left he (by positivity)).trans ?_
    exact mul_le_mul_of_nonneg_right h1 (by positivity)
  have h5 : M * x ≤ M * x * Real.exp (L * (τ + x)) := le_mul_of_one_le_right (by positivity) h3
  calc e' ≤ _ := he'
    _ ≤ Real.exp (L * x) * ((E + M * τ) * Real.exp (L * τ)) + M * x * Real.exp (L * (τ + x)) := add_le_add h4 h5
    _ = (E + M * (τ + x)) * Real.exp (L * (τ + x)) := by rw [h2]; ring

/-- The distance of `x` from what the clock shows. -/
theorem clock_near {φ : Rounding} {u η R : ℝ} (hA : φ.Accurate u η) (hu : u + η ≤ 1 / 2) {t x t' : Num φ} (e : t' = t + x)
    (h : |t'.val| ≤ R) : |x.val - (t'.val - t.val)| ≤ (2 * R + 2) * (u + η) := by
  have hu0 := hA.unit_nonneg
  have hη := hA.tiny_nonneg
  have h1 := hA.error (t.val + x.val)
  have h2 : t'.val = φ.round (t.val + x.val) := by rw [e, val_add]
  rw [← h2] at h1
  set z := t.val + x.val
  have h3 : |z| ≤ |t'.val| + |t'.val - z| := by
    calc |z| = |t'.val - (t'.val - z)| := by ring_nf
      _ ≤ _ := abs_sub _ _
  have h4 : |z| ≤ 2 * R + 1 := by nlinarith [abs_nonneg z]
  rw [show x.val - (t'.val - t.val) = -(t'.val - z) by ring, abs_neg]
  have h5 := mul_le_mul_of_nonneg_left h4 hu0
  have h6 : 0 ≤ R := (abs_nonneg _).trans h
  nlinarith

theorem solution_lipschitz {f : ℝ → Vec ℝ n → Vec ℝ n} {y : ℝ → Vec ℝ n} {a b t₀ T : ℝ} (hf : Continuous (joint f)) (ha : a < t₀)
    (hb : T < b) (hy : ∀ t ∈ Set.Ioo a b, SolvesAt f y t) :
    ∃ N, 0 ≤ N ∧ ∀ x ∈ Set.Icc t₀ T, ∀ z ∈ Set.Icc t₀ T, ‖(y x : Fin n → ℝ) - y z‖ ≤ N * |x - z| := by
  have hsub : ∀ t ∈ Set.Icc t₀ T, t ∈ Set.Ioo a b := fun t ht => ⟨ha.trans_le ht.1, ht.2.trans_lt hb⟩
  have hyc : ContinuousOn (Y := Fin n → ℝ) y (Set.Icc t₀ T) := fun t ht =>
    (hy t (hsub t ht)).continuousAt.continuousWithinAt
  have hc : ContinuousOn (fun t => (joint f (t, y t) : Fin n → ℝ)) (Set.Icc t₀ T) :=
    hf.comp_continuousOn (continuousOn_id.prodMk hyc)
  obtain ⟨N, hN⟩ := isCompact_Icc.exists_bound_of_continuousOn hc
  refine ⟨max N 0, le_max_right _ _, fun x hx z hz => ?_⟩
  have := (convex_Icc t₀ T).norm_image_sub_le_of_norm_hasDerivWithin_le (f := (y : ℝ → Fin n → ℝ))
    (fun t ht => (hy t (hsub t ht)).hasDerivWithinAt) (fun t ht => (hN t ht).trans (le_max_left N 0)) hz hx
  simpa using this

theorem rounded_converges {X : Rounding → Type} {T' : Tableau ℝ s} {cls : ∀ φ, Rhs (Num φ) n → Solver (Num φ) n k (X φ)}
    (hS : RoundedSteps T' cls) (hT : Explicit T') (hR : RowSums T') {p : ℕ} (hp : 1 ≤ p) (hB : OrderConditions T'.A T'.B p) :
    RoundedConverges cls p := by
  intro f y a b t₀ T hf ha hb hy
  have hf1 : ContDiff ℝ 1 (joint f) := hf.of_le (by exact_mod_cast hp)
  set T₂ := (T + b) / 2 with hT₂
  have hTT : T < T₂ := by linarith
  have hTb : T₂ < b := by linarith
  have hyc : ContinuousOn (Y := Fin n → ℝ) y (Set.Icc t₀ T) := fun t ht =>
    (hy t ⟨ha.trans_le ht.1, ht.2.trans_lt hb⟩).continuousAt.continuousWithinAt
  obtain ⟨R, hR1, hD⟩ := exists_region hf1 T' hyc
  obtain ⟨L₀, hL₀, hlip₀⟩ := exists_lipschitz hf1 (R + 1)
  obtain ⟨c, δ₀, hc, hδ₀, hstep⟩ := hS f R L₀ _ hR1 hL₀ hlip₀ hD
  obtain ⟨L, hL, hlip⟩ := incr_lipschitz (T := T') hf1 hyc
  obtain ⟨C, r, hC, hr, hloc⟩ := uniform_local_error hf hy ha hb hT hR hB
  obtain ⟨N, hN, hyl⟩ := solution_lipschitz hf1.continuous ha hTb hy
  -- constants
  set ct := 2 * R + 2 with hct
  have hct0 : 0 < ct := by linarith
  set M₀ := 2 ^ (p + 1) * C + (N * ct + c) + 2 * c with hM₀
  have hM₀0 : 0 ≤ M₀ := by positivity
  set G := (1 + M₀ * |T - t₀|) * Real.exp (2 * L * |T - t₀|) with hG
  have hG0 : 0 < G := by positivity
  set δ := min (δ₀ / 2) (min (1 / 4) (min (1 / (2 * ct)) (min (r / 4) (min (T₂ - T) (1 / (4 * G)))))) with hδd
  have hδ : 0 < δ := by
    simp only [hδd, lt_min_iff]
    exact ⟨by positivity, by positivity, by positivity, by positivity, by linarith, by positivity⟩
  have hδ1 : δ ≤ δ₀ / 2 := min_le_left _ _
  have hδ2 : δ ≤ 1 / 4 := (min_le_right _ _).trans (min_le_left _ _)
  have hδ3 : δ ≤ 1 / (2 * ct) := (min_le_right _ _).trans ((min_le_right _ _).trans (min_le_left _ _))
  have hδ4 : δ ≤ r / 4 := (min_le_right _ _).trans ((min_le_right _ _).trans ((min_le_right _ _).trans (min_le_left _ _)))
  have hδ5 : δ ≤ T₂ - T := (min_le_right _ _).trans ((min_le_right _ _).trans ((min_le_right _ _).trans
    ((min_le_right _ _).trans (min_le_left _ _))))
  have hδ6 : δ ≤ 1 / (4 * G) := (min_le_right _ _).trans ((min_le_right _ _).trans ((min_le_right _ _).trans
    ((min_le_right _ _).trans (min_le_right _ _))))
  clear_value δ
  refine ⟨G, R + 1, δ, hδ, ?_⟩
  intro φ u η κ ε m H F hA hF hm hum hH hκδ hεδ s₀ s' l lim hst hini hsf hpath hsteps v hv hvT d
  have hu0 := hA.unit_nonneg
  have hη := hA.tiny_nonneg
  have hε : 0 ≤ ε := (abs_nonneg _).trans (hini d)
  have hκ : 0 ≤ κ := by
    refine (abs_nonneg _).trans (hF 0 (fun _ => 0) ?_ (fun _ => ?_) d) <;> rw [val_zero, abs_zero] <;> linarith
  have hmH : m ≤ H := by
    cases hpath with
    | nil => simp at hv
    | cons _ _ _ =>
      obtain ⟨⟨h1, h2⟩, -⟩ := List.isChain_cons_cons.mp hsteps
      linarith
  have hH0 : 0 < H := hm.trans_le hmH
  have hH1 : H ≤ 1 := by linarith
  have hue : u + η ≤ δ := hum.trans (by nlinarith)
  set Q := H ^ p + (u + η) / m + κ with hQ
  have hQ0 : 0 ≤ Q := by positivity
  have hQδ : Q ≤ 3 * δ := by
    have h1 : H ^ p ≤ δ := by
      calc H ^ p ≤ H ^ 1 := pow_le_pow_of_le_one hH0.le hH1 hp
        _ ≤ δ := by rw [pow_one]; exact hH
    have h2 : (u + η) / m ≤ δ := (div_le_iff₀ hm).mpr hum
    linarith
  set M := M₀ * Q with hM
  have hM0 : 0 ≤ M := by positivity
  have hctu : ct * (u + η) ≤ m / 2 := by
    have h1 : ct * δ ≤ 1 / 2 := by
      rw [le_div_iff₀ (by positivity)] at hδ3
      linarith
    calc ct * (u + η) ≤ ct * (δ * m) := mul_le_mul_of_nonneg_left hum hct0.le
      _ = ct * δ * m := by ring
      _ ≤ 1 / 2 * m := mul_le_mul_of_nonneg_right h1 hm.le
      _ = m / 2 := by ring
  -- the bound grows with time but stays small
  have hgrow : ∀ t, t₀ ≤ t → t ≤ T → (ε + M * (t - t₀)) * Real.exp (2 * L * (t - t₀)) ≤ G * (Q + ε) := by
    intro t h1 h2
    have h3 : t - t₀ ≤ |T - t₀| := (sub_le_sub_right h2 _).trans (le_abs_self _)
    have h4 : Real.exp (2 * L * (t - t₀)) ≤ Real.exp (2 * L * |T - t₀|) :=
      Real.exp_le_exp.mpr (mul_le_mul_of_nonneg_left h3 (by positivity))
    have h5 : ε + M * (t - t₀) ≤ (1 + M₀ * |T - t₀|) * (Q + ε) := by
      have h6 : M * (t - t₀) ≤ M₀ * Q * |T - t₀| := mul_le_mul_of_nonneg_left h3 hM0
      have h7 : 0 ≤ M₀ * |T - t₀| * ε := by positivity
      calc ε + M * (t - t₀) ≤ ε + M₀ * Q * |T - t₀| := by linarith
        _ ≤ ε + M₀ * Q * |T - t₀| + Q + M₀ * |T - t₀| * ε := by linarith
        _ = _ := by ring
    calc (ε + M * (t - t₀)) * Real.exp (2 * L * (t - t₀)) ≤ (1 + M₀ * |T - t₀|) * (Q + ε) * Real.exp (2 * L * |T - t₀|) :=
          mul_le_mul h5 h4 (Real.exp_nonneg _) (by positivity)
      _ = G * (Q + ε) := by rw [hG]; ring
  have hsmall : G * (Q + ε) ≤ 1 := by
    rw [le_div_iff₀ (by positivity)] at hδ6
    have h1 : Q + ε ≤ 4 * δ := by linarith
    calc G * (Q + ε) ≤ G * (4 * δ) := mul_le_mul_of_nonneg_left h1 hG0.le
      _ = δ * (4 * G) := by ring
      _ ≤ 1 := hδ6
  have key : ∀ (w w' : St (Num φ) n k (X φ)) (l : List (St (Num φ) n k (X φ))), Path (cls φ (pureRhs F)) lim w l w' →
      StepsBetween m H (w :: l) → t₀ ≤ w.t.val → w.f = F w.t w.y →
      (w.t.val ≤ T → ‖(vals w.y - y w.t.val : Fin n → ℝ)‖ ≤ (ε + M * (w.t.val - t₀)) * Real.exp (2 * L * (w.t.val - t₀))) →
      ∀ v ∈ l, v.t.val ≤ T → t₀ ≤ v.t.val ∧
        ‖(vals v.y - y v.t.val : Fin n → ℝ)‖ ≤ (ε + M * (v.t.val - t₀)) * Real.exp (2 * L * (v.t.val - t₀)) := by
    intro w w' l hpath
    induction hpath with
    | nil w => intro _ _ _ _ u hu; simp at hu
    | @cons w v w2 l _ htakes _ ih =>
      intro hst h0 hsf herr
      obtain ⟨⟨hX1, hX2⟩, hst'⟩ := List.isChain_cons_cons.mp hst
      obtain ⟨x, e1, e2, e3⟩ := hstep φ u η κ hA hκ (by linarith) F hF w v hsf htakes
      set Δ := v.t.val - w.t.val with hΔ
      have hΔ0 : 0 < Δ := hm.trans_le hX1
      have hv0 : t₀ ≤ v.t.val := by linarith
      have herr1 : v.t.val ≤ T →
          ‖(vals v.y - y v.t.val : Fin n → ℝ)‖ ≤ (ε + M * (v.t.val - t₀)) * Real.exp (2 * L * (v.t.val - t₀)) := by
        intro hle
        have hwT : w.t.val ≤ T := by linarith
        have hmem : w.t.val ∈ Set.Icc t₀ T := ⟨h0, hwT⟩
        have he := herr hwT
        have hin : ‖(vals w.y - y w.t.val : Fin n → ℝ)‖ ≤ 1 := he.trans ((hgrow _ h0 hwT).trans hsmall)
        have hvR : |v.t.val| ≤ R := hD.time (v.t.val, 0, y v.t.val)
          ⟨⟨hv0, hle⟩, ⟨le_rfl, zero_le_one⟩, by rw [sub_self, norm_zero]; exact zero_le_one⟩
        have hx := clock_near hA (by linarith) e1 hvR
        rw [← hΔ] at hx
        have hx' := abs_le.mp (hx.trans hctu)
        have hx0 : 0 ≤ x.val := by linarith
        have hx2 : x.val ≤ 2 * Δ := by linarith
        have hx1 : x.val ≤ 1 := by linarith
        have hxr : x.val < r := by linarith
        have hy1 := e3 ⟨hmem, ⟨hx0, hx1⟩, hin⟩
        set ω : ℝ × ℝ × (Fin n → ℝ) := (w.t.val, x.val, vals w.y) with hω
        have hl := hlip w.t.val hmem x.val ⟨hx0, hx1⟩ (vals w.y) hin
        have n1 : ‖(vals v.y : Fin n → ℝ) - ((vals w.y : Fin n → ℝ) + x.val • incr T' f ω)‖ ≤ c * (u + η + x.val * κ) :=
          (pi_norm_le_iff_of_nonneg (by positivity)).mpr fun d => hy1 d
        have n2 : ‖(y w.t.val : Fin n → ℝ) + x.val • incr T' f (w.t.val, x.val, y w.t.val) - y (w.t.val + x.val)‖ ≤
            C * x.val ^ (p + 1) := by
          refine (pi_norm_le_iff_of_nonneg (by positivity)).mpr fun d => ?_
          have h1 := hloc w.t.val x.val hmem (by rw [abs_of_nonneg hx0]; exact hxr) d
          rw [abs_of_nonneg hx0] at h1
          have h2 := congrFun (rkNew_stageFn T' f w.t.val x.val (y w.t.val)) d
          rw [h2] at h1
          exact h1
        have n3 : ‖(y (w.t.val + x.val) : Fin n → ℝ) - y v.t.val‖ ≤ N * (ct * (u + η)) := by
          refine (hyl _ ⟨by linarith, by linarith⟩ _ ⟨hv0, by linarith⟩).trans (mul_le_mul_of_nonneg_left ?_ hN)
          rw [show w.t.val + x.val - v.t.val = x.val - Δ by rw [hΔ]; ring]
          exact hx
        have e4 : (vals v.y - y v.t.val : Fin n → ℝ) = ((vals v.y : Fin n → ℝ) - ((vals w.y : Fin n → ℝ) + x.val • incr T' f ω)) +
            (vals w.y - y w.t.val) + x.val • (incr T' f ω - incr T' f (w.t.val, x.val, y w.t.val)) +
            ((y w.t.val : Fin n → ℝ) + x.val • incr T' f (w.t.val, x.val, y w.t.val) - y (w.t.val + x.val)) +
            ((y (w.t.val + x.val) : Fin n → ℝ) - y v.t.val) := by
          rw [smul_sub]; abel
        have n4 : ‖x.val • (incr T' f ω - incr T' f (w.t.val, x.val, y w.t.val))‖ ≤
            2 * L * Δ * ‖(vals w.y - y w.t.val : Fin n → ℝ)‖ := by
          rw [norm_smul, Real.norm_of_nonneg hx0]
          calc x.val * ‖incr T' f ω - incr T' f (w.t.val, x.val, y w.t.val)‖ ≤
                2 * Δ * (L * ‖(vals w.y - y w.t.val : Fin n → ℝ)‖) :=
                mul_le_mul hx2 hl (norm_nonneg _) (by positivity)
            _ = _ := by ring
        have n5 : C * x.val ^ (p + 1) ≤ 2 ^ (p + 1) * C * H ^ p * Δ := by
          calc C * x.val ^ (p + 1) ≤ C * (2 * Δ) ^ (p + 1) :=
                mul_le_mul_of_nonneg_left (pow_le_pow_left₀ hx0 hx2 _) hC
            _ = 2 ^ (p + 1) * C * Δ ^ p * Δ := by rw [mul_pow, pow_succ Δ]; ring
            _ ≤ 2 ^ (p + 1) * C * H ^ p * Δ := by
              refine mul_le_mul_of_nonneg_right (mul_le_mul_of_nonneg_left ?_ (by positivity)) hΔ0.le
              exact pow_le_pow_left₀ hΔ0.le hX2 p
        have n6 : u + η ≤ (u + η) / m * Δ := by
          rw [div_mul_eq_mul_div, le_div_iff₀ hm]
          exact mul_le_mul_of_nonneg_left hX1 (by positivity)
        have n7 : (N * ct + c) * (u + η) ≤ (N * ct + c) * ((u + η) / m * Δ) := mul_le_mul_of_nonneg_left n6 (by positivity)
        have n8 : c * (x.val * κ) ≤ 2 * c * κ * Δ := by
          calc c * (x.val * κ) ≤ c * (2 * Δ * κ) :=
                mul_le_mul_of_nonneg_left (mul_le_mul_of_nonneg_right hx2 hκ) hc
            _ = _ := by ring
        have hMl : 2 ^ (p + 1) * C * H ^ p * Δ + (N * ct + c) * ((u + η) / m * Δ) + 2 * c * κ * Δ ≤ M * Δ := by
          have h1 : 2 ^ (p + 1) * C * H ^ p ≤ M₀ * H ^ p :=
            mul_le_mul_of_nonneg_right (by rw [hM₀]; linarith [mul_nonneg hN hct0.le]) (by positivity)
          have h2 : (N * ct + c) * ((u + η) / m) ≤ M₀ * ((u + η) / m) :=
            mul_le_mul_of_nonneg_right (by rw [hM₀]; linarith [mul_nonneg (pow_nonneg (zero_le_two (α := ℝ)) (p + 1)) hC])
              (by positivity)
          have h3 : 2 * c * κ ≤ M₀ * κ :=
            mul_le_mul_of_nonneg_right (by
              rw [hM₀]; linarith [mul_nonneg hN hct0.le, mul_nonneg (pow_nonneg (zero_le_two (α := ℝ)) (p + 1)) hC]) hκ
          have h4 : 2 ^ (p + 1) * C * H ^ p + (N * ct + c) * ((u + η) / m) + 2 * c * κ ≤ M := by
            rw [hM, hQ, mul_add, mul_add]; linarith
          calc _ = (2 ^ (p + 1) * C * H ^ p + (N * ct + c) * ((u + η) / m) + 2 * c * κ) * Δ := by ring
            _ ≤ M * Δ := mul_le_mul_of_nonneg_right h4 hΔ0.le
        rw [show v.t.val - t₀ = (w.t.val - t₀) + Δ by rw [hΔ]; ring]
        refine gronwall_step' (by positivity) hM0 hε (by linarith) hΔ0.le he ?_
        rw [e4]
        refine (norm_add_le _ _).trans ?_
        have g1 := norm_add_le (((vals v.y : Fin n → ℝ) - ((vals w.y : Fin n → ℝ) + x.val • incr T' f ω)) +
            (vals w.y - y w.t.val) + x.val • (incr T' f ω - incr T' f (w.t.val, x.val, y w.t.val)))
            ((y w.t.val : Fin n → ℝ) + x.val • incr T' f (w.t.val, x.val, y w.t.val) - y (w.t.val + x.val))
        have g2 := norm_add_le (((vals v.y : Fin n → ℝ) - ((vals w.y : Fin n → ℝ) + x.val • incr T' f ω)) +
            (vals w.y - y w.t.val)) (x.val • (incr T' f ω - incr T' f (w.t.val, x.val, y w.t.val)))
        have g3 := norm_add_le ((vals v.y : Fin n → ℝ) - ((vals w.y : Fin n → ℝ) + x.val • incr T' f ω)) (vals w.y - y w.t.val)
        have g4 : (1 + 2 * L * Δ) * ‖(vals w.y - y w.t.val : Fin n → ℝ)‖ = ‖(vals w.y - y w.t.val : Fin n → ℝ)‖ +
          2 * L * Δ * ‖(vals w.y - y w.t.val : Fin n → ℝ)‖ := by ring
        have g5 : c * (u + η + x.val * κ) + N * (ct * (u + η)) = (N * ct + c) * (u + η) + c * (x.val * κ) := by ring
        rw [g4]
        linarith
      intro u hu huT
      rcases List.mem_cons.mp hu with rfl | hu
      · exact ⟨hv0, herr1 huT⟩
      · exact ih hst' hv0 e2 herr1 u hu huT
  obtain ⟨h1, h2⟩ := key s₀ s' l hpath hsteps hst hsf (fun _ => by
    have h3 : ‖(vals s₀.y - y s₀.t.val : Fin n → ℝ)‖ ≤ ε := (pi_norm_le_iff_of_nonneg hε).mpr fun d => hini d
    have h4 : (1 : ℝ) ≤ Real.exp (2 * L * (s₀.t.val - t₀)) :=
      Real.one_le_exp (mul_nonneg (by positivity) (by linarith))
    have h5 : 0 ≤ M * (s₀.t.val - t₀) := mul_nonneg hM0 (by linarith)
    refine h3.trans ((le_add_of_nonneg_right h5).trans (le_mul_of_one_le_right (by positivity) h4))) v hv hvT
  exact ((norm_le_pi_norm _ d).trans h2).trans (hgrow _ h1 hvT)

end Nbkode
