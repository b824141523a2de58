import Verif.Spec.LocalError
import Verif.Proofs.LocalError
import Mathlib.Analysis.Calculus.MeanValue
import Mathlib.Analysis.Calculus.ContDiff.RCLike
import Mathlib.Analysis.SpecialFunctions.Exp
import Mathlib.Analysis.Normed.Module.FiniteDimension

/-! # Convergence of explicit Runge-Kutta methods -/

set_option autoImplicit false

namespace Nbkode
open Spec Topology

variable {n s : ℕ}

/-! ### The stages as functions of time, step size and state -/

/-- The stages, one after the other. -/
noncomputable def stageFn (T : Tableau ℝ s) (f : ℝ → Vec ℝ n → Vec ℝ n) (i : Fin (s + 1))
    (ω : ℝ × ℝ × (Fin n → ℝ)) : Fin n → ℝ :=
  f (ω.1 + T.C i * ω.2.1) (ω.2.2 + ω.2.1 • ∑ j : {j : Fin (s + 1) // j < i}, T.A i j • stageFn T f j ω)
termination_by i
decreasing_by exact j.2

theorem stageFn_eq {T : Tableau ℝ s} (hT : Explicit T) (f : ℝ → Vec ℝ n → Vec ℝ n) (i : Fin (s + 1))
    (ω : ℝ × ℝ × (Fin n → ℝ)) : stageFn T f i ω = f (ω.1 + T.C i * ω.2.1) (ω.2.2 + ω.2.1 • ∑ j, T.A i j • stageFn T f j ω) := by
  rw [stageFn]
  congr 3
  rw [← Finset.sum_subtype (Finset.univ.filter fun j => j < i) (fun j => by simp) fun j => T.A i j • stageFn T f j ω]
  refine Finset.sum_subset (Finset.subset_univ _) fun j _ hj => ?_
  have : i ≤ j := by simpa using hj
  rw [hT.upper i j this, zero_smul]

theorem stageFn_stages {T : Tableau ℝ s} (hT : Explicit T) (f : ℝ → Vec ℝ n → Vec ℝ n) (t x : ℝ) (v : Vec ℝ n) :
    RKStages T (pureRhs f) t x v fun i => stageFn T f i (t, x, v) := by
  intro i
  show Except.ok (f _ _) = Except.ok (stageFn T f i (t, x, v))
  rw [stageFn_eq hT]
  congr 2
  funext d
  simp [Finset.sum_apply]

theorem stages_unique {T : Tableau ℝ s} (hT : Explicit T) {f : ℝ → Vec ℝ n → Vec ℝ n} {t x : ℝ} {v : Vec ℝ n}
    {K : Fin (s + 1) → Vec ℝ n} (hK : RKStages T (pureRhs f) t x v K) (i : Fin (s + 1)) :
    K i = stageFn T f i (t, x, v) := by
  induction h : i.val using Nat.strong_induction_on generalizing i with
  | _ m ih =>
    have h1 := Except.ok.inj (hK i)
    rw [← h1, stageFn_eq hT]
    congr 1
    funext d
    simp only [Pi.add_apply, Pi.smul_apply, Finset.sum_apply, smul_eq_mul]
    congr 2
    refine Finset.sum_congr rfl fun j _ => ?_
    by_cases hj : i ≤ j
    · rw [hT.upper i j hj, zero_mul, zero_mul]
    · rw [ih j.val (by rw [← h]; exact not_le.mp hj) j rfl]

theorem stageFn_contDiff {T : Tableau ℝ s} {f : ℝ → Vec ℝ n → Vec ℝ n} (hf : ContDiff ℝ 1 (joint f)) (i : Fin (s + 1)) :
    ContDiff ℝ 1 (stageFn T f i) := by
  induction h : i.val using Nat.strong_induction_on generalizing i with
  | _ m ih =>
    have e : stageFn T f i = fun ω => joint f (ω.1 + T.C i * ω.2.1, ω.2.2 + ω.2.1 • ∑ j : {j : Fin (s + 1) // j < i},
        T.A i j • stageFn T f j ω) := by
      funext ω; rw [stageFn]; rfl
    rw [e]
    have h2 : ∀ j : {j : Fin (s + 1) // j < i}, ContDiff ℝ 1 (stageFn T f j.1) := fun j =>
      ih j.1.val (by have := j.2; rw [← h]; exact this) j.1 rfl
    refine hf.comp (ContDiff.prodMk (contDiff_fst.add (contDiff_const.mul (contDiff_fst.comp contDiff_snd))) ?_)
    refine ContDiff.add (contDiff_snd.comp contDiff_snd) (ContDiff.smul (contDiff_fst.comp contDiff_snd)
      (ContDiff.sum fun j _ => ?_))
    exact (h2 j).const_smul _

/-- The weighted sum of the stages. -/
noncomputable def incr (T : Tableau ℝ s) (f : ℝ → Vec ℝ n → Vec ℝ n) (ω : ℝ × ℝ × (Fin n → ℝ)) : Fin n → ℝ :=
  ∑ j, T.B j • stageFn T f j ω

theorem incr_contDiff {T : Tableau ℝ s} {f : ℝ → Vec ℝ n → Vec ℝ n} (hf : ContDiff ℝ 1 (joint f)) :
    ContDiff ℝ 1 (incr T f) :=
  ContDiff.sum fun j _ => (stageFn_contDiff hf j).const_smul _

/-- Near a curve, for small steps, the increment is Lipschitz in the state. -/
theorem incr_lipschitz {T : Tableau ℝ s} {f : ℝ → Vec ℝ n → Vec ℝ n} (hf : ContDiff ℝ 1 (joint f)) {y : ℝ → (Fin n → ℝ)}
    {t₀ t₁ : ℝ} (hy : ContinuousOn y (Set.Icc t₀ t₁)) :
    ∃ L, 0 ≤ L ∧ ∀ t ∈ Set.Icc t₀ t₁, ∀ x ∈ Set.Icc (0 : ℝ) 1, ∀ v, ‖v - y t‖ ≤ 1 →
      ‖incr T f (t, x, v) - incr T f (t, x, y t)‖ ≤ L * ‖v - y t‖ := by
  have hc := incr_contDiff (T := T) hf
  have hK : IsCompact (Set.Icc t₀ t₁ ×ˢ (Set.Icc (0 : ℝ) 1 ×ˢ Metric.closedBall (0 : Fin n → ℝ) 1)) :=
    isCompact_Icc.prod (isCompact_Icc.prod (isCompact_closedBall _ _))
  have hcont : ContinuousOn (fun ω : ℝ × ℝ × (Fin n → ℝ) => fderiv ℝ (incr T f) (ω.1, ω.2.1, y ω.1 + ω.2.2))
      (Set.Icc t₀ t₁ ×ˢ (Set.Icc (0 : ℝ) 1 ×ˢ Metric.closedBall (0 : Fin n → ℝ) 1)) := by
    refine (hc.continuous_fderiv one_ne_zero).comp_continuousOn ?_
    have h1 : ContinuousOn (fun ω : ℝ × ℝ × (Fin n → ℝ) => y ω.1)
        (Set.Icc t₀ t₁ ×ˢ (Set.Icc (0 : ℝ) 1 ×ˢ Metric.closedBall (0 : Fin n → ℝ) 1)) :=
      hy.comp continuousOn_fst fun ω hω => hω.1
    exact continuousOn_fst.prodMk ((continuous_fst.comp continuous_snd).continuousOn.prodMk
      (h1.add (continuous_snd.comp continuous_snd).continuousOn))
  obtain ⟨L, hL⟩ := hK.exists_bound_of_continuousOn hcont
  refine ⟨max L 0, le_max_right _ _, fun t ht x hx v hv => ?_⟩
  have hconv : Convex ℝ (Metric.closedBall (y t) 1) := convex_closedBall _ _
  have hd : ∀ w ∈ Metric.closedBall (y t) 1, HasFDerivWithinAt (fun w => incr T f (t, x, w))
      ((fderiv ℝ (incr T f) (t, x, w)).comp ((ContinuousLinearMap.inr ℝ ℝ (ℝ × (Fin n → ℝ))).comp
        (ContinuousLinearMap.inr ℝ ℝ (Fin n → ℝ)))) (Metric.closedBall (y t) 1) w := by
    intro w _
    have h1 : HasFDerivAt (incr T f) (fderiv ℝ (incr T f) (t, x, w)) (t, x, w) :=
      (hc.differentiable one_ne_zero _).hasFDerivAt
    have h2 : HasFDerivAt (fun w : Fin n → ℝ => ((t, x, w) : ℝ × ℝ × (Fin n → ℝ)))
        ((ContinuousLinearMap.inr ℝ ℝ (ℝ × (Fin n → ℝ))).comp (ContinuousLinearMap.inr ℝ ℝ (Fin n → ℝ))) w := by
      have := (hasFDerivAt_const t w).prodMk ((hasFDerivAt_const x w).prodMk (hasFDerivAt_id (𝕜 := ℝ) w))
      exact this
    exact (h1.comp w h2).hasFDerivWithinAt
  have hb : ∀ w ∈ Metric.closedBall (y t) 1, ‖(fderiv ℝ (incr T f) (t, x, w)).comp
      ((ContinuousLinearMap.inr ℝ ℝ (ℝ × (Fin n → ℝ))).comp (ContinuousLinearMap.inr ℝ ℝ (Fin n → ℝ)))‖ ≤ max L 0 := by
    intro w hw
    have h1 := hL (t, x, w - y t) ⟨ht, hx, by simpa [dist_eq_norm] using hw⟩
    simp only [add_sub_cancel] at h1
    refine ContinuousLinearMap.opNorm_le_bound _ (le_max_right _ _) fun z => ?_
    refine (ContinuousLinearMap.le_opNorm (fderiv ℝ (incr T f) (t, x, w)) _).trans ?_
    have h3 : ‖((ContinuousLinearMap.inr ℝ ℝ (ℝ × (Fin n → ℝ))).comp (ContinuousLinearMap.inr ℝ ℝ (Fin n → ℝ))) z‖ = ‖z‖ := by
      simp [Prod.norm_def]
    exact mul_le_mul (h1.trans (le_max_left _ _)) (le_of_eq h3) (norm_nonneg _) (le_max_right _ _)
  exact hconv.norm_image_sub_le_of_norm_hasFDerivWithin_le hd hb (Metric.mem_closedBall_self zero_le_one)
    (by simpa [dist_eq_norm] using hv)

/-! ### Discrete Gronwall -/

theorem gronwall_step {L M τ x e e' : ℝ} (hL : 0 ≤ L) (hM : 0 ≤ M) (hτ : 0 ≤ τ) (hx : 0 ≤ x)
    (he : e ≤ M * τ * Real.exp (L * τ)) (he' : e' ≤ (1 + L * x) * e + M * x) :
    e' ≤ M * (τ + x) * Real.exp (L * (τ + x)) := by
  have h1 : 1 + L * x ≤ Real.exp (L * x) := by
    have := Real.add_one_le_exp (L * x); linarith
  have h2 : Real.exp (L * (τ + x)) = Real.exp (L * τ) * Real.exp (L * x) := by rw [← Real.exp_add]; ring_nf
  have h3 : (1 : ℝ) ≤ Real.exp (L * (τ + x)) := Real.one_le_exp (by positivity)
  have h4 : (1 + L * x) * e ≤ Real.exp (L * x) * (M * τ * Real.exp (L * τ)) := by
    refine (mul_le_mul_of_nonneg_left he (by positivity)).trans ?_
    exact mul_le_mul_of_nonneg_right h1 (by positivity)
  have h5 : M * x ≤ M * x * Real.exp (L * (τ + x)) := le_mul_of_one_le_right (by positivity) h3
  calc e' ≤ _ := he'
    _ ≤ Real.exp (L * x) * (M * τ * Real.exp (L * τ)) + M * x * Real.exp (L * (τ + x)) := add_le_add h4 h5
    _ = M * (τ + x) * Real.exp (L * (τ + x)) := by rw [h2]; ring

/-- The local error, uniformly along a compact piece of the solution. -/
theorem uniform_local_error {p : ℕ} {f : ℝ → Vec ℝ n → Vec ℝ n} (hf : ContDiff ℝ p (joint f)) {y : ℝ → Vec ℝ n} {a b : ℝ}
    (hy : ∀ t ∈ Set.Ioo a b, SolvesAt f y t) {t₀ t₁ : ℝ} (h0 : a < t₀) (h1 : t₁ < b) {T : Tableau ℝ s} (hT : Explicit T)
    (hR : RowSums T) (hB : OrderConditions T.A T.B p) :
    ∃ C r, 0 ≤ C ∧ 0 < r ∧ ∀ (t x : ℝ), t ∈ Set.Icc t₀ t₁ → |x| < r →
      ∀ d, |rkNew T x (y t) (fun i => stageFn T f i (t, x, y t)) d - y (t + x) d| ≤ C * |x| ^ (p + 1) := by
  refine isCompact_Icc.induction_on (p := fun S => ∃ C r, 0 ≤ C ∧ 0 < r ∧ ∀ (t x : ℝ), t ∈ S → |x| < r →
      ∀ d, |rkNew T x (y t) (fun i => stageFn T f i (t, x, y t)) d - y (t + x) d| ≤ C * |x| ^ (p + 1)) ?_ ?_ ?_ ?_
  · exact ⟨0, 1, le_rfl, one_pos, fun t x h => absurd h (Set.notMem_empty t)⟩
  · rintro S S' hS ⟨C, r, hC, hr, h⟩
    exact ⟨C, r, hC, hr, fun t x ht => h t x (hS ht)⟩
  · rintro S S' ⟨C, r, hC, hr, h⟩ ⟨C', r', hC', hr', h'⟩
    refine ⟨max C C', min r r', le_max_of_le_left hC, lt_min hr hr', fun t x ht hx d => ?_⟩
    rcases ht with ht | ht
    · exact (h t x ht (hx.trans_le (min_le_left _ _)) d).trans
        (mul_le_mul_of_nonneg_right (le_max_left _ _) (by positivity))
    · exact (h' t x ht (hx.trans_le (min_le_right _ _)) d).trans
        (mul_le_mul_of_nonneg_right (le_max_right _ _) (by positivity))
  · intro t ht
    have hmem : t ∈ Set.Ioo a b := ⟨h0.trans_le ht.1, ht.2.trans_lt h1⟩
    obtain ⟨C, r, hr, h⟩ := rk_local_error (t₀ := t) (y := y) (f := f) hf.contDiffAt
      (Filter.eventually_of_mem (isOpen_Ioo.mem_nhds hmem) hy) hT hR hB
    refine ⟨Metric.ball t r, mem_nhdsWithin_of_mem_nhds (Metric.ball_mem_nhds t hr), max C 0, r, le_max_right _ _, hr,
      fun t' x ht' hx d => ?_⟩
    refine (h t' x _ ?_ hx (stageFn_stages hT f t' x (y t')) d).trans
      (mul_le_mul_of_nonneg_right (le_max_left _ _) (by positivity))
    simpa [Real.dist_eq] using ht'

/-! ### Convergence -/

theorem rkNew_stageFn (T : Tableau ℝ s) (f : ℝ → Vec ℝ n → Vec ℝ n) (t x : ℝ) (v : Vec ℝ n) :
    (rkNew T x v (fun i => stageFn T f i (t, x, v)) : Fin n → ℝ) = (v : Fin n → ℝ) + x • incr T f (t, x, v) := by
  funext d
  simp [rkNew, incr, Finset.sum_apply]

/-- The steps of the class are Runge-Kutta steps. -/
def RKSteps {k : ℕ} {X : Type} (T : Tableau ℝ s) (cls : Rhs ℝ n → Solver ℝ n k X) : Prop :=
  ∀ (f : ℝ → Vec ℝ n → Vec ℝ n) (u v : St ℝ n k X), u.f = f u.t u.y → Takes (cls (pureRhs f)) u v →
    ∃ x K, RKStages T (pureRhs f) u.t x u.y K ∧ v.t = u.t + x ∧ v.y = rkNew T x u.y K ∧ v.f = f v.t v.y

/-- The constants depend on the tableau and the problem only, not on the class. -/
theorem converges_uniform {T : Tableau ℝ s} (hT : Explicit T) (hR : RowSums T) {p : ℕ} (hp : 1 ≤ p) (hB : OrderConditions T.A T.B p)
    {f : ℝ → Vec ℝ n → Vec ℝ n} {y : ℝ → Vec ℝ n} {a b t₀ T₁ : ℝ} (hf : ContDiff ℝ p (joint f)) (ha : a < t₀) (hb : T₁ < b)
    (hy : ∀ t ∈ Set.Ioo a b, SolvesAt f y t) :
    ∃ C δ, 0 ≤ C ∧ 0 < δ ∧ ∀ {k : ℕ} {X : Type} {cls : Rhs ℝ n → Solver ℝ n k X}, RKSteps T cls →
      ∀ (H : ℝ) (s s' : St ℝ n k X) (l : List (St ℝ n k X)) (lim : Bound ℝ), H ≤ δ → s.t = t₀ → On f y s →
      Path (cls (pureRhs f)) lim s l s' → StepsUpTo H (s :: l) →
      ∀ u ∈ l, u.t ≤ T₁ → 0 ≤ H ∧ t₀ ≤ u.t ∧ ∀ d, |u.y d - y u.t d| ≤ C * (u.t - t₀) * H ^ p := by
  have hyc : ContinuousOn (Y := Fin n → ℝ) y (Set.Icc t₀ T₁) := fun t ht =>
    (hy t ⟨ha.trans_le ht.1, ht.2.trans_lt hb⟩).continuousAt.continuousWithinAt
  obtain ⟨L, hL, hlip⟩ := incr_lipschitz (T := T) (hf.of_le (by exact_mod_cast hp)) hyc
  obtain ⟨C, r, hC, hr, hloc⟩ := uniform_local_error hf hy ha hb hT hR hB
  set D : ℝ := |T₁ - t₀| * Real.exp (L * |T₁ - t₀|) with hD
  have hD0 : 0 ≤ D := by positivity
  refine ⟨C * Real.exp (L * |T₁ - t₀|), min (r / 2) (min 1 (1 / (C * D + 1))), by positivity, by positivity,
    fun {k} {X} {cls} hS H s s' l lim hH hst hon hpath hsteps => ?_⟩
  have hHr : H < r := lt_of_le_of_lt (hH.trans (min_le_left _ _)) (by linarith)
  have hH1 : H ≤ 1 := hH.trans ((min_le_right _ _).trans (min_le_left _ _))
  have hHD : H ≤ 1 / (C * D + 1) := hH.trans ((min_le_right _ _).trans (min_le_right _ _))
  -- the bound grows with time but stays below `C * D * H^p`
  have hgrow : ∀ t, 0 ≤ H → t₀ ≤ t → t ≤ T₁ →
      C * H ^ p * (t - t₀) * Real.exp (L * (t - t₀)) ≤ C * D * H ^ p := by
    intro t hH0 h1 h2
    have h3 : t - t₀ ≤ |T₁ - t₀| := (sub_le_sub_right h2 _).trans (le_abs_self _)
    have h4 : Real.exp (L * (t - t₀)) ≤ Real.exp (L * |T₁ - t₀|) := Real.exp_le_exp.mpr (mul_le_mul_of_nonneg_left h3 hL)
    have h5 : (t - t₀) * Real.exp (L * (t - t₀)) ≤ D := mul_le_mul h3 h4 (Real.exp_nonneg _) (abs_nonneg _)
    calc C * H ^ p * (t - t₀) * Real.exp (L * (t - t₀)) = C * H ^ p * ((t - t₀) * Real.exp (L * (t - t₀))) := by ring
      _ ≤ C * H ^ p * D := mul_le_mul_of_nonneg_left h5 (by positivity)
      _ = _ := by ring
  have hsmall : 0 ≤ H → C * D * H ^ p ≤ 1 := by
    intro hH0
    have h1 : H ^ p ≤ H := by
      calc H ^ p ≤ H ^ 1 := pow_le_pow_of_le_one hH0 hH1 hp
        _ = H := pow_one _
    have h2 : C * D * (1 / (C * D + 1)) ≤ 1 := by
      rw [mul_one_div, div_le_one (by positivity)]; linarith
    exact (mul_le_mul_of_nonneg_left (h1.trans hHD) (by positivity)).trans h2
  have key : ∀ (s s' : St ℝ n k X) (l : List (St ℝ n k X)), Path (cls (pureRhs f)) lim s l s' → StepsUpTo H (s :: l) →
      t₀ ≤ s.t → s.f = f s.t s.y →
      (s.t ≤ T₁ → ‖(s.y - y s.t : Fin n → ℝ)‖ ≤ C * H ^ p * (s.t - t₀) * Real.exp (L * (s.t - t₀))) →
      ∀ u ∈ l, u.t ≤ T₁ → 0 ≤ H ∧ t₀ ≤ u.t ∧
        ‖(u.y - y u.t : Fin n → ℝ)‖ ≤ C * H ^ p * (u.t - t₀) * Real.exp (L * (u.t - t₀)) := by
    intro s s' l hpath
    induction hpath with
    | nil s => intro _ _ _ _ u hu; simp at hu
    | @cons s s1 s2 l _ htakes _ ih =>
      intro hst h0 hsf herr
      obtain ⟨hx, hst'⟩ := List.isChain_cons_cons.mp hst
      obtain ⟨x, K, hK, e1, e2, e3⟩ := hS f s s1 hsf htakes
      rw [e1, add_sub_cancel_left] at hx
      have hx0 := hx.1
      have hH0 : 0 ≤ H := hx0.le.trans hx.2
      have hs1 : t₀ ≤ s1.t := by rw [e1]; linarith
      have herr1 : s1.t ≤ T₁ →
          ‖(s1.y - y s1.t : Fin n → ℝ)‖ ≤ C * H ^ p * (s1.t - t₀) * Real.exp (L * (s1.t - t₀)) := by
        intro hle
        have hsT : s.t ≤ T₁ := by rw [e1] at hle; linarith
        have hmem : s.t ∈ Set.Icc t₀ T₁ := ⟨h0, hsT⟩
        have he := herr hsT
        have hin : ‖(s.y - y s.t : Fin n → ℝ)‖ ≤ 1 := he.trans ((hgrow _ hH0 h0 hsT).trans (hsmall hH0))
        have hl := hlip s.t hmem x ⟨hx0.le, hx.2.trans hH1⟩ s.y hin
        have hK' : K = fun i => stageFn T f i (s.t, x, s.y) := funext fun i => stages_unique hT hK i
        have hloc' : ‖(rkNew T x (y s.t) (fun i => stageFn T f i (s.t, x, y s.t)) - y (s.t + x) : Fin n → ℝ)‖ ≤
            C * H ^ p * x := by
          refine (pi_norm_le_iff_of_nonneg (by positivity)).mpr fun d => ?_
          have := hloc s.t x hmem (by rw [abs_of_pos hx0]; exact lt_of_le_of_lt hx.2 hHr) d
          rw [abs_of_pos hx0, pow_succ, ← mul_assoc] at this
          refine this.trans (mul_le_mul_of_nonneg_right (mul_le_mul_of_nonneg_left ?_ hC) hx0.le)
          exact pow_le_pow_left₀ hx0.le hx.2 p
        rw [e1, e2, hK', add_sub_right_comm s.t x t₀]
        refine gronwall_step hL (by positivity) (by linarith) hx0.le he ?_
        rw [rkNew_stageFn] at hloc' ⊢
        have e4 : ((s.y : Fin n → ℝ) + x • incr T f (s.t, x, s.y) - y (s.t + x) : Fin n → ℝ) =
            (s.y - y s.t) + x • (incr T f (s.t, x, s.y) - incr T f (s.t, x, y s.t)) +
            (y s.t + x • incr T f (s.t, x, y s.t) - y (s.t + x)) := by
          rw [smul_sub]; abel
        rw [e4]
        refine (norm_add_le _ _).trans (add_le_add ((norm_add_le _ _).trans ?_) hloc')
        rw [norm_smul, Real.norm_of_nonneg hx0.le]
        have := mul_le_mul_of_nonneg_left hl hx0.le
        linarith
      intro u hu huT
      rcases List.mem_cons.mp hu with rfl | hu
      · exact ⟨hH0, hs1, herr1 huT⟩
      · exact ih hst' hs1 e3 herr1 u hu huT
  intro u hu huT
  obtain ⟨hH0, h1, h2⟩ := key s s' l hpath hsteps hst.ge hon.f (fun _ => by
    rw [hon.y, sub_self, norm_zero, hst, sub_self]; simp) u hu huT
  refine ⟨hH0, h1, fun d => ((norm_le_pi_norm _ d).trans h2).trans ?_⟩
  have h3 : u.t - t₀ ≤ |T₁ - t₀| := (sub_le_sub_right huT _).trans (le_abs_self _)
  have h4 : Real.exp (L * (u.t - t₀)) ≤ Real.exp (L * |T₁ - t₀|) := Real.exp_le_exp.mpr (mul_le_mul_of_nonneg_left h3 hL)
  calc C * H ^ p * (u.t - t₀) * Real.exp (L * (u.t - t₀)) ≤ C * H ^ p * (u.t - t₀) * Real.exp (L * |T₁ - t₀|) :=
        mul_le_mul_of_nonneg_left h4 (mul_nonneg (by positivity) (by linarith))
    _ = _ := by ring

theorem converges_early {k : ℕ} {X : Type} {T : Tableau ℝ s} {cls : Rhs ℝ n → Solver ℝ n k X} (hS : RKSteps T cls)
    (hT : Explicit T) (hR : RowSums T) {p : ℕ} (hp : 1 ≤ p) (hB : OrderConditions T.A T.B p)
    {f : ℝ → Vec ℝ n → Vec ℝ n} {y : ℝ → Vec ℝ n} {a b t₀ T₁ : ℝ} (hf : ContDiff ℝ p (joint f)) (ha : a < t₀) (hb : T₁ < b)
    (hy : ∀ t ∈ Set.Ioo a b, SolvesAt f y t) :
    ∃ C δ, 0 ≤ C ∧ 0 < δ ∧ ∀ (H : ℝ) (s s' : St ℝ n k X) (l : List (St ℝ n k X)) (lim : Bound ℝ), H ≤ δ → s.t = t₀ → On f y s →
      Path (cls (pureRhs f)) lim s l s' → StepsUpTo H (s :: l) →
      ∀ u ∈ l, u.t ≤ T₁ → 0 ≤ H ∧ t₀ ≤ u.t ∧ ∀ d, |u.y d - y u.t d| ≤ C * (u.t - t₀) * H ^ p := by
  obtain ⟨C, δ, hC, hδ, h⟩ := converges_uniform hT hR hp hB hf ha hb hy
  exact ⟨C, δ, hC, hδ, h hS⟩

theorem converges {k : ℕ} {X : Type} {T : Tableau ℝ s} {cls : Rhs ℝ n → Solver ℝ n k X} (hS : RKSteps T cls)
    (hT : Explicit T) (hR : RowSums T) {p : ℕ} (hp : 1 ≤ p) (hB : OrderConditions T.A T.B p) : Converges cls p := by
  intro f y a b t₀ T₁ hf ha hb hy
  obtain ⟨C, δ, hC, hδ, h⟩ := converges_early hS hT hR hp hB hf ha hb hy
  refine ⟨C * |T₁ - t₀|, δ, hδ, fun H s s' l lim hH hst hon hpath hsteps u hu huT d => ?_⟩
  obtain ⟨hH0, h1, h2⟩ := h H s s' l lim hH hst hon hpath hsteps u hu huT
  have h3 : u.t - t₀ ≤ |T₁ - t₀| := (sub_le_sub_right huT _).trans (le_abs_self _)
  exact (h2 d).trans (mul_le_mul_of_nonneg_right (mul_le_mul_of_nonneg_left h3 hC) (by positivity))

end Nbkode
