import Verif.Spec.Comparison
import Verif.Props.Crossing
import Verif.Props.Failures

/-!
# C116: a larger derivative gives a larger solution

`nbkode/runge_kutta/explicit.py`, `nbkode/euler.py`. True for short steps if all weights of the method are positive (`ForwardEuler`,
`RungeKutta4`, `RungeKutta3_8`), false for every step size if a weight is zero (`Runge2`, `Heun3`, `Runge3`): what the derivative gains at the
stage without weight is seen only through the derivative at later stages, where `-y` turns it into a loss. What `run` answers between the steps can fall below with every class.
-/

set_option autoImplicit false
set_option linter.unusedSectionVars false

namespace Nbkode
open Py Spec Solver

variable {s d : ℕ} {X : Type}

/-- One step. -/
theorem step_comparison {T : Tableau ℝ s} (hT : Explicit T) (hB : ∀ j, 0 < T.B j) {L : ℝ} (hL : 0 ≤ L) :
    ∃ H, 0 < H ∧ ∀ (f g : ℝ → Vec ℝ 1 → Vec ℝ 1) (t x : ℝ) (v w : Vec ℝ 1) (K K' : Fin (s + 1) → Vec ℝ 1), SlopeBound L f →
      (∀ t y, f t y 0 ≤ g t y 0) → v 0 ≤ w 0 → 0 ≤ x → x ≤ H → RKStages T (pureRhs f) t x v K → RKStages T (pureRhs g) t x w K' →
      rkNew T x v K 0 ≤ rkNew T x w K' 0 := by
  obtain ⟨M, hM, hst⟩ := stages_near (n := 1) hT hL zero_le_one
  obtain ⟨j0, -, hmin⟩ := Finset.exists_min_image Finset.univ T.B ⟨0, Finset.mem_univ _⟩
  set β := T.B j0 with hβ
  have hβ0 : 0 < β := hB j0
  set a := ∑ i, ∑ j, |T.A i j| with ha
  have ha0 : 0 ≤ a := Finset.sum_nonneg fun i _ => Finset.sum_nonneg fun j _ => abs_nonneg _
  set B := ∑ j, T.B j with hBs
  have hB0 : 0 ≤ B := Finset.sum_nonneg fun j _ => (hB j).le
  set c := B * L * (1 + a * M) with hc
  have hc0 : 0 ≤ c := by positivity
  refine ⟨min 1 (min (1 / (c + 1)) (β / (c + 1))), by positivity, fun f g t x v w K K' hf hfg hvw hx hxH e1 e2 => ?_⟩
  have hx1 : x ≤ 1 := hxH.trans (min_le_left _ _)
  have hx2 : x * c ≤ 1 := by
    have := hxH.trans ((min_le_right _ _).trans (min_le_left _ _))
    rw [le_div_iff₀ (by positivity)] at this
    nlinarith
  have hx3 : x * c ≤ β := by
    have := hxH.trans ((min_le_right _ _).trans (min_le_right _ _))
    rw [le_div_iff₀ (by positivity)] at this
    nlinarith
  -- the stage states of the two problems
  set Y : Fin (s + 1) → Vec ℝ 1 := fun i d => v d + x * ∑ j, T.A i j * K j d with hY
  set Z : Fin (s + 1) → Vec ℝ 1 := fun i d => w d + x * ∑ j, T.A i j * K' j d with hZ
  have k1 : ∀ i, f (t + T.C i * x) (Y i) = K i := fun i => Except.ok.inj (e1 i)
  have k2 : ∀ i, g (t + T.C i * x) (Z i) = K' i := fun i => Except.ok.inj (e2 i)
  set δ : Fin (s + 1) → ℝ := fun i => K' i 0 - f (t + T.C i * x) (Z i) 0 with hδ
  have hδ0 : ∀ i, 0 ≤ δ i := fun i => by
    have := hfg (t + T.C i * x) (Z i)
    rw [k2] at this
    exact sub_nonneg.mpr this
  set Δ := ∑ i, δ i with hΔ
  have hΔ0 : 0 ≤ Δ := Finset.sum_nonneg fun i _ => hδ0 i
  set D := w 0 - v 0 with hD
  have hD0 : 0 ≤ D := sub_nonneg.mpr hvw
  have hvD : Within D v w := within_one.mpr (by rw [abs_sub_comm, abs_of_nonneg hD0])
  -- the second problem matters at its stages only
  classical
  let g' : ℝ → Vec ℝ 1 → Vec ℝ 1 := fun t' y' => if ∃ i, t' = t + T.C i * x ∧ y' = Z i then g t' y' else f t' y'
  have hg' : ∀ t' y', Within Δ (f t' y') (g' t' y') := by
    intro t' y'
    rw [within_one]
    show |f t' y' 0 - (if ∃ i, t' = t + T.C i * x ∧ y' = Z i then g t' y' else f t' y') 0| ≤ Δ
    split
    · next h =>
      obtain ⟨i, rfl, rfl⟩ := h
      rw [k2, abs_sub_comm, abs_of_nonneg (hδ0 i)]
      exact Finset.single_le_sum (f := δ) (fun j _ => hδ0 j) (Finset.mem_univ i)
    · simpa using hΔ0
  have e3 : RKStages T (pureRhs g') t x w K' := by
    intro i
    show Except.ok (g' (t + T.C i * x) (Z i)) = Except.ok (K' i)
    rw [← k2 i]
    exact congrArg _ (if_pos ⟨i, rfl, rfl⟩)
  have hKK := hst f g' t x D Δ v w K K' hΔ0 hf hg' hD0 hvD hx hx1 e1 e3
  have hYZ : ∀ i, |Y i 0 - Z i 0| ≤ D + x * (a * (M * (D + Δ))) := by
    intro i
    have h1 := sum_near (W := T.A i) hx hvD hKK 0
    have hrow : ∑ j, |T.A i j| ≤ a := Finset.single_le_sum (f := fun i => ∑ j, |T.A i j|) (fun i _ => Finset.sum_nonneg fun j _ => abs_nonneg _) (Finset.mem_univ i)
    have h2 : x * ((∑ j, |T.A i j|) * (M * (D + Δ))) ≤ x * (a * (M * (D + Δ))) :=
      mul_le_mul_of_nonneg_left (mul_le_mul_of_nonneg_right hrow (by positivity)) hx
    exact h1.trans (by linarith)
  set R := D + x * (a * (M * (D + Δ))) with hR
  have hKi : ∀ i, δ i - L * R ≤ K' i 0 - K i 0 := by
    intro i
    have h1 := hf (t + T.C i * x) (Y i) (Z i) R (within_one.mpr (hYZ i)) 0
    rw [k1] at h1
    have h2 := (abs_le.mp h1).2
    have h3 : K' i 0 = δ i + f (t + T.C i * x) (Z i) 0 := by rw [hδ]; ring
    linarith
  have hsum : β * Δ - B * (L * R) ≤ ∑ j, T.B j * K' j 0 - ∑ j, T.B j * K j 0 := by
    rw [← Finset.sum_sub_distrib, hΔ, Finset.mul_sum, hBs, Finset.sum_mul, ← Finset.sum_sub_distrib]
    refine Finset.sum_le_sum fun j _ => ?_
    have h1 := mul_le_mul_of_nonneg_left (hKi j) (hB j).le
    have h2 := mul_le_mul_of_nonneg_right (hmin j (Finset.mem_univ j)) (hδ0 j)
    have h3 : T.B j * (K' j 0 - K j 0) = T.B j * K' j 0 - T.B j * K j 0 := by ring
    rw [h3] at h1
    linarith
  have hBR : B * (L * R) ≤ c * D + c * x * Δ := by
    have h1 : x * (B * L * a * M * D) ≤ 1 * (B * L * a * M * D) := mul_le_mul_of_nonneg_right hx1 (by positivity)
    have h2 : 0 ≤ B * L * x * Δ := by positivity
    rw [hR, hc]
    nlinarith
  have hfin : 0 ≤ D + x * (∑ j, T.B j * K' j 0 - ∑ j, T.B j * K j 0) := by
    have h1 := mul_le_mul_of_nonneg_left hsum hx
    have h2 := mul_le_mul_of_nonneg_left hBR hx
    have h3 := mul_le_mul_of_nonneg_right hx2 hD0
    have h4 := mul_le_mul_of_nonneg_left (mul_le_mul_of_nonneg_right hx3 hΔ0) hx
    nlinarith
  show v 0 + x * ∑ j, T.B j * K j 0 ≤ w 0 + x * ∑ j, T.B j * K' j 0
  rw [hD] at hfin
  linarith

theorem keepsComparison {T : Tableau ℝ s} {cls : Rhs ℝ 1 → Solver ℝ 1 0 X} {starts : Rhs ℝ 1 → ℝ → Vec ℝ 1 → St ℝ 1 0 X → Prop}
    (hM : ∀ rhs, IsFixed (cls rhs).method) (h0 : StartsAt cls starts) (hS : RKSteps T cls) (hT : Explicit T) (hB : ∀ j, 0 < T.B j) :
    KeepsComparison cls starts := by
  intro L hL
  obtain ⟨H, hH, hstep⟩ := step_comparison hT hB hL
  refine ⟨H, hH, fun f g t0 y0 z0 hf hfg hyz s u hs hu hh hpos hsH l l' v w hv hw hn => ?_⟩
  have hst : s.t = t0 := h0.times _ _ _ _ hs _
  have hut : u.t = t0 := h0.times _ _ _ _ hu _
  have hsy : s.y = y0 := h0.y _ _ _ _ hs
  have huy : u.y = z0 := h0.y _ _ _ _ hu
  have hsf : s.f = f s.t s.y := by rw [hst, hsy]; exact (Except.ok.inj (h0.f _ _ _ _ hs)).symm
  have huf : u.f = g u.t u.y := by rw [hut, huy]; exact (Except.ok.inj (h0.f _ _ _ _ hu)).symm
  have hlt : s.y 0 ≤ u.y 0 := by rw [hsy, huy]; exact hyz
  have htt : s.t = u.t := hst.trans hut.symm
  clear hs hu hst hut hsy huy
  induction hv generalizing u l' with
  | nil p =>
    cases hw with
    | nil => exact ⟨htt, hlt⟩
    | cons => simp at hn
  | @cons p p1 v l hfit htk hp ih =>
    cases hw with
    | nil => simp at hn
    | @cons _ q1 _ l' hfit' htk' hq =>
      obtain ⟨x, K, hK, a1, a2, a3⟩ := hS f _ _ hsf htk
      obtain ⟨x', K', hK', b1, b2, b3⟩ := hS g _ _ huf htk'
      have c1 := (IsFixed.shaped (hM (pureRhs f))).body_fixed _ _ _ htk
      have c2 := (IsFixed.shaped (hM (pureRhs g))).body_fixed _ _ _ htk'
      have hx : x = p.h := by rw [a1] at c1; exact add_left_cancel c1
      have hx' : x' = p.h := by rw [b1] at c2; exact (add_left_cancel c2).trans hh.symm
      have c3 : p1.h = p.h := (IsFixed.shaped (hM _)).body_h _ _ _ _ htk
      have c4 : q1.h = u.h := (IsFixed.shaped (hM _)).body_h _ _ _ _ htk'
      rw [hx] at hK a1 a2
      rw [hx', ← htt] at hK'
      rw [hx'] at b1 b2
      have hw1 : p1.y 0 ≤ q1.y 0 := by
        rw [a2, b2]
        exact hstep f g p.t p.h p.y u.y K K' hf hfg hlt hpos.le hsH hK hK'
      exact ih q1 (by rw [c3, c4, hh]) (by rw [c3]; exact hpos) (by rw [c3]; exact hsH) l' hq (by simpa using hn) a3 b3 hw1 (by rw [a1, b1, htt])

/-- **C116** (partial) The explicit fixed-step Runge-Kutta classes with positive weights. -/
theorem C116_erk_partial {T : Tableau ℝ s} (hT : Explicit T) (hB : ∀ j, 0 < T.B j) (b : Bound ℝ) :
    KeepsComparison (fun rhs : Rhs ℝ 1 => (⟨erk T, rhs, b⟩ : Solver ℝ 1 0 (ErkAux ℝ 1 s))) erkStarts :=
  keepsComparison (fun _ => .erk _) (erk_startsAt T b) (erk_steps hT b) hT hB

/-- **C116** (partial) `RungeKutta4`. -/
theorem C116_RungeKutta4_partial (b : Bound ℝ) :
    KeepsComparison (fun rhs : Rhs ℝ 1 => (⟨erk RungeKutta4, rhs, b⟩ : Solver ℝ 1 0 (ErkAux ℝ 1 3))) erkStarts :=
  C116_erk_partial RungeKutta4_conditions.explicit (by intro j; fin_cases j <;> simp [RungeKutta4, q]) b

/-- **C116** (partial) `RungeKutta3_8`. -/
theorem C116_RungeKutta3_8_partial (b : Bound ℝ) :
    KeepsComparison (fun rhs : Rhs ℝ 1 => (⟨erk RungeKutta3_8, rhs, b⟩ : Solver ℝ 1 0 (ErkAux ℝ 1 3))) erkStarts :=
  C116_erk_partial RungeKutta3_8_conditions.explicit (by intro j; fin_cases j <;> simp [RungeKutta3_8, q]) b

/-- **C116** (partial) `ForwardEuler`. -/
theorem C116_ForwardEuler_partial (b : Bound ℝ) :
    KeepsComparison (fun rhs : Rhs ℝ 1 => (⟨explicitMultistep ForwardEuler, rhs, b⟩ : Solver ℝ 1 0 Unit)) eulerStarts :=
  keepsComparison (fun _ => .explicitMultistep _) (euler_startsAt b) (euler_steps b) eulerTableau_explicit (fun _ => one_pos)

/-! ### Methods with a weight of zero -/

/-- `-y`, and more than that near the time `c` and the state 0. -/
noncomputable def gain (c h : ℝ) (t : ℝ) (y : Vec ℝ 1) : Vec ℝ 1 := fun _ => -y 0 + max 0 (1 - |t - c| * (6 / h) - |y 0| / h)

theorem gain_continuous (c h : ℝ) : Continuous fun p : ℝ × Vec ℝ 1 => gain c h p.1 p.2 := by
  unfold gain
  refine continuous_pi fun _ => ?_
  have h1 : Continuous fun p : ℝ × Vec ℝ 1 => p.2 0 := (continuous_apply 0).comp continuous_snd
  fun_prop

theorem gain_ge (c h t : ℝ) (y : Vec ℝ 1) : -y 0 ≤ gain c h t y 0 := by
  unfold gain
  have := le_max_left 0 (1 - |t - c| * (6 / h) - |y 0| / h)
  linarith

/-- At the time and the state. -/
theorem gain_at {c h t : ℝ} {y : Vec ℝ 1} (ht : t = c) (hy : y 0 = 0) : gain c h t y 0 = 1 := by
  simp [gain, ht, hy]

/-- At another time. -/
theorem gain_far {c h t : ℝ} {y : Vec ℝ 1} (hh : 0 < h) (ht : h / 6 ≤ |t - c|) : gain c h t y 0 = -y 0 := by
  have h1 : 1 ≤ |t - c| * (6 / h) := by
    rw [mul_div_assoc', le_div_iff₀ hh]
    linarith
  have h2 : 0 ≤ |y 0| / h := by positivity
  unfold gain
  rw [max_eq_left (by linarith), add_zero]

/-- At another state. -/
theorem gain_off {c h t : ℝ} {y : Vec ℝ 1} (hh : 0 < h) (hy : h ≤ |y 0|) : gain c h t y 0 = -y 0 := by
  have h1 : 1 ≤ |y 0| / h := by rwa [le_div_iff₀ hh, one_mul]
  have h2 : 0 ≤ |t - c| * (6 / h) := by positivity
  unfold gain
  rw [max_eq_left (by linarith), add_zero]

theorem gain_stage {T : Tableau ℝ s} {c h : ℝ} {K : Fin (s + 1) → Vec ℝ 1} (hK : RKStages T (pureRhs (gain c h)) 0 h 0 K) (i : Fin (s + 1)) :
    K i 0 = gain c h (T.C i * h) (fun _ => h * ∑ j, T.A i j * K j 0) 0 := by
  have := hK i
  simp only [pureRhs, Except.ok.injEq, zero_add, Pi.zero_apply] at this
  rw [← this]
  congr 1
  funext d
  rw [Subsingleton.elim d 0]

/-- On `y' = -y` all stages from 0 are 0. -/
theorem decay_stages {T : Tableau ℝ s} (hT : Explicit T) {h : ℝ} {K : Fin (s + 1) → Vec ℝ 1}
    (hK : RKStages T (pureRhs fun _ y i => -y i) 0 h 0 K) (i : Fin (s + 1)) : K i 0 = 0 := by
  induction hi : i.val using Nat.strong_induction_on generalizing i with
  | _ m ih =>
    have h1 := congrFun (Except.ok.inj (hK i)) 0
    rw [← h1]
    show -((0 : ℝ) + h * ∑ j, T.A i j * K j 0) = 0
    rw [Finset.sum_eq_zero, mul_zero, add_zero, neg_zero]
    intro j _
    rcases lt_or_ge j i with hj | hj
    · rw [ih j.val (hi ▸ hj) j rfl, mul_zero]
    · rw [hT.upper i j hj, zero_mul]

theorem loses_of_stages {T : Tableau ℝ s} (hT : Explicit T) (b : Bound ℝ) (c : ℝ → ℝ)
    (hS : ∀ h K, 0 < h → RKStages T (pureRhs (gain (c h) h)) 0 h 0 K → ∑ j, T.B j * K j 0 < 0) :
    LosesComparison (fun rhs : Rhs ℝ 1 => (⟨erk T, rhs, b⟩ : Solver ℝ 1 0 (ErkAux ℝ 1 s))) erkStarts := by
  intro h hh
  refine ⟨gain (c h) h, gain_continuous _ _, gain_ge _ _, fun st u hs hu h1 h2 => ?_⟩
  have h0 := erk_startsAt (n := 1) T b
  have hst : st.t = 0 := h0.times _ _ _ _ hs _
  have hut : u.t = 0 := h0.times _ _ _ _ hu _
  have hsy : st.y = 0 := h0.y _ _ _ _ hs
  have huy : u.y = 0 := h0.y _ _ _ _ hu
  have hsf : st.f = (fun _ y i => -y i : ℝ → Vec ℝ 1 → Vec ℝ 1) st.t st.y := by
    rw [hst, hsy]; exact (Except.ok.inj (h0.f _ _ _ _ hs)).symm
  have huf : u.f = gain (c h) h u.t u.y := by rw [hut, huy]; exact (Except.ok.inj (h0.f _ _ _ _ hu)).symm
  obtain ⟨s', hs', ht, -, -⟩ := erk_takes hT b (fun _ y i => -y i) st hsf
  obtain ⟨u', hu', ht', -, -⟩ := erk_takes hT b _ u huf
  refine ⟨s', u', hs', hu', by rw [ht, ht', hst, hut, h1, h2], ?_⟩
  obtain ⟨x, K, hK, a1, a2, -⟩ := erk_steps hT b (fun _ y i => -y i) _ _ hsf hs'
  obtain ⟨x', K', hK', b1, b2, -⟩ := erk_steps hT b _ _ _ huf hu'
  have hx : x = h := by rw [ht, h1] at a1; exact (add_left_cancel a1).symm
  have hx' : x' = h := by rw [ht', h2] at b1; exact (add_left_cancel b1).symm
  rw [hst, hsy, hx] at hK
  rw [hut, huy, hx'] at hK'
  have n1 := mul_neg_of_pos_of_neg hh (hS h K' hh hK')
  rw [a2, b2, hsy, huy, hx, hx']
  have n2 : ∑ j, T.B j * K j 0 = 0 := Finset.sum_eq_zero fun j _ => by rw [decay_stages hT hK, mul_zero]
  show (0 : ℝ) + h * ∑ j, T.B j * K' j 0 < 0 + h * ∑ j, T.B j * K j 0
  rw [n2]
  linarith

/-- **C116** (refuted) `Runge2`, whose first weight is zero. -/
theorem C116_refuted_Runge2 (b : Bound ℝ) :
    LosesComparison (fun rhs : Rhs ℝ 1 => (⟨erk Runge2, rhs, b⟩ : Solver ℝ 1 0 (ErkAux ℝ 1 1))) erkStarts := by
  refine loses_of_stages Runge2_conditions.explicit b (fun _ => 0) fun h K hh hK => ?_
  have k0 : K 0 0 = 1 := by
    rw [gain_stage hK 0]
    exact gain_at (by simp [Runge2, q]) (by simp [Runge2, q, Fin.sum_univ_succ])
  have k1 : K 1 0 = -(h * (1 / 2)) := by
    rw [gain_stage hK 1, gain_far hh (by simp [Runge2, q]; rw [abs_of_pos hh]; linarith)]
    simp [Runge2, q, Fin.sum_univ_succ, k0]
  have : ∑ j, Runge2.B j * K j 0 = -(h * (1 / 2)) := by
    simp [Fin.sum_univ_succ, Runge2, q, k1]
  rw [this]
  linarith

/-- **C116** (refuted) `Heun3`, whose second weight is zero. -/
theorem C116_refuted_Heun3 (b : Bound ℝ) :
    LosesComparison (fun rhs : Rhs ℝ 1 => (⟨erk Heun3, rhs, b⟩ : Solver ℝ 1 0 (ErkAux ℝ 1 2))) erkStarts := by
  refine loses_of_stages Heun3_conditions.explicit b (fun h => h / 3) fun h K hh hK => ?_
  have k0 : K 0 0 = 0 := by
    rw [gain_stage hK 0, gain_far hh (by simp [Heun3, q]; rw [abs_of_pos (by linarith)]; linarith)]
    simp [Heun3, q, Fin.sum_univ_succ]
  have k1 : K 1 0 = 1 := by
    rw [gain_stage hK 1]
    exact gain_at (by simp [Heun3, q]; ring) (by simp [Heun3, q, Fin.sum_univ_succ, k0])
  have k2 : K 2 0 = -(h * (2 / 3)) := by
    have e : Heun3.C 2 * h - h / 3 = h / 3 := by simp [Heun3, q]; ring
    rw [gain_stage hK 2, gain_far hh (by rw [e, abs_of_pos (by linarith)]; linarith)]
    simp [Heun3, q, Fin.sum_univ_succ, k0, k1]
  have : ∑ j, (Heun3 : Tableau ℝ 2).B j * K j 0 = 3 / 4 * -(h * (2 / 3)) := by
    simp [Fin.sum_univ_succ, Heun3, q, k0, k2]
  rw [this]
  linarith

/-- **C116** (refuted) `Runge3`, whose third weight is zero. -/
theorem C116_refuted_Runge3 (b : Bound ℝ) :
    LosesComparison (fun rhs : Rhs ℝ 1 => (⟨erk Runge3, rhs, b⟩ : Solver ℝ 1 0 (ErkAux ℝ 1 3))) erkStarts := by
  refine loses_of_stages Runge3_conditions.explicit b (fun h => h) fun h K hh hK => ?_
  have k0 : K 0 0 = 0 := by
    rw [gain_stage hK 0, gain_far hh (by simp [Runge3, q]; rw [abs_of_pos hh]; linarith)]
    simp [Runge3, q, Fin.sum_univ_succ]
  have k1 : K 1 0 = 0 := by
    have e : Runge3.C 1 * h - h = -(h / 2) := by simp [Runge3, q]; ring
    rw [gain_stage hK 1, gain_far hh (by rw [e, abs_neg, abs_of_pos (by linarith)]; linarith)]
    simp [Runge3, q, Fin.sum_univ_succ, k0]
  have k2 : K 2 0 = 1 := by
    rw [gain_stage hK 2]
    exact gain_at (by simp [Runge3, q]) (by simp [Runge3, q, Fin.sum_univ_succ, k0, k1])
  have k3 : K 3 0 = -h := by
    have e : (h * ∑ j, (Runge3 : Tableau ℝ 3).A 3 j * K j 0) = h := by simp [Runge3, q, Fin.sum_univ_succ, k0, k1, k2]
    rw [gain_stage hK 3, e, gain_off hh (le_abs_self h)]
  have : ∑ j, (Runge3 : Tableau ℝ 3).B j * K j 0 = 1 / 6 * -h := by
    simp [Fin.sum_univ_succ, Runge3, q, k0, k1, k3]
  rw [this]
  linarith

/-! ### Between the steps -/

/-- A derivative that is positive only near the end of the first step. -/
noncomputable def lateGain (h t : ℝ) : ℝ := max 0 (1 - |t - h| * (6 / h))

theorem lateGain_end (h : ℝ) : lateGain h h = 1 := by simp [lateGain]

theorem lateGain_before {h t : ℝ} (hh : 0 < h) (ht : t ≤ 5 / 6 * h) : lateGain h t = 0 := by
  unfold lateGain
  refine max_eq_left ?_
  rw [abs_of_nonpos (by linarith), mul_div_assoc', sub_nonpos, le_div_iff₀ hh]
  linarith

theorem fallsInRun {T : Tableau ℝ s} {cls : Rhs ℝ 1 → Solver ℝ 1 0 X} {starts : Rhs ℝ 1 → ℝ → Vec ℝ 1 → St ℝ 1 0 X → Prop}
    (hM : ∀ rhs, IsFixed (cls rhs).method) (hF : ∀ rhs, Faults (cls rhs).method fun _ => False) (hb : ∀ rhs, (cls rhs).tBound = .inf)
    (hrhs : ∀ rhs, (cls rhs).rhs = rhs) (h0 : StartsAt cls starts) (hS : RKSteps T cls)
    (hD : DenseSteps (withLast T) (hermiteP T) cls starts) (hT : Explicit T) (hC : ∀ j, T.C j = 1 ∨ T.C j ≤ 5 / 6)
    (hB : ∑ j, (if T.C j = 1 then T.B j else 0) < 1 / 4) :
    FallsInRun cls starts := by
  intro h hh
  refine ⟨lateGain h, by unfold lateGain; fun_prop, fun t => le_max_left _ _, fun bo argsort hA u hu huh => ?_⟩
  set f : ℝ → Vec ℝ 1 → Vec ℝ 1 := fun t _ _ => lateGain h t with hf
  have hut : u.t = 0 := h0.times _ _ _ _ hu _
  have huy : u.y = 0 := h0.y _ _ _ _ hu
  have huf : u.f = f u.t u.y := by rw [hut, huy]; exact (Except.ok.inj (h0.f _ _ _ _ hu)).symm
  have hpos : 0 < u.h := huh ▸ hh
  obtain ⟨out, u', hrun, hout⟩ := C69_answers_fixed (cls (pureRhs f)) (hM _) (hF _) (hb _)
    (by rw [hrhs]; rintro e ⟨t, y, h⟩; cases h) bo argsort hA [h / 2] (by simp) u
    (fun i j _ => by rw [h0.times _ _ _ _ hu, h0.times _ _ _ _ hu]) hpos (by
      intro x hx
      rw [List.mem_singleton.mp hx]
      refine ⟨?_, by rw [hb]; trivial⟩
      rw [h0.times _ _ _ _ hu]
      linarith)
  obtain ⟨p, rfl⟩ : ∃ p, out = [p] := by
    cases out with
    | nil => simp at hout
    | cons p l => cases l with
      | nil => exact ⟨p, rfl⟩
      | cons => simp at hout
  obtain ⟨t, y⟩ := p
  have ht : t = h / 2 := by simpa using hout
  subst ht
  refine ⟨y, u', hrun, ?_⟩
  rcases answer_origin (fun rhs => Or.inl (hM rhs)) h0 hA hu hpos hrun (List.mem_singleton_self _) with ⟨a1, -⟩ | ⟨l, x, v, r, v', a1, a2, a3, a4, a5, a6, a7⟩
  · simp only at a1; linarith
  have hx : x = u := by
    cases a1 with
    | nil => rfl
    | @cons _ p1 _ l hfit htk hp =>
      exfalso
      have c1 := (IsFixed.shaped (hM (pureRhs f))).body_fixed _ _ _ htk
      have c2 : p1.h = u.h := (IsFixed.shaped (hM _)).body_h _ _ _ _ htk
      have c3 := (path_pos (Or.inl (hM _)) hp (c2 ▸ hpos)).2
      simp only at a2
      rw [c1, hut, huh] at c3
      linarith
  subst hx
  have c1 := (IsFixed.shaped (hM (pureRhs f))).body_fixed _ _ _ a5
  rw [hut, huh, zero_add] at c1
  obtain ⟨K, hK, hKv⟩ := hD f 0 0 x x v l hu hpos a1 a4 a5 huf (by rw [hut, c1]; exact hh)
  have v1 := hKv (h / 2) r v' a2 a3 a6
  rw [a7] at v1
  simp only [hut, c1, sub_zero, huy] at v1 hK
  have hθ : h / 2 / h = 1 / 2 := by field_simp
  rw [hθ] at v1
  have k : ∀ i, K i 0 = lateGain h ((withLast T).C i * h) := by
    intro i
    have := congrFun (Except.ok.inj (hK i)) 0
    rw [← this]
    show lateGain h (0 + _) = _
    rw [zero_add]
  have kl : K (Fin.last (s + 1)) 0 = 1 := by
    rw [k]
    simp [withLast, lateGain_end]
  have kj : ∀ j : Fin (s + 1), K j.castSucc 0 = if T.C j = 1 then 1 else 0 := by
    intro j
    rw [k]
    have e : (withLast T).C j.castSucc = T.C j := by
      have := j.isLt
      simp [withLast]
      intro h1
      omega
    rw [e]
    split
    · next h1 => rw [h1, one_mul, lateGain_end]
    · next h1 => exact lateGain_before hh (mul_le_mul_of_nonneg_right ((hC j).resolve_left h1) hh.le)
  have k0 : T.C 0 ≠ 1 := by rw [hT.first]; norm_num
  have e : denseNew (hermiteP T) h (1 / 2) 0 K 0 = h * (1 / 2 * (∑ j, (if T.C j = 1 then T.B j else 0)) - 1 / 8) := by
    unfold denseNew
    rw [Fin.sum_univ_castSucc, kl]
    have w1 : denseWeight (hermiteP T) (1 / 2) (Fin.last (s + 1)) = -(1 / 8) := by
      simp [denseWeight, hermiteP, Fin.sum_univ_succ, withLast]
      norm_num
    have w2 : ∀ j : Fin (s + 1), denseWeight (hermiteP T) (1 / 2) j.castSucc * K j.castSucc 0 = 1 / 2 * (if T.C j = 1 then T.B j else 0) := by
      intro j
      rw [kj]
      split
      · next h1 =>
        have hj : j.val ≠ 0 := fun hj => k0 (by rw [← h1]; congr 1; exact (Fin.ext hj).symm)
        have hj2 : j.val ≠ s + 1 := by have := j.isLt; omega
        have hj3 : j.val ≤ s := Nat.lt_succ_iff.mp j.isLt
        simp [denseWeight, hermiteP, Fin.sum_univ_succ, withLast, hj, hj2, hj3]
        ring
      · simp
    rw [Finset.sum_congr rfl fun j _ => w2 j, ← Finset.mul_sum, w1, mul_one, Pi.zero_apply]
    ring
  rw [v1, e]
  exact mul_neg_of_pos_of_neg hh (by linarith)

/-- **C116** (refuted) What `run` answers between the steps does not keep the comparison, with any of the explicit fixed-step one-step
classes and however short the step: the interpolation bends below 0 before a rise. -/
theorem C116_refuted_run :
    FallsInRun (fun rhs : Rhs ℝ 1 => (⟨explicitMultistep ForwardEuler, rhs, .inf⟩ : Solver ℝ 1 0 Unit)) eulerStarts ∧
    FallsInRun (fun rhs : Rhs ℝ 1 => (⟨erk Runge2, rhs, .inf⟩ : Solver ℝ 1 0 (ErkAux ℝ 1 1))) erkStarts ∧
    FallsInRun (fun rhs : Rhs ℝ 1 => (⟨erk Runge3, rhs, .inf⟩ : Solver ℝ 1 0 (ErkAux ℝ 1 3))) erkStarts ∧
    FallsInRun (fun rhs : Rhs ℝ 1 => (⟨erk Heun3, rhs, .inf⟩ : Solver ℝ 1 0 (ErkAux ℝ 1 2))) erkStarts ∧
    FallsInRun (fun rhs : Rhs ℝ 1 => (⟨erk RungeKutta4, rhs, .inf⟩ : Solver ℝ 1 0 (ErkAux ℝ 1 3))) erkStarts ∧
    FallsInRun (fun rhs : Rhs ℝ 1 => (⟨erk RungeKutta3_8, rhs, .inf⟩ : Solver ℝ 1 0 (ErkAux ℝ 1 3))) erkStarts := by
  have key : ∀ {s : ℕ} {T : Tableau ℝ s}, Explicit T → (∀ j, T.C j = 1 ∨ T.C j ≤ 5 / 6) →
      ∑ j, (if T.C j = 1 then T.B j else 0) < 1 / 4 →
      FallsInRun (fun rhs : Rhs ℝ 1 => (⟨erk T, rhs, .inf⟩ : Solver ℝ 1 0 (ErkAux ℝ 1 s))) erkStarts := fun {s T} hT hC hB =>
    fallsInRun (fun _ => .erk _) (fun _ => .erk _) (fun _ => rfl) (fun _ => rfl) (erk_startsAt T .inf) (erk_steps hT .inf)
      (hermite_dense hT (fun _ => .erk _) (fun _ => rfl) (erk_steps hT .inf) _) hT hC hB
  refine ⟨fallsInRun (fun _ => .explicitMultistep _) (fun _ => .explicitMultistep _) (fun _ => rfl) (fun _ => rfl) (euler_startsAt .inf)
    (euler_steps .inf) (hermite_dense eulerTableau_explicit (fun _ => .explicitMultistep _) (fun _ => rfl) (euler_steps .inf) _) eulerTableau_explicit
    (by intro j; right; simp [eulerTableau]; norm_num) (by simp [eulerTableau]),
    key Runge2_conditions.explicit ?_ ?_, key Runge3_conditions.explicit ?_ ?_, key Heun3_conditions.explicit ?_ ?_,
    key RungeKutta4_conditions.explicit ?_ ?_, key RungeKutta3_8_conditions.explicit ?_ ?_⟩
  · intro j; fin_cases j <;> norm_num [Runge2, q]
  · norm_num [Runge2, q, Fin.sum_univ_succ]
  · intro j; fin_cases j <;> norm_num [Runge3, q]
  · norm_num [Runge3, q, Fin.sum_univ_succ]
  · intro j; fin_cases j <;> norm_num [Heun3, q]
  · norm_num [Heun3, q, Fin.sum_univ_succ]
  · intro j; fin_cases j <;> norm_num [RungeKutta4, q]
  · norm_num [RungeKutta4, q, Fin.sum_univ_succ]
  · intro j; fin_cases j <;> norm_num [RungeKutta3_8, q]
  · norm_num [RungeKutta3_8, q, Fin.sum_univ_succ]

namespace Demo

/-- `y' = -y` against `y' = -y + |y|`, from 1, with `ForwardEuler`: there is a step size below which the second solution is above the
first after every number of steps, and the two solvers can be constructed. -/
example : ∃ h : ℝ, 0 < h ∧ ∃ s u : St ℝ 1 0 Unit,
    eulerStarts (pureRhs fun _ y i => -y i) 0 (fun _ => 1) s ∧ eulerStarts (pureRhs fun _ y i => -y i + |y i|) 0 (fun _ => 1) u ∧ s.h = h ∧ u.h = h ∧
    ∀ l l' v w, Path ⟨explicitMultistep ForwardEuler, pureRhs fun _ y i => -y i, .inf⟩ .inf s l v →
      Path ⟨explicitMultistep ForwardEuler, pureRhs fun _ y i => -y i + |y i|, .inf⟩ .inf u l' w → l.length = l'.length →
      v.t = w.t ∧ v.y 0 ≤ w.y 0 := by
  obtain ⟨H, hH, hc⟩ := C116_ForwardEuler_partial .inf 1 zero_le_one
  obtain ⟨s, hs, h1⟩ := euler_started (fun _ y i => -y i) 0 H (fun _ => 1)
  obtain ⟨u, hu, h2⟩ := euler_started (fun _ y i => -y i + |y i|) 0 H (fun _ => 1)
  refine ⟨H, hH, s, u, hs, hu, h1, h2, fun l l' v w hv hw hn => ?_⟩
  refine hc (fun _ y i => -y i) (fun _ y i => -y i + |y i|) 0 _ _ ?_ (fun _ y => ?_) le_rfl s u hs hu (h1.trans h2.symm) (by rw [h1]; exact hH)
    h1.le l l' v w hv hw hn
  · intro t y z D hD i
    show |-y i - -z i| ≤ 1 * D
    rw [one_mul, neg_sub_neg, abs_sub_comm]
    exact hD i
  · show -y 0 ≤ -y 0 + |y 0|
    linarith [abs_nonneg (y 0)]

/-- Solvers of the Runge-Kutta classes with a given step size can be constructed. -/
theorem erk_started {s : ℕ} (f : ℝ → Vec ℝ 1 → Vec ℝ 1) (t0 h : ℝ) (y0 : Vec ℝ 1) :
    ∃ st : St ℝ 1 0 (ErkAux ℝ 1 s), erkStarts (pureRhs f) t0 y0 st ∧ st.h = h :=
  ⟨_, ⟨⟨0, 0, 0⟩, 0, some h, rfl⟩, rfl⟩

/-- With `Runge2` and the step 1/1000 the larger derivative gives a smaller value. -/
example : ∃ (g : ℝ → Vec ℝ 1 → Vec ℝ 1) (s' u' : St ℝ 1 0 (ErkAux ℝ 1 1)), (∀ t y, -y 0 ≤ g t y 0) ∧ s'.t = u'.t ∧ u'.y 0 < s'.y 0 := by
  obtain ⟨g, -, hg, hc⟩ := C116_refuted_Runge2 .inf (1/1000) (by norm_num)
  obtain ⟨s, hs, h1⟩ := erk_started (s := 1) (fun _ y i => -y i) 0 (1/1000) 0
  obtain ⟨u, hu, h2⟩ := erk_started (s := 1) g 0 (1/1000) 0
  obtain ⟨s', u', -, -, h3, h4⟩ := hc s u hs hu h1 h2
  exact ⟨g, s', u', hg, h3, h4⟩

example : ∃ H : ℝ, 0 < H ∧ ∃ s u : St ℝ 1 0 (ErkAux ℝ 1 3), erkStarts (pureRhs fun _ y i => -y i) 0 (fun _ => 1) s ∧
    erkStarts (pureRhs fun _ y i => -y i + |y i|) 0 (fun _ => 1) u ∧ s.h = H ∧ u.h = H ∧
    ∀ l l' v w, Path ⟨erk RungeKutta4, pureRhs fun _ y i => -y i, .inf⟩ .inf s l v →
      Path ⟨erk RungeKutta4, pureRhs fun _ y i => -y i + |y i|, .inf⟩ .inf u l' w → l.length = l'.length → v.t = w.t ∧ v.y 0 ≤ w.y 0 := by
  obtain ⟨H, hH, hc⟩ := C116_RungeKutta4_partial .inf 1 zero_le_one
  obtain ⟨s, hs, h1⟩ := erk_started (s := 3) (fun _ y i => -y i) 0 H (fun _ => 1)
  obtain ⟨u, hu, h2⟩ := erk_started (s := 3) (fun _ y i => -y i + |y i|) 0 H (fun _ => 1)
  refine ⟨H, hH, s, u, hs, hu, h1, h2, fun l l' v w hv hw hn => ?_⟩
  refine hc (fun _ y i => -y i) (fun _ y i => -y i + |y i|) 0 _ _ ?_ (fun _ y => ?_) le_rfl s u hs hu (h1.trans h2.symm) (by rw [h1]; exact hH)
    h1.le l l' v w hv hw hn
  · intro t y z D hD i
    show |-y i - -z i| ≤ 1 * D
    rw [one_mul, neg_sub_neg, abs_sub_comm]
    exact hD i
  · show -y 0 ≤ -y 0 + |y 0|
    linarith [abs_nonneg (y 0)]

/-- With `RungeKutta4` and the step 1/1000: an equation with a derivative that is never negative, and a negative answer of `run`. -/
example (bo : BisectOpts ℝ) (argsort : List ℝ → List Nat) (hA : ∀ l, IsArgsort l (argsort l)) :
    ∃ (g : ℝ → ℝ) (u u' : St ℝ 1 0 (ErkAux ℝ 1 3)) (y : Vec ℝ 1), (∀ t, 0 ≤ g t) ∧ erkStarts (pureRhs fun t _ _ => g t) 0 0 u ∧
      (Solver.run ⟨erk RungeKutta4, pureRhs fun t _ _ => g t, .inf⟩ bo argsort [1 / 1000 / 2]).run u = some (.ok [(1 / 1000 / 2, y)], u') ∧ y 0 < 0 := by
  obtain ⟨g, -, hg, hc⟩ := C116_refuted_run.2.2.2.2.1 (1 / 1000) (by norm_num)
  obtain ⟨u, hu, h2⟩ := erk_started (s := 3) (fun t _ _ => g t) 0 (1 / 1000) 0
  obtain ⟨y, u', h3, h4⟩ := hc bo argsort hA u hu h2
  exact ⟨g, u, u', y, hg, hu, h3, h4⟩

end Demo

end Nbkode
