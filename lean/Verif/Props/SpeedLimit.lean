import Verif.Spec.SpeedLimit
import Verif.Props.Regions
import Verif.Props.Crossing
import Verif.Props.Polynomials

/-!
# C117: a component does not move faster than its derivative allows

`nbkode/runge_kutta/explicit.py`, `nbkode/euler.py`. A step adds a weighted mean of derivatives times its length. True at every step size
if no weight is negative (`ForwardEuler`, `Runge2`, `Runge3`, `Heun3`, `RungeKutta4`, `RungeKutta3_8`, `RungeKutta23`), false of `RungeKutta45`,
`DOP853` and the Adams-Bashforth classes from 2 on.
-/

set_option autoImplicit false
set_option linter.unusedSectionVars false

namespace Nbkode
open Py Spec Solver

variable {s d n : ℕ} {X : Type}

theorem step_speed {T : Tableau ℝ s} (hB : ∀ j, 0 ≤ T.B j) (h1 : ∑ j, T.B j = 1) {f : ℝ → Vec ℝ n → Vec ℝ n} {t x a : ℝ} {y : Vec ℝ n}
    {K : Fin (s + 1) → Vec ℝ n} (hx : 0 ≤ x) (hK : RKStages T (pureRhs f) t x y K) (i : Fin n) :
    ((∀ t y, a ≤ f t y i) → a * x ≤ rkNew T x y K i - y i) ∧ ((∀ t y, f t y i ≤ a) → rkNew T x y K i - y i ≤ a * x) := by
  have e : rkNew T x y K i - y i = (∑ j, T.B j * K j i) * x := by
    show y i + x * ∑ j, T.B j * K j i - y i = _
    ring
  have hk : ∀ j, ∃ t y, K j i = f t y i := fun j => ⟨_, _, congrFun (Except.ok.inj (hK j)).symm i⟩
  have ha : a = ∑ j, T.B j * a := by rw [← Finset.sum_mul, h1, one_mul]
  rw [e]
  constructor
  · intro h
    refine mul_le_mul_of_nonneg_right ?_ hx
    rw [ha]
    refine Finset.sum_le_sum fun j _ => mul_le_mul_of_nonneg_left ?_ (hB j)
    obtain ⟨t', y', e'⟩ := hk j
    rw [e']
    exact h _ _
  · intro h
    refine mul_le_mul_of_nonneg_right ?_ hx
    conv_rhs => rw [ha]
    refine Finset.sum_le_sum fun j _ => mul_le_mul_of_nonneg_left ?_ (hB j)
    obtain ⟨t', y', e'⟩ := hk j
    rw [e']
    exact h _ _

theorem keepsSpeedLimit {T : Tableau ℝ s} {cls : Rhs ℝ n → Solver ℝ n 0 X} {starts : Rhs ℝ n → ℝ → Vec ℝ n → St ℝ n 0 X → Prop}
    (hM : ∀ rhs, WellConfigured (cls rhs).method) (h0 : StartsAt cls starts) (hS : RKSteps T cls) (hB : ∀ j, 0 ≤ T.B j) (h1 : ∑ j, T.B j = 1) :
    KeepsSpeedLimit cls starts := by
  intro f t0 y0 i a s u v l l' hs hh hp hq
  have hst : s.t = t0 := h0.times _ _ _ _ hs _
  have hsy : s.y = y0 := h0.y _ _ _ _ hs
  have hsf : s.f = f s.t s.y := by rw [hst, hsy]; exact (Except.ok.inj (h0.f _ _ _ _ hs)).symm
  have huf : u.f = f u.t u.y := by
    clear hq h1 hst hsy hs hh
    induction hp with
    | nil => exact hsf
    | cons _ htk _ ih =>
      obtain ⟨x, K, -, -, -, a3⟩ := hS f _ _ hsf htk
      exact ih a3
  have huh := (path_pos (hM _) hp hh).1
  clear hp hs hh hst hsy hsf
  induction hq with
  | nil p => simp
  | @cons p p1 v l' _ htk hq ih =>
    obtain ⟨x, K, hK, a1, a2, a3⟩ := hS f _ _ huf htk
    obtain ⟨c1, c2⟩ := C11_step_increases _ (hM _) _ _ huh htk
    obtain ⟨r1, r2⟩ := ih a3 c2
    have hx : 0 ≤ x := by rw [a1] at c1; linarith
    obtain ⟨q1, q2⟩ := step_speed (a := a) hB h1 hx hK i
    rw [← a2] at q1 q2
    have hxt : x = p1.t - p.t := by rw [a1]; ring
    rw [hxt] at q1 q2
    constructor
    · intro h
      have := r1 h
      have := q1 h
      linarith
    · intro h
      have := r2 h
      have := q2 h
      linarith

/-- **C117** (partial) An explicit fixed-step Runge-Kutta class without negative weights. Missing: classes with negative weights, see the refutations. -/
theorem C117_erk_partial {T : Tableau ℝ s} (hT : Explicit T) (hB : ∀ j, 0 ≤ T.B j) (h1 : ∑ j, T.B j = 1) (b : Bound ℝ) :
    KeepsSpeedLimit (fun rhs : Rhs ℝ n => (⟨erk T, rhs, b⟩ : Solver ℝ n 0 (ErkAux ℝ n s))) erkStarts :=
  keepsSpeedLimit (fun _ => Or.inl (.erk _)) (erk_startsAt T b) (erk_steps hT b) hB h1

/-- **C117** (partial) `Runge2`, `Runge3`, `Heun3`, `RungeKutta4`, `RungeKutta3_8`. -/
theorem C117_RungeKutta_partial (b : Bound ℝ) :
    KeepsSpeedLimit (fun rhs : Rhs ℝ n => (⟨erk Runge2, rhs, b⟩ : Solver ℝ n 0 (ErkAux ℝ n 1))) erkStarts ∧
    KeepsSpeedLimit (fun rhs : Rhs ℝ n => (⟨erk Runge3, rhs, b⟩ : Solver ℝ n 0 (ErkAux ℝ n 3))) erkStarts ∧
    KeepsSpeedLimit (fun rhs : Rhs ℝ n => (⟨erk Heun3, rhs, b⟩ : Solver ℝ n 0 (ErkAux ℝ n 2))) erkStarts ∧
    KeepsSpeedLimit (fun rhs : Rhs ℝ n => (⟨erk RungeKutta4, rhs, b⟩ : Solver ℝ n 0 (ErkAux ℝ n 3))) erkStarts ∧
    KeepsSpeedLimit (fun rhs : Rhs ℝ n => (⟨erk RungeKutta3_8, rhs, b⟩ : Solver ℝ n 0 (ErkAux ℝ n 3))) erkStarts := by
  refine ⟨C117_erk_partial Runge2_conditions.explicit ?_ ?_ b, C117_erk_partial Runge3_conditions.explicit ?_ ?_ b,
    C117_erk_partial Heun3_conditions.explicit ?_ ?_ b, C117_erk_partial RungeKutta4_conditions.explicit ?_ ?_ b,
    C117_erk_partial RungeKutta3_8_conditions.explicit ?_ ?_ b⟩
  · intro j; fin_cases j <;> norm_num [Runge2, q]
  · norm_num [Runge2, q, Fin.sum_univ_succ]
  · intro j; fin_cases j <;> norm_num [Runge3, q]
  · norm_num [Runge3, q, Fin.sum_univ_succ]
  · intro j; fin_cases j <;> norm_num [Heun3, q]
  · norm_num [Heun3, q, Fin.sum_univ_succ]
  · intro j; fin_cases j <;> norm_num [RungeKutta4, q]
  · norm_num [RungeKutta4, q, Fin.sum_univ_succ]
  · intro j; fin_cases j <;> norm_num [RungeKutta3_8, q]
  · norm_num [RungeKutta3_8, q, Fin.sum_univ_succ]

/-- **C117** (partial) `ForwardEuler`. -/
theorem C117_ForwardEuler_partial (b : Bound ℝ) :
    KeepsSpeedLimit (fun rhs : Rhs ℝ n => (⟨explicitMultistep ForwardEuler, rhs, b⟩ : Solver ℝ n 0 Unit)) eulerStarts :=
  keepsSpeedLimit (fun _ => Or.inl (.explicitMultistep _)) (euler_startsAt b) (euler_steps b) (fun _ => zero_le_one) (by simp [eulerTableau])

/-- **C117** (partial) `RungeKutta23`, whatever the tolerances. -/
theorem C117_RungeKutta23_partial {lib : Lib ℝ} (hl : RealFunctions lib) (o : VarOptions ℝ) (ho : ShrinkingOptions o) (b : Bound ℝ) :
    KeepsSpeedLimit (fun rhs : Rhs ℝ n => (⟨fsal lib o RungeKutta23, rhs, b⟩ : Solver ℝ n 0 (FsalAux ℝ n 2 (RkItp ℝ n 3)))) (fsalStarts RungeKutta23 o) := by
  have hex : (0 : ℝ) ≤ (RungeKutta23 : FsalCoef ℝ 2 3).errorExponent := by norm_num [RungeKutta23, q]
  exact keepsSpeedLimit (T := (RungeKutta23 : FsalCoef ℝ 2 3).toTableau)
    (fun _ => Or.inr ⟨lib, o, _, .fsal _, real_powLaw hl, sane_of_shrinking ho, hex⟩) (fsal_startsAt _ lib o b)
    (fsalBody_steps RungeKutta23_conditions.explicit lib o (real_powLaw hl) (sane_of_shrinking ho) _ hex _ b _)
    (by intro j; fin_cases j <;> norm_num [RungeKutta23, q]) (by norm_num [RungeKutta23, q, Fin.sum_univ_succ])

theorem bump_continuous_time {m : ℕ} (c : Fin m → ℝ) (i : Fin m) (e h : ℝ) : Continuous fun t => bump c i e h t 0 0 := by
  unfold bump
  refine continuous_const.mul (continuous_finset_prod _ fun j _ => ?_)
  split_ifs <;> fun_prop

theorem bump_nonneg {m : ℕ} (c : Fin m → ℝ) (i : Fin m) {e : ℝ} (he : 0 ≤ e) (h t : ℝ) (y : Vec ℝ 1) (d : Fin 1) : 0 ≤ bump c i e h t y d :=
  mul_nonneg he (Finset.prod_nonneg fun j _ => by split_ifs <;> positivity)

/-- **C117** (refuted) `RungeKutta45`, which has a negative weight, at every step size and whatever the tolerances. -/
theorem C117_refuted_RungeKutta45 {lib : Lib ℝ} (hl : RealFunctions lib) (o : VarOptions ℝ) (ha : 0 < o.atol) (hr : 0 ≤ o.rtol) (b : Bound ℝ) :
    FallsOnRise fun rhs => (⟨fsal lib o RungeKutta45, rhs, b⟩ : Solver ℝ 1 0 (FsalAux ℝ 1 5 (RkItp ℝ 1 4))) := by
  intro h hh
  obtain ⟨e, he, hE⟩ := bump_small 4 (RungeKutta45 : FsalCoef ℝ 5 4).toTableau (RungeKutta45 : FsalCoef ℝ 5 4).E hh ha
  refine ⟨fun t => bump (withLast (RungeKutta45 : FsalCoef ℝ 5 4).toTableau).C 4 e h t 0 0, bump_continuous_time _ _ _ _,
    fun t => bump_nonneg _ _ he.le _ _ _ _, fun st h1 h2 h3 h4 => ?_⟩
  have hK := bump_stages (T := (RungeKutta45 : FsalCoef ℝ 5 4).toTableau) 4 e hh (0 : Vec ℝ 1)
  obtain ⟨st', g1, g2⟩ := fsal_accepts hl ha hr (RungeKutta45_conditions (α := ℝ)).explicit b
    (bump (withLast (RungeKutta45 : FsalCoef ℝ 5 4).toTableau).C 4 e h) st (by rw [h3, h1]; rfl)
    (K := fun j _ => if (withLast (RungeKutta45 : FsalCoef ℝ 5 4).toTableau).C j = (withLast (RungeKutta45 : FsalCoef ℝ 5 4).toTableau).C 4 then e else 0)
    (by rw [h1, h2, h4]; exact hK) (by rw [h4]; exact hE)
  refine ⟨st', g1, ?_⟩
  rw [g2, h2, h4]
  refine bump_new 4 he hh ?_
  simp [Fin.sum_univ_succ, withLast, RungeKutta45, q]
  norm_num

/-- **C117** (refuted) `DOP853`. -/
theorem C117_refuted_DOP853 {lib : Lib ℝ} (hl : RealFunctions lib) (o : VarOptions ℝ) (ha : 0 < o.atol) (hr : 0 ≤ o.rtol) (b : Bound ℝ) :
    FallsOnRise fun rhs => (⟨dop853 lib o DOP853, rhs, b⟩ : Solver ℝ 1 0 (FsalAux ℝ 1 11 (DopItp ℝ 1))) := by
  intro h hh
  obtain ⟨e, he, hE⟩ := bump_small 7 (DOP853 : DopCoef ℝ).toTableau (DOP853 : DopCoef ℝ).E5 hh ha
  refine ⟨fun t => bump (withLast (DOP853 : DopCoef ℝ).toTableau).C 7 e h t 0 0, bump_continuous_time _ _ _ _,
    fun t => bump_nonneg _ _ he.le _ _ _ _, fun st h1 h2 h3 h4 => ?_⟩
  have hK := bump_stages (T := (DOP853 : DopCoef ℝ).toTableau) 7 e hh (0 : Vec ℝ 1)
  obtain ⟨st', g1, g2⟩ := dop_accepts hl ha hr (DOP853_explicit (α := ℝ)) b
    (bump (withLast (DOP853 : DopCoef ℝ).toTableau).C 7 e h) st (by rw [h3, h1]; rfl)
    (K := fun j _ => if (withLast (DOP853 : DopCoef ℝ).toTableau).C j = (withLast (DOP853 : DopCoef ℝ).toTableau).C 7 then e else 0)
    (by rw [h1, h2, h4]; exact hK) (by
      rw [h4]
      simp only [dop_node, mul_ite, mul_zero, Finset.sum_ite_eq', Finset.mem_univ, if_true]
      refine mul_ne_zero hh.ne' (mul_ne_zero ?_ he.ne')
      simp [DOP853, dopE5, q]) (by rw [h4]; exact hE)
  refine ⟨st', g1, ?_⟩
  rw [g2, h2, h4]
  refine bump_new 7 he hh ?_
  have e1 : ∀ j : Fin 12, (withLast (DOP853 : DopCoef ℝ).toTableau).C j.castSucc = (withLast (DOP853 : DopCoef ℝ).toTableau).C 7 ↔ j = 7 := by
    intro j
    rw [dop_node]
    exact ⟨fun h => Fin.castSucc_injective _ (show j.castSucc = Fin.castSucc 7 from h), fun h => by rw [h]; rfl⟩
  simp only [e1, Finset.sum_ite_eq', Finset.mem_univ, if_true]
  simp [DOP853, dopB, q]

/-- A hat over the time `j h`. -/
noncomputable def hat (j : ℕ) (h t : ℝ) : ℝ := max 0 (1 - |t / h - j|)

theorem hat_node (i j : ℕ) {h : ℝ} (hh : 0 < h) : hat j h (i * h) = if i = j then 1 else 0 := by
  unfold hat
  rw [mul_div_cancel_right₀ _ hh.ne']
  split_ifs with e
  · simp [e]
  · refine max_eq_left (sub_nonpos.mpr ?_)
    have h1 : (i : ℤ) - j ≠ 0 := fun h => e (by omega)
    have h2 := Int.one_le_abs h1
    exact_mod_cast h2

theorem adams_falls {p : ℕ} {c : MultistepCoef ℝ (p + 1)} (hA : c.A = adamsA (p + 1)) (j : Fin (p + 2)) (hj : c.B j < 0) (b : Bound ℝ) :
    FallsAfterStart fun rhs => (⟨explicitMultistep c, rhs, b⟩ : Solver ℝ 1 (histExtra (p + 1)) Unit) := by
  intro h hh
  refine ⟨hat j.val h, by unfold hat; fun_prop, fun t => le_max_left _ _, fun s ht hf hs => ?_⟩
  refine ⟨_, rfl, ?_⟩
  have e1 : vdot (fun j => s.h * c.B j) (lastRows s.cache.fs) 0 = h * c.B j := by
    rw [vdot_apply, Finset.sum_eq_single j]
    · show s.h * c.B j * s.cache.fs _ 0 = _
      rw [hf, ht, hs]
      simp only [histExtra]
      have : p + 1 - 1 + 2 - (p + 1 + 1) + j.val = j.val := by omega
      rw [this, hat_node _ _ hh, if_pos rfl, mul_one]
    · intro i _ hi
      show s.h * c.B i * s.cache.fs _ 0 = _
      rw [hf, ht]
      simp only [histExtra]
      have : p + 1 - 1 + 2 - (p + 1 + 1) + i.val = i.val := by omega
      rw [this, hat_node _ _ hh, if_neg fun h => hi (Fin.ext h), mul_zero]
    · simp
  have e2 : vdot c.A (lastRows s.cache.ys) 0 = -s.y 0 := by
    rw [vdot_apply, hA, Finset.sum_eq_single (Fin.last (p + 1))]
    · simp only [adamsA, Fin.val_last, if_true, neg_mul, one_mul]
      unfold lastRows St.y Buffer.y Buffer.iLast
      congr 3
      simp only [histExtra, Fin.mk.injEq, Fin.val_last]
      omega
    · intro i _ hi
      have : i.val ≠ p + 1 := fun h => hi (Fin.ext h)
      simp [adamsA, this]
    · simp
  have e3 : multistepK c s.cache s.h 0 = h * c.B j + s.y 0 := by
    show vdot (fun j => s.h * c.B j) (lastRows s.cache.fs) 0 - vdot c.A (lastRows s.cache.ys) 0 = _
    rw [e1, e2]
    ring
  rw [St.y, push_y, e3]
  have := mul_neg_of_pos_of_neg hh hj
  linarith

/-- **C117** (refuted) `AdamsBashforth2` to `5`, at every step size. -/
theorem C117_refuted_AdamsBashforth (b : Bound ℝ) :
    (FallsAfterStart fun rhs => (⟨explicitMultistep AdamsBashforth2, rhs, b⟩ : Solver ℝ 1 (histExtra 1) Unit)) ∧
    (FallsAfterStart fun rhs => (⟨explicitMultistep AdamsBashforth3, rhs, b⟩ : Solver ℝ 1 (histExtra 2) Unit)) ∧
    (FallsAfterStart fun rhs => (⟨explicitMultistep AdamsBashforth4, rhs, b⟩ : Solver ℝ 1 (histExtra 3) Unit)) ∧
    (FallsAfterStart fun rhs => (⟨explicitMultistep AdamsBashforth5, rhs, b⟩ : Solver ℝ 1 (histExtra 4) Unit)) :=
  ⟨adams_falls rfl 1 (by norm_num [AdamsBashforth2, q]) b, adams_falls rfl 1 (by norm_num [AdamsBashforth3, q]) b,
    adams_falls rfl 1 (by norm_num [AdamsBashforth4, q]) b, adams_falls rfl 1 (by norm_num [AdamsBashforth5, q]) b⟩

namespace Demo

/-- `AdamsBashforth2` with a step of size 1/1000, after its start-up. -/
example : ∃ (g : ℝ → ℝ) (s s' : St ℝ 1 (histExtra 1) Unit), (∀ t, 0 ≤ g t) ∧ s.t = 1/1000 ∧ s.h = 1/1000 ∧
    Takes ⟨explicitMultistep AdamsBashforth2, pureRhs fun t _ _ => g t, .inf⟩ s s' ∧ s'.y 0 < s.y 0 := by
  obtain ⟨g, -, h1, h2⟩ := (C117_refuted_AdamsBashforth .inf).1 (1/1000) (by norm_num)
  obtain ⟨s', h3, h4⟩ := h2 ⟨⟨fun i => i.val * (1/1000), fun _ => 0, fun i _ => g (i.val * (1/1000))⟩, 1/1000, ()⟩ (fun _ => rfl) (fun _ => rfl) rfl
  refine ⟨g, _, s', h1, ?_, rfl, h3, h4⟩
  simp [St.t, Buffer.t, Buffer.iLast, histExtra]

/-- `y' = 2 + sin t`: with `ForwardEuler` and steps of size 10 the solution rises with a speed between 1 and 3. -/
example : ∃ s : St ℝ 1 0 Unit, eulerStarts (pureRhs fun t _ _ => 2 + Real.sin t) 0 0 s ∧ s.h = 10 ∧
    ∀ l v, Path ⟨explicitMultistep ForwardEuler, pureRhs fun t _ _ => 2 + Real.sin t, .inf⟩ .inf s l v →
      1 * (v.t - s.t) ≤ v.y 0 - s.y 0 ∧ v.y 0 - s.y 0 ≤ 3 * (v.t - s.t) := by
  obtain ⟨s, hs, h1⟩ := euler_started (fun t _ _ => 2 + Real.sin t) 0 10 0
  refine ⟨s, hs, h1, fun l v hv => ?_⟩
  have hp : 0 < s.h := by rw [h1]; norm_num
  have k := fun a => C117_ForwardEuler_partial .inf (fun t _ _ => 2 + Real.sin t) 0 0 0 a s s v [] l hs hp (.nil s) hv
  exact ⟨(k 1).1 fun t _ => by linarith [Real.neg_one_le_sin t], (k 3).2 fun t _ => by linarith [Real.sin_le_one t]⟩

/-- `RungeKutta23` with the default options on `y' = 1 / (1 + y²)`: constructed, it never falls. -/
example : ∃ st, fsalStarts RungeKutta23 .default (pureRhs fun _ y i => 1 / (1 + (y i) ^ 2)) 0 (0 : Vec ℝ 1) st ∧ st.h = 1 ∧
    ∀ l v, Path ⟨fsal realLib .default RungeKutta23, pureRhs fun _ y i => 1 / (1 + (y i) ^ 2), .inf⟩ .inf st l v → st.y 0 ≤ v.y 0 := by
  obtain ⟨st, -, h1, hs⟩ := default_starts (n := 1) RungeKutta23 (fun _ y i => 1 / (1 + (y i) ^ 2)) 0 0 1 (fun _ _ _ _ => .ok 1) ⟨0, 0, 0⟩ 0 ⟨0, 0⟩
  refine ⟨st, hs, h1, fun l v hv => ?_⟩
  have := (C117_RungeKutta23_partial realLib_real _ default_shrinking .inf (fun _ y i => 1 / (1 + (y i) ^ 2)) 0 0 0 0 st st v [] l hs
    (by rw [h1]; exact one_pos) (.nil st) hv).1 fun t y => by positivity
  linarith

/-- `RungeKutta45` with the default options makes a step of size 1/1000 down although the derivative is never negative. -/
example : ∃ (g : ℝ → ℝ) (s s' : St ℝ 1 0 (FsalAux ℝ 1 5 (RkItp ℝ 1 4))), (∀ t, 0 ≤ g t) ∧ s.y 0 = 0 ∧ s.h = 1/1000 ∧
    Takes ⟨fsal realLib .default RungeKutta45, pureRhs fun t _ _ => g t, .inf⟩ s s' ∧ s'.y 0 < 0 := by
  obtain ⟨g, -, h1, h2⟩ := C117_refuted_RungeKutta45 realLib_real (.default : VarOptions ℝ) (by norm_num [VarOptions.default]) (by norm_num [VarOptions.default])
    .inf (1/1000) (by norm_num)
  obtain ⟨s', h3, h4⟩ := h2 ⟨⟨fun _ => 0, fun _ => 0, fun _ _ => g 0⟩, 1/1000, ⟨0, ⟨0, 0⟩⟩⟩ rfl rfl rfl rfl
  exact ⟨g, _, s', h1, rfl, rfl, h3, h4⟩

end Demo

end Nbkode
