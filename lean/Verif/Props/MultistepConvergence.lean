import Verif.Proofs.MultistepPath
import Verif.Proofs.StableFormulas
import Verif.Props.ImplicitScalar
import Verif.Props.MultistepOrders
import Verif.Props.Convergence
import Mathlib.Analysis.SpecialFunctions.ExpDeriv

/-!
# Convergence of the multistep methods: C70
-/

set_option autoImplicit false
set_option linter.unusedSectionVars false

namespace Nbkode
open Py Spec Solver

variable {n p : ℕ}

/-! ### Steps and their formulas -/

theorem explicit_within (c : MultistepCoef ℝ p) (hc : c.Bn = 0) (b : Bound ℝ) (f : ℝ → Vec ℝ n → Vec ℝ n)
    (u v : St ℝ n (histExtra p) Unit) (h : Takes ⟨explicitMultistep c, pureRhs f, b⟩ u v) : StepWithin c f 0 u v := by
  obtain ⟨y', f', h1, h2, rfl⟩ := (explicit_takes_iff c hc _ b u v).mp h
  cases h2
  exact ⟨y', rfl, fun d => by rw [h1]; simp⟩

theorem abs_le_euclid {lib : Lib ℝ} (hlib : ∀ x, lib.sqrt x = Real.sqrt x) (v : Vec ℝ n) (d : Fin n) : |v d| ≤ |euclid lib v| := by
  unfold euclid
  rw [hlib, abs_of_nonneg (Real.sqrt_nonneg _), ← Real.sqrt_sq_eq_abs]
  exact Real.sqrt_le_sqrt (Finset.single_le_sum (f := fun i => v i ^ 2) (fun i _ => sq_nonneg _) (Finset.mem_univ d))

/-- A successful implicit step misses its formula by at most three times the tolerance, when `h` is small. -/
theorem implicit_within {lib : Lib ℝ} (hlib : ∀ x, lib.sqrt x = Real.sqrt x) (c : MultistepCoef ℝ p) (b : Bound ℝ) (f : ℝ → Vec ℝ n → Vec ℝ n) (L : ℝ)
    (hL0 : 0 ≤ L) (hL : ∀ t u v, (∀ d, |f t u d - f t v d| ≤ L * ‖(u - v : Fin n → ℝ)‖)) :
    ∃ δ, 0 < δ ∧ ∀ zo, RootOpts zo → ∀ u v : St ℝ n (histExtra p) Unit, 0 < u.h → u.h ≤ δ →
      Takes ⟨implicitMultistep lib zo c, pureRhs f, b⟩ u v → StepWithin c f (3 * zo.tol) u v := by
  refine ⟨1 / (2 * |c.Bn| * L + 1), by positivity, fun zo hzo u v hh hδ h => ?_⟩
  obtain ⟨he, ht, hz⟩ := hzo
  by_cases hn : n = 1
  · subst hn
    obtain ⟨y', rfl, h1⟩ := implicit_scalar lib zo he ht hz c f L b u v (fun x z => by
      have := hL (u.t + u.h) x z 0
      have e : ‖(x - z : Fin 1 → ℝ)‖ = |x 0 - z 0| := by
        rw [Pi.norm_def]; simp
      rwa [e] at this) h
    refine ⟨y', rfl, fun d => ?_⟩
    rw [Subsingleton.elim d 0]
    refine h1.trans (mul_le_mul_of_nonneg_right ?_ ht)
    have h2 : u.h * (2 * |c.Bn| * L + 1) ≤ 1 := by
      have := mul_le_mul_of_nonneg_right hδ (by positivity : 0 ≤ 2 * |c.Bn| * L + 1)
      rwa [one_div, inv_mul_cancel₀ (by positivity)] at this
    rw [abs_mul, abs_of_pos hh]
    nlinarith
  · obtain ⟨y', f', hf, rfl, h1⟩ := implicit_residual lib zo c (pureRhs f) b hn u v h
    cases hf
    exact ⟨y', rfl, fun d => (abs_le_euclid hlib _ d).trans (h1.trans (by linarith))⟩

/-! ### Dahlquist's theorem for the solvers of the package -/

/-- **C70**, explicit methods in general: a zero-stable formula which is exact on polynomials of degree `q ≥ 1` gives a method
which converges with order `q`. -/
theorem C70_explicit {q : ℕ} (hq : 1 ≤ q) (c : MultistepCoef ℝ p) (hc : c.Bn = 0) (hst : ZeroStable c)
    (hx : ExactOnPolynomials c q) (b : Bound ℝ) :
    MultistepConverges (fun rhs : Rhs ℝ n => ⟨explicitMultistep c, rhs, b⟩) q :=
  explicit_converges hq hc hst hx _ fun f u v h => explicit_within c hc b f u v h

/-- **C70**, implicit methods in general. -/
theorem C70_implicit {q : ℕ} (c : MultistepCoef ℝ p) (hst : ZeroStable c) (hx : ExactOnPolynomials c q) (lib : Lib ℝ)
    (hlib : ∀ x, lib.sqrt x = Real.sqrt x) (b : Bound ℝ) :
    ConvergesWithin (fun zo (rhs : Rhs ℝ n) => ⟨implicitMultistep lib zo c, rhs, b⟩) q :=
  implicit_converges hst hx _ fun f L hL0 hL => implicit_within hlib c b f L hL0 hL

/-- **C70**: `AdamsBashforth1` (`ForwardEuler`) converges with order 1. -/
theorem C70_AB1 (b : Bound ℝ) : MultistepConverges (fun rhs : Rhs ℝ n => ⟨explicitMultistep AdamsBashforth1, rhs, b⟩) 1 :=
  C70_explicit le_rfl _ rfl (stable_adams _ rfl) C29_AB1 b

/-- **C70**, `AdamsBashforth2` to `5` as coded: order 1. Missing: the orders 2 to 5 (see `C70_AB_refuted`). -/
theorem C70_AB_partial (b : Bound ℝ) :
    MultistepConverges (fun rhs : Rhs ℝ n => ⟨explicitMultistep AdamsBashforth2, rhs, b⟩) 1 ∧
    MultistepConverges (fun rhs : Rhs ℝ n => ⟨explicitMultistep AdamsBashforth3, rhs, b⟩) 1 ∧
    MultistepConverges (fun rhs : Rhs ℝ n => ⟨explicitMultistep AdamsBashforth4, rhs, b⟩) 1 ∧
    MultistepConverges (fun rhs : Rhs ℝ n => ⟨explicitMultistep AdamsBashforth5, rhs, b⟩) 1 :=
  ⟨C70_explicit le_rfl _ rfl (stable_adams _ rfl) C29_AB2_partial b,
    C70_explicit le_rfl _ rfl (stable_adams _ rfl) C29_AB3_partial b,
    C70_explicit le_rfl _ rfl (stable_adams _ rfl) C29_AB4_partial b,
    C70_explicit le_rfl _ rfl (stable_adams _ rfl) C29_AB5_partial b⟩

section implicit
variable (lib : Lib ℝ) (hlib : ∀ x, lib.sqrt x = Real.sqrt x) (b : Bound ℝ)
include hlib

/-- **C70**: `AdamsMoulton1`, `2`, `3` (and `BackwardEuler`, which is `AdamsMoulton1`) converge with orders 1, 2, 3, up to the
tolerance of the root finder divided by `h`. -/
theorem C70_AM :
    ConvergesWithin (fun zo (rhs : Rhs ℝ n) => ⟨implicitMultistep lib zo AdamsMoulton1, rhs, b⟩) 1 ∧
    ConvergesWithin (fun zo (rhs : Rhs ℝ n) => ⟨implicitMultistep lib zo AdamsMoulton2, rhs, b⟩) 2 ∧
    ConvergesWithin (fun zo (rhs : Rhs ℝ n) => ⟨implicitMultistep lib zo AdamsMoulton3, rhs, b⟩) 3 :=
  ⟨C70_implicit _ (stable_adams _ rfl) C30_AM1 lib hlib b,
    C70_implicit _ (stable_adams _ rfl) C30_AM2 lib hlib b,
    C70_implicit _ (stable_adams _ rfl) C30_AM3 lib hlib b⟩

/-- **C70**, `AdamsMoulton4`, `5` as coded: order 1. Missing: the orders 4 and 5 (see `C70_AM_refuted`). -/
theorem C70_AM_partial :
    ConvergesWithin (fun zo (rhs : Rhs ℝ n) => ⟨implicitMultistep lib zo AdamsMoulton4, rhs, b⟩) 1 ∧
    ConvergesWithin (fun zo (rhs : Rhs ℝ n) => ⟨implicitMultistep lib zo AdamsMoulton5, rhs, b⟩) 1 :=
  ⟨C70_implicit _ (stable_adams _ rfl) C30_AM4_partial lib hlib b,
    C70_implicit _ (stable_adams _ rfl) C30_AM5_partial lib hlib b⟩

/-- **C70**: `BDFk` converges with order `k`, up to the tolerance of the root finder divided by `h`. -/
theorem C70_BDF :
    ConvergesWithin (fun zo (rhs : Rhs ℝ n) => ⟨implicitMultistep lib zo BDF1, rhs, b⟩) 1 ∧
    ConvergesWithin (fun zo (rhs : Rhs ℝ n) => ⟨implicitMultistep lib zo BDF2, rhs, b⟩) 2 ∧
    ConvergesWithin (fun zo (rhs : Rhs ℝ n) => ⟨implicitMultistep lib zo BDF3, rhs, b⟩) 3 ∧
    ConvergesWithin (fun zo (rhs : Rhs ℝ n) => ⟨implicitMultistep lib zo BDF4, rhs, b⟩) 4 ∧
    ConvergesWithin (fun zo (rhs : Rhs ℝ n) => ⟨implicitMultistep lib zo BDF5, rhs, b⟩) 5 ∧
    ConvergesWithin (fun zo (rhs : Rhs ℝ n) => ⟨implicitMultistep lib zo BDF6, rhs, b⟩) 6 :=
  ⟨C70_implicit _ stable_BDF1 C31_BDF1 lib hlib b, C70_implicit _ stable_BDF2 C31_BDF2 lib hlib b,
    C70_implicit _ stable_BDF3 C31_BDF3 lib hlib b, C70_implicit _ stable_BDF4 C31_BDF4 lib hlib b,
    C70_implicit _ stable_BDF5 C31_BDF5 lib hlib b, C70_implicit _ stable_BDF6 C31_BDF6 lib hlib b⟩

end implicit

/-! ### The reversed methods do not have order 2 -/

theorem paths_exist {S : Solver ℝ n (histExtra p) Unit} (hS : ∀ u, ∃ v, Takes S u v) (m : ℕ) (u : St ℝ n (histExtra p) Unit) :
    ∃ l v, l.length = m ∧ Path S .inf u l v := by
  induction m generalizing u with
  | zero => exact ⟨[], u, rfl, .nil u⟩
  | succ m ih =>
    obtain ⟨v, hv⟩ := hS u
    obtain ⟨l, w, h1, h2⟩ := ih v
    exact ⟨v :: l, w, by simp [h1], .cons trivial hv h2⟩

theorem sampled_follows (p : ℕ) (h : ℝ) (f : ℝ → Vec ℝ n → Vec ℝ n) (y : ℝ → Vec ℝ n) :
    Follows f y 0 (sampled p h y fun t => f t (y t)) := by
  have hs := sampled_samples p h y fun t => f t (y t)
  have eh : (sampled p h y fun t => f t (y t)).h = h := rfl
  refine ⟨fun i hi => (hs i hi).1, fun i hi d => ?_, fun i hi => ?_⟩
  · rw [(hs i hi).2.1, eh]; simp
  · rw [(hs i hi).2.1, (hs i hi).2.2, eh]

theorem lineRhs_smooth (q : ℕ) : ContDiff ℝ q (joint (n := 1) fun t _ _ => 2 * t) :=
  contDiff_pi.mpr fun _ => contDiff_const.mul contDiff_fst

theorem parabola_solves (t : ℝ) : SolvesAt (n := 1) (fun t _ _ => 2 * t) (fun t _ => t ^ 2) t := by
  refine hasDerivAt_pi.mpr fun _ => ?_
  simpa using hasDerivAt_pow 2 t

/-- On `y' = 2t`, a formula of Adams type which misses `t^2` by `κ h^2` in each step is off by `m κ h^2` after `m` steps. -/
theorem drift {c : MultistepCoef ℝ p} (hA : c.A = adamsA p) {κ : ℝ}
    (hκ : ∀ t h : ℝ, h * (c.Bn * (2 * (t + h)) + ∑ i : Fin (p + 1), c.B i.rev * (2 * (t - (i : ℕ) * h))) =
      (t + h) ^ 2 - t ^ 2 - κ * h ^ 2) {S : Solver ℝ 1 (histExtra p) Unit} (hS : ∀ u, ∃ v, Takes S u v)
    (hw : ∀ u v : St ℝ 1 (histExtra p) Unit, Takes S u v → StepWithin c (fun t _ _ => 2 * t) 0 u v) (h : ℝ) (m : ℕ) :
    ∃ l v, Path S .inf (sampled p h (fun t _ => t ^ 2) fun t _ => 2 * t) l v ∧
      ∃ u ∈ l, u.t = ((m : ℝ) + 1) * h ∧ u.y 0 = u.t ^ 2 - κ * h * u.t := by
  obtain ⟨l, v, hl, hp⟩ := paths_exist hS (m + 1) (sampled p h (fun t _ => t ^ 2) fun t _ => 2 * t)
  have hfo : Follows (n := 1) (p := p) (fun t _ _ => 2 * t) (fun t _ => t ^ 2) 0 (sampled p h (fun t _ => t ^ 2) fun t _ => 2 * t) :=
    sampled_follows p h (fun t _ _ => 2 * t) fun t _ => t ^ 2
  obtain ⟨X, h1, h2⟩ := path_points (h := h) (fun u v _ => hw u v) hp rfl hfo.derivs
  refine ⟨l, v, hp, l[m]'(by omega), List.getElem_mem _, ?_⟩
  have e0 := sampled_t p h (fun t (_ : Fin 1) => t ^ 2) fun t _ => 2 * t
  have eh : (sampled p h (fun t (_ : Fin 1) => t ^ 2) fun t _ => 2 * t).h = h := rfl
  rw [e0, eh] at h2
  have hX : ∀ k ≤ m + 1, X (p + k) 0 = ((k : ℝ) * h) ^ 2 - κ * h * (k * h) := by
    intro k
    induction k with
    | zero =>
      intro _
      have h3 := (sampled_samples p h (fun t (_ : Fin 1) => t ^ 2) fun t _ => 2 * t) 0 (by omega)
      rw [e0] at h3
      have h4 := h1 0 (by omega)
      rw [h3.2.1] at h4
      have h5 := congrFun h4 0
      simp only [Nat.sub_zero] at h5
      rw [add_zero, ← h5]
      simp
    | succ k ih =>
      intro hk
      have h3 := (h2 k (by omega)).2.2 0
      have h4 := abs_nonpos_iff.mp h3
      have h5 : ∑ i : Fin (p + 1), c.A i.rev * X (p + k - i) 0 = -X (p + k) 0 := by
        rw [Finset.sum_eq_single 0]
        · simp [hA, adamsA, Fin.rev]
        · intro i _ hi
          have : i.rev.val ≠ p := by
            rw [Fin.val_rev]
            have : i.val ≠ 0 := fun h => hi (Fin.ext h)
            omega
          rw [hA, adamsA, if_neg this, zero_mul]
        · simp
      rw [h5, ih (by omega)] at h4
      have h6 := hκ (k * h) h
      have e1 : ∀ i : Fin (p + 1), (0 : ℝ) + ((k : ℝ) - (i : ℕ)) * h = k * h - (i : ℕ) * h := fun i => by ring
      have e2 : (0 : ℝ) + ((k : ℝ) + 1) * h = k * h + h := by ring
      simp only [e1, e2] at h4
      rw [h6] at h4
      rw [← add_assoc]
      push_cast
      linear_combination h4
  obtain ⟨g1, g2, -⟩ := h2 m (by omega)
  refine ⟨by rw [g2, zero_add], ?_⟩
  rw [g1, g2, add_assoc p, hX (m + 1) le_rfl]
  push_cast
  ring

/-- No order 2 with such a drift. -/
theorem drift_contradiction {p : ℕ} {κ : ℝ} (hκ : 0 < κ) {S : Solver ℝ 1 (histExtra p) Unit}
    (hd : ∀ (h : ℝ) (m : ℕ), ∃ l v, Path S .inf (sampled p h (fun t _ => t ^ 2) fun t _ => 2 * t) l v ∧
      ∃ u ∈ l, u.t = ((m : ℝ) + 1) * h ∧ u.y 0 = u.t ^ 2 - κ * h * u.t) (C δ : ℝ) (hδ : 0 < δ)
    (hC : ∀ (s s' : St ℝ 1 (histExtra p) Unit) (l : List (St ℝ 1 (histExtra p) Unit)), 0 < s.h → s.h ≤ δ →
      -1 ≤ s.t - p * s.h → Follows (n := 1) (fun t _ _ => 2 * t) (fun t _ => t ^ 2) 0 s → Path S .inf s l s' →
      ∀ u ∈ l, u.t ≤ 1 → |u.y 0 - u.t ^ 2| ≤ C * s.h ^ 2) : False := by
  obtain ⟨m, hm⟩ := exists_nat_gt (max (1 / δ) (max (C / κ) p))
  have m1 : 1 / δ < m := (le_max_left _ _).trans_lt hm
  have m2 : C / κ < m := ((le_max_left _ _).trans (le_max_right _ _)).trans_lt hm
  have m3 : (p : ℝ) < m := ((le_max_right _ _).trans (le_max_right _ _)).trans_lt hm
  have hm0 : (0 : ℝ) < (m : ℝ) + 1 := by positivity
  set h : ℝ := 1 / ((m : ℝ) + 1) with hh
  have hhm : ((m : ℝ) + 1) * h = 1 := by rw [hh]; field_simp
  have hh0 : 0 < h := by positivity
  obtain ⟨l, v, hp, u, hu, ht, hy⟩ := hd h m
  have e0 := sampled_t p h (fun t (_ : Fin 1) => t ^ 2) fun t _ => 2 * t
  have eh : (sampled p h (fun t (_ : Fin 1) => t ^ 2) fun t _ => 2 * t).h = h := rfl
  have hfo : Follows (n := 1) (p := p) (fun t _ _ => 2 * t) (fun t _ => t ^ 2) 0 (sampled p h (fun t _ => t ^ 2) fun t _ => 2 * t) :=
    sampled_follows p h (fun t _ _ => 2 * t) fun t _ => t ^ 2
  have key := hC _ _ _ (by rw [eh]; exact hh0) (by
      rw [eh, hh, div_le_iff₀ hm0]
      rw [div_lt_iff₀ hδ] at m1
      nlinarith) (by
      rw [e0, eh]
      nlinarith) hfo hp u hu (by rw [ht, hhm])
  rw [eh, hy, ht, hhm] at key
  have e : (1 : ℝ) ^ 2 - κ * h * 1 - 1 ^ 2 = -(κ * h) := by ring
  rw [e, abs_neg, abs_of_pos (by positivity)] at key
  rw [div_lt_iff₀ hκ] at m2
  have h1 : κ ≤ C * h := by
    have : κ * h ≤ (C * h) * h := by rw [mul_assoc, ← pow_two]; exact key
    exact le_of_mul_le_mul_right this hh0
  have h2 : κ * ((m : ℝ) + 1) ≤ C := by
    calc κ * ((m : ℝ) + 1) ≤ C * h * ((m : ℝ) + 1) := mul_le_mul_of_nonneg_right h1 hm0.le
      _ = C := by rw [mul_assoc, mul_comm h, hhm, mul_one]
  nlinarith

theorem explicit_drifts {c : MultistepCoef ℝ p} (hc : c.Bn = 0) (hA : c.A = adamsA p) {κ : ℝ} (h0 : 0 < κ)
    (hκ : ∀ t h : ℝ, h * (c.Bn * (2 * (t + h)) + ∑ i : Fin (p + 1), c.B i.rev * (2 * (t - (i : ℕ) * h))) =
      (t + h) ^ 2 - t ^ 2 - κ * h ^ 2) (b : Bound ℝ) :
    ¬ MultistepConverges (fun rhs : Rhs ℝ 1 => ⟨explicitMultistep c, rhs, b⟩) 2 := by
  intro hcon
  obtain ⟨C, δ, hδ, hC⟩ := hcon (fun t _ _ => 2 * t) (fun t _ => t ^ 2) (-2) 2 (-1) 1 (lineRhs_smooth 2) (by norm_num)
    (by norm_num) fun t _ => parabola_solves t
  refine drift_contradiction h0 (drift hA hκ (S := ⟨explicitMultistep c, pureRhs fun t _ _ => 2 * t, b⟩)
    (fun u => ⟨_, by unfold Takes; exact explicitMultistepBody_run _ _ _⟩)
    fun u v => explicit_within c hc b _ u v) C δ hδ fun s s' l h1 h2 h3 h4 h5 u hu hut => ?_
  have := hC 0 s s' l .inf h1 h2 hδ.le h3 h4 h5 u hu hut 0
  rwa [zero_add] at this

/-- **C70 refuted** for `AdamsBashforth2` to `5`: as coded, none of them converges with order 2, and so not with its own order:
with exact histories, on `y' = 2t`, the error at time `1` is `4h`, `6h`, `8h`, `10h`. -/
theorem C70_AB_refuted (b : Bound ℝ) :
    ¬ MultistepConverges (fun rhs : Rhs ℝ 1 => ⟨explicitMultistep AdamsBashforth2, rhs, b⟩) 2 ∧
    ¬ MultistepConverges (fun rhs : Rhs ℝ 1 => ⟨explicitMultistep AdamsBashforth3, rhs, b⟩) 2 ∧
    ¬ MultistepConverges (fun rhs : Rhs ℝ 1 => ⟨explicitMultistep AdamsBashforth4, rhs, b⟩) 2 ∧
    ¬ MultistepConverges (fun rhs : Rhs ℝ 1 => ⟨explicitMultistep AdamsBashforth5, rhs, b⟩) 2 := by
  refine ⟨explicit_drifts (κ := 4) rfl rfl (by norm_num) (fun t h => ?_) b,
    explicit_drifts (κ := 6) rfl rfl (by norm_num) (fun t h => ?_) b,
    explicit_drifts (κ := 8) rfl rfl (by norm_num) (fun t h => ?_) b,
    explicit_drifts (κ := 10) rfl rfl (by norm_num) (fun t h => ?_) b⟩
  · simp [Fin.sum_univ_succ, Fin.rev, q, AdamsBashforth2]; ring
  · simp [Fin.sum_univ_succ, Fin.rev, q, AdamsBashforth3]; ring
  · simp [Fin.sum_univ_succ, Fin.rev, q, AdamsBashforth4]; ring
  · simp [Fin.sum_univ_succ, Fin.rev, q, AdamsBashforth5]; ring

theorem implicit_drifts {c : MultistepCoef ℝ p} (hA : c.A = adamsA p) {κ : ℝ} (h0 : 0 < κ)
    (hκ : ∀ t h : ℝ, h * (c.Bn * (2 * (t + h)) + ∑ i : Fin (p + 1), c.B i.rev * (2 * (t - (i : ℕ) * h))) =
      (t + h) ^ 2 - t ^ 2 - κ * h ^ 2) (lib : Lib ℝ) (b : Bound ℝ) :
    ¬ ConvergesWithin (fun zo (rhs : Rhs ℝ 1) => ⟨implicitMultistep lib zo c, rhs, b⟩) 2 := by
  intro hcon
  obtain ⟨zo, he, ht, hz⟩ : ∃ zo : ZeroOpts ℝ, 0 < zo.secantEps ∧ zo.tol = 0 ∧ zo.rtol = 0 := ⟨⟨1, 1, 0, 0⟩, by norm_num, rfl, rfl⟩
  obtain ⟨C, δ, hδ, hC⟩ := hcon (fun t _ _ => 2 * t) (fun t _ => t ^ 2) (-2) 2 (-1) 1 0 (lineRhs_smooth 2) (by norm_num)
    (by norm_num) (fun t _ => parabola_solves t) (by simp)
  refine drift_contradiction h0 (drift hA hκ (S := ⟨implicitMultistep lib zo c, pureRhs fun t _ _ => 2 * t, b⟩)
    (fun u => ?_) fun u v h => ?_) C δ hδ fun s s' l h1 h2 h3 h4 h5 u hu hut => ?_
  · obtain ⟨y', f', -, h1, -⟩ := linear_exact lib zo he ht.ge hz.ge c 0 (fun t => 2 * t) b u (by simp)
    simp only [zero_mul, zero_add] at h1
    exact ⟨_, h1⟩
  · obtain ⟨y', rfl, h1⟩ := implicit_scalar lib zo he ht.ge hz c (fun t _ _ => 2 * t) 0 b u v (by simp) h
    refine ⟨y', rfl, fun d => ?_⟩
    rw [Subsingleton.elim d 0]
    simpa [ht] using h1
  · have := hC zo ⟨he, ht.ge, hz⟩ 0 s s' l .inf h1 h2 h3 h4 h5 u hu hut 0
    rwa [zero_add, ht, zero_div, add_zero] at this

/-- **C70 refuted** for `AdamsMoulton4`, `5`: even with an exact root finder (tolerance zero), they do not
converge with order 2. -/
theorem C70_AM_refuted (lib : Lib ℝ) (b : Bound ℝ) :
    ¬ ConvergesWithin (fun zo (rhs : Rhs ℝ 1) => ⟨implicitMultistep lib zo AdamsMoulton4, rhs, b⟩) 2 ∧
    ¬ ConvergesWithin (fun zo (rhs : Rhs ℝ 1) => ⟨implicitMultistep lib zo AdamsMoulton5, rhs, b⟩) 2 := by
  refine ⟨implicit_drifts (κ := 3) rfl (by norm_num) (fun t h => ?_) lib b,
    implicit_drifts (κ := 325 / 72) rfl (by norm_num) (fun t h => ?_) lib b⟩
  · simp [Fin.sum_univ_succ, Fin.rev, q, AdamsMoulton4]; ring
  · simp [Fin.sum_univ_succ, Fin.rev, q, AdamsMoulton5]; ring

/-! ### Concrete cases -/

/-- Non-vacuity for C70: `AdamsBashforth3` on `y' = y²`, `y = 1 / (1 - t)`, up to `T = 1/2`, from exact histories. There are paths
of any number of steps, so also of `m` steps of size `1/(2m)`. -/
example : ∃ C δ, 0 < δ ∧ ∀ h : ℝ, 0 < h → h ≤ δ → ∀ m : ℕ, ∃ l v, l.length = m ∧
    Path ⟨explicitMultistep AdamsBashforth3, pureRhs fun _ v i => v i ^ 2, .inf⟩ .inf
      (sampled 2 h (fun t (_ : Fin 1) => 1 / (1 - t)) fun t _ => (1 / (1 - t)) ^ 2) l v ∧
    ∀ u ∈ l, u.t ≤ 1 / 2 → |u.y 0 - 1 / (1 - u.t)| ≤ C * h := by
  obtain ⟨C, δ, hδ, hC⟩ := (C70_AB_partial (n := 1) .inf).2.1 (fun _ v i => v i ^ 2) (fun t _ => 1 / (1 - t)) (-1) 1 (-1 / 2) (1 / 2)
    (square_smooth 1) (by norm_num) (by norm_num) square_solves
  refine ⟨C, min δ (1 / 4), by positivity, fun h h0 h1 m => ?_⟩
  obtain ⟨l, v, hl, hp⟩ := paths_exist (p := 2) (S := ⟨explicitMultistep AdamsBashforth3, pureRhs fun _ v i => v i ^ 2, .inf⟩)
    (fun u => ⟨_, by unfold Takes; exact explicitMultistepBody_run _ _ _⟩) m
    (sampled 2 h (fun t (_ : Fin 1) => 1 / (1 - t)) fun t _ => (1 / (1 - t)) ^ 2)
  refine ⟨l, v, hl, hp, fun u hu hut => ?_⟩
  have e0 := sampled_t 2 h (fun t (_ : Fin 1) => 1 / (1 - t)) fun t _ => (1 / (1 - t)) ^ 2
  have key := hC 0 _ v l .inf h0 (h1.trans (min_le_left _ _)) hδ.le (by
    rw [e0]
    have := h1.trans (min_le_right _ _)
    show -1 / 2 ≤ 0 - ((2 : ℕ) : ℝ) * h
    push_cast; linarith) (sampled_follows 2 h (fun _ v i => v i ^ 2) fun t _ => 1 / (1 - t)) hp u hu hut 0
  rw [zero_add, pow_one] at key
  exact key

theorem exp_solves (t : ℝ) : SolvesAt (n := 1) (fun _ v i => -1 * v i + 0) (fun t _ => Real.exp (-t)) t := by
  refine hasDerivAt_pi.mpr fun _ => ?_
  have h1 : HasDerivAt (fun t : ℝ => -t) (-1) t := (hasDerivAt_id t).fun_neg
  have h2 := h1.exp
  rw [show Real.exp (-t) * -1 = -1 * Real.exp (-t) + 0 by ring] at h2
  exact h2

theorem implicit_paths {c : MultistepCoef ℝ p} (lib : Lib ℝ) (zo : ZeroOpts ℝ) (he : 0 < zo.secantEps) (ht : 0 ≤ zo.tol)
    (hr : 0 ≤ zo.rtol) (b : Bound ℝ) (m : ℕ) (u : St ℝ 1 (histExtra p) Unit) (hu : 1 - u.h * c.Bn * (-1) ≠ 0) :
    ∃ l v, l.length = m ∧ Path ⟨implicitMultistep lib zo c, pureRhs fun _ v i => -1 * v i + 0, b⟩ .inf u l v := by
  induction m generalizing u with
  | zero => exact ⟨[], u, rfl, .nil u⟩
  | succ m ih =>
    obtain ⟨y', f', -, h1, -⟩ := linear_exact lib zo he ht hr c (-1) (fun _ => 0) b u hu
    obtain ⟨l, w, h2, h3⟩ := ih ⟨u.cache.push (u.t + u.h) y' f', u.h, ()⟩ hu
    exact ⟨_ :: l, w, by simp [h2], .cons trivial h1 h3⟩

/-- Non-vacuity for C70: `BDF3` on `y' = -y`, `y = exp(-t)`, up to `T = 1`, from exact histories, with the tolerance of the code. -/
example : ∃ C δ, 0 < δ ∧ ∀ h : ℝ, 0 < h → h ≤ δ → ∀ m : ℕ, ∃ l v, l.length = m ∧
    Path ⟨implicitMultistep Demo.realLib Demo.realZeros BDF3, pureRhs fun _ v i => -1 * v i + 0, .inf⟩ .inf
      (sampled 2 h (fun t (_ : Fin 1) => Real.exp (-t)) fun t _ => -1 * Real.exp (-t) + 0) l v ∧
    ∀ u ∈ l, u.t ≤ 1 → |u.y 0 - Real.exp (-u.t)| ≤ C * (h ^ 3 + 148 / 10 ^ 10 / h) := by
  have z1 : (0 : ℝ) < Demo.realZeros.secantEps := by norm_num [Demo.realZeros]
  have z2 : (0 : ℝ) ≤ Demo.realZeros.tol := by norm_num [Demo.realZeros]
  obtain ⟨C, δ, hδ, hC⟩ := (C70_BDF (n := 1) Demo.realLib (fun _ => rfl) .inf).2.2.1
    (fun _ v i => -1 * v i + 0) (fun t _ => Real.exp (-t)) (-2) 2 (-1) 1 1
    (contDiff_pi.mpr fun i => (contDiff_const.mul ((contDiff_apply ℝ ℝ i).comp contDiff_snd)).add contDiff_const)
    (by norm_num) (by norm_num) (fun t _ => exp_solves t) (fun _ u v d => by
      have h1 := norm_le_pi_norm (u - v : Fin 1 → ℝ) d
      have e : -1 * u d + 0 - (-1 * v d + 0) = -(u d - v d) := by ring
      rw [e, abs_neg, one_mul]
      exact h1)
  refine ⟨C, min δ (1 / 4), by positivity, fun h h0 h1 m => ?_⟩
  obtain ⟨l, v, hl, hp⟩ := implicit_paths (p := 2) (c := BDF3) Demo.realLib Demo.realZeros z1 z2 le_rfl .inf m
    (sampled 2 h (fun t (_ : Fin 1) => Real.exp (-t)) fun t _ => -1 * Real.exp (-t) + 0) (by
      have : (0 : ℝ) < 1 - h * (BDF3 (α := ℝ)).Bn * (-1) := by
        simp [BDF3, q]; positivity
      exact this.ne')
  refine ⟨l, v, hl, hp, fun u hu hut => ?_⟩
  have e0 := sampled_t 2 h (fun t (_ : Fin 1) => Real.exp (-t)) fun t _ => -1 * Real.exp (-t) + 0
  have key := hC Demo.realZeros ⟨z1, z2, rfl⟩ 0 _ v l .inf h0 (h1.trans (min_le_left _ _)) (by
    rw [e0]
    have := h1.trans (min_le_right _ _)
    show -1 ≤ 0 - ((2 : ℕ) : ℝ) * h
    push_cast; linarith) (sampled_follows 2 h (fun _ v i => -1 * v i + 0) fun t _ => Real.exp (-t)) hp u hu hut 0
  rw [zero_add] at key
  exact key

/-- Non-vacuity for C32 on one component: the steps of the path above. -/
example (h : ℝ) (h0 : 0 < h) : ∃ st' y', Takes ⟨implicitMultistep Demo.realLib Demo.realZeros BDF2,
      pureRhs fun _ v i => -1 * v i + 0, .inf⟩ (sampled 1 h (fun t (_ : Fin 1) => Real.exp (-t)) fun t _ => -1 * Real.exp (-t) + 0) st' ∧
    st' = ⟨(sampled 1 h (fun t (_ : Fin 1) => Real.exp (-t)) fun t _ => -1 * Real.exp (-t) + 0).cache.push (0 + h) y'
      (fun i => -1 * y' i + 0), h, ()⟩ ∧
    |defect BDF2 (sampled 1 h (fun t (_ : Fin 1) => Real.exp (-t)) fun t _ => -1 * Real.exp (-t) + 0).cache h y'
      (fun i => -1 * y' i + 0) 0| ≤ 2 * (1 + |h * (2 / 3)| * 1) * (148 / 10 ^ 10) := by
  have z1 : (0 : ℝ) < Demo.realZeros.secantEps := by norm_num [Demo.realZeros]
  have z2 : (0 : ℝ) ≤ Demo.realZeros.tol := by norm_num [Demo.realZeros]
  set s := sampled 1 h (fun t (_ : Fin 1) => Real.exp (-t)) fun t _ => -1 * Real.exp (-t) + 0 with hs
  have e0 : s.t = 0 := sampled_t 1 h _ _
  obtain ⟨y₀, f', -, h1, -⟩ := linear_exact Demo.realLib Demo.realZeros z1 z2 le_rfl BDF2 (-1) (fun _ => 0) .inf s (by
      have : (0 : ℝ) < 1 - h * (BDF2 (α := ℝ)).Bn * (-1) := by
        simp [BDF2, q]; positivity
      exact this.ne')
  obtain ⟨y', h2, h3⟩ := implicit_scalar Demo.realLib Demo.realZeros z1 z2 rfl BDF2 (fun _ v i => -1 * v i + 0) 1 .inf s _ (fun u v => by
    have e : -1 * u 0 + 0 - (-1 * v 0 + 0) = -(u 0 - v 0) := by ring
    rw [e, abs_neg, one_mul]) h1
  refine ⟨_, y', h1, ?_, ?_⟩
  · rw [h2, e0]; rfl
  · have e1 : s.h * (BDF2 (α := ℝ)).Bn = h * (2 / 3) := by simp [BDF2, q, hs, sampled]
    rw [e1] at h3
    exact h3

end Nbkode
