import Verif.Proofs.Contraction
import Verif.Props.MultistepStart
import Mathlib.Analysis.SpecialFunctions.Trigonometric.Bounds

/-!
# Implicit steps succeed when `h` is small: C72
-/

set_option autoImplicit false
set_option linter.unusedSectionVars false

namespace Nbkode
open Py Spec Solver

variable {n p : ℕ}

/-- **C72.** An implicit multistep step succeeds if `f` is Lipschitz in `y` at the new time with constant `L`,
`5 (n + 1) |h Bn| L ≤ 4 ρ` with `ρ ≤ 1/4`, and the current state misses the method's equation by at most `R` with
`2 (n + 1) ρ^49 R ≤ tol` (for `ρ = 1/4` and the tolerance of the code, the right-hand side is about `4.7e21` times `ρ^49`). -/
theorem C72_step {lib : Lib ℝ} (hlib : ∀ x, lib.sqrt x = Real.sqrt x) (hs : ExactSolve lib) {zo : ZeroOpts ℝ}
    (he : 0 < zo.secantEps) (hj : zo.jacEps ≠ 0) (ht : 0 ≤ zo.tol) (hr : 0 ≤ zo.rtol) (c : MultistepCoef ℝ p)
    (f : ℝ → Vec ℝ n → Vec ℝ n) (b : Bound ℝ) (st : St ℝ n (histExtra p) Unit) (L R ρ : ℝ) (hL0 : 0 ≤ L)
    (hL : ∀ u v : Vec ℝ n, ∀ d, |f (st.t + st.h) u d - f (st.t + st.h) v d| ≤ L * ‖(u - v : Fin n → ℝ)‖)
    (hsmall : 5 * ((n + 1) * (|st.h * c.Bn| * L)) ≤ 4 * ρ) (hρ : 4 * ρ ≤ 1) (hR0 : 0 ≤ R)
    (hR : ∀ d, |defect c st.cache st.h st.y (f (st.t + st.h) st.y) d| ≤ R) (htol : 2 * ((n + 1) * (ρ ^ 49 * R)) ≤ zo.tol) :
    ∃ st', Takes ⟨implicitMultistep lib zo c, pureRhs f, b⟩ st st' := by
  unfold Takes
  change ∃ st', (implicitMultistepBody lib zo c (pureRhs f)).run st = _
  rw [implicitMultistepBody_run]
  suffices h : ∃ y', implicitSolve lib zo (pureRhs f) (st.t + st.h) (st.h * c.Bn) (multistepK c st.cache st.h) st.y = .ok y' by
    obtain ⟨y', h⟩ := h
    rw [h]
    exact ⟨_, rfl⟩
  set F : (Fin n → ℝ) → (Fin n → ℝ) := fun y => defect c st.cache st.h y (f (st.t + st.h) y) with hF
  have hroot : ∀ y : Vec ℝ n, implicitRoot (pureRhs f) (st.t + st.h) (st.h * c.Bn) (multistepK c st.cache st.h) y = .ok (F y) := by
    intro y
    simp only [hF, residual_eq]
    simp only [implicitRoot, pureRhs, bind, Except.bind, pure, Except.pure]
  set ε := |st.h * c.Bn| * L with hε
  have hε0 : 0 ≤ ε := by positivity
  have hc : ∀ u v d, |F u d - F v d - (u d - v d)| ≤ ε * ‖(u - v : Fin n → ℝ)‖ := by
    intro u v d
    have e : F u d - F v d - (u d - v d) = -(st.h * c.Bn * (f (st.t + st.h) u d - f (st.t + st.h) v d)) := by
      simp only [hF, defect]; ring
    rw [e, abs_neg, abs_mul, hε, mul_assoc]
    exact mul_le_mul_of_nonneg_left (hL u v d) (abs_nonneg _)
  have hn0 : (0 : ℝ) ≤ n := Nat.cast_nonneg n
  have hρ0 : 0 ≤ ρ := by
    have : 0 ≤ 5 * (((n : ℝ) + 1) * ε) := by positivity
    linarith
  by_cases hn : n = 1
  · subst hn
    rw [implicitSolve, dif_pos rfl]
    dsimp only
    obtain ⟨x, hx⟩ := jNewton_converges (ε := ε) (ρ := ρ) (F := fun x => F (fun _ => x) 0) (tol := zo.tol) (rtol := zo.rtol) he
      (fn := fun x => do
        let v ← implicitRoot (pureRhs f) (st.t + st.h) (st.h * c.Bn) (multistepK c st.cache st.h) fun _ => x
        return v ⟨0, by omega⟩)
      (fun x => by rw [hroot]; rfl) hε0 (by push_cast at hsmall; linarith) hρ
      (fun u v => by
        have h1 := hc (fun _ => u) (fun _ => v) 0
        have e : ‖((fun _ => u) - (fun _ => v) : Fin 1 → ℝ)‖ = |u - v| := by rw [Pi.norm_def]; simp
        rwa [e] at h1) ht hr 48 (st.y ⟨0, by omega⟩) (by
          have e : (fun _ => st.y ⟨0, by omega⟩) = st.y := by
            funext i; rw [Subsingleton.elim i]
          have h1 := hR 0
          rw [e]
          push_cast at htol
          show 2 * (ρ ^ (48 + 1) * |F st.y 0|) ≤ _
          have h2 : ρ ^ 49 * |F st.y 0| ≤ ρ ^ 49 * R := mul_le_mul_of_nonneg_left h1 (pow_nonneg hρ0 _)
          have h3 : 0 ≤ ρ ^ 49 * R := mul_nonneg (pow_nonneg hρ0 _) hR0
          rw [show (48 + 1 : ℕ) = 49 from rfl]
          set P := ρ ^ 49 * R
          linarith) none
    refine ⟨fun _ => x, ?_⟩
    rw [show (50 : ℕ) = 48 + 2 from rfl, hx]
    rfl
  · rw [implicitSolve, dif_neg hn]
    have e : implicitRoot (pureRhs f) (st.t + st.h) (st.h * c.Bn) (multistepK c st.cache st.h) = fun y : Vec ℝ n => .ok (F y) :=
      funext hroot
    rw [e]
    refine newtonHd_converges hlib hs hj hε0 hsmall hρ hc 50 st.y ?_
    have h1 : ‖F st.y‖ ≤ R := (pi_norm_le_iff_of_nonneg hR0).mpr hR
    have h2 : ρ ^ 50 * ‖F st.y‖ ≤ ρ ^ 49 * R :=
      mul_le_mul (pow_le_pow_of_le_one hρ0 (by linarith) (by norm_num)) h1 (norm_nonneg _) (pow_nonneg hρ0 _)
    have h3 : (n : ℝ) * (ρ ^ 50 * ‖F st.y‖) ≤ n * (ρ ^ 49 * R) := mul_le_mul_of_nonneg_left h2 hn0
    have h4 : 0 ≤ ρ ^ 49 * R := mul_nonneg (pow_nonneg hρ0 _) hR0
    have h5 : 0 ≤ (n : ℝ) * (ρ ^ 49 * R) := mul_nonneg hn0 h4
    set P := ρ ^ 49 * R
    linarith

theorem follows_step {c : MultistepCoef ℝ p} {f : ℝ → Vec ℝ n → Vec ℝ n} {y : ℝ → Vec ℝ n} {ε B : ℝ}
    {s s1 : St ℝ n (histExtra p) Unit} (hw : StepWithin c f ε s s1) (hs : Follows f y B s)
    (hB : ∀ d, |s1.y d - y s1.t d| ≤ B) : Follows f y B s1 ∧ s1.h = s.h ∧ s1.t = s.t + s.h := by
  obtain ⟨y', rfl, -⟩ := hw
  set s1 : St ℝ n (histExtra p) Unit := ⟨s.cache.push (s.t + s.h) y' (f (s.t + s.h) y'), s.h, ()⟩ with hs1
  have e1 : s1.t = s.t + s.h := push_t _ _ _ _
  have e2 : s1.h = s.h := rfl
  have e3 : s1.y = y' := push_y _ _ _ _
  refine ⟨⟨fun i hi => ?_, fun i hi d => ?_, fun i hi => ?_⟩, rfl, e1⟩
  all_goals
    cases i with
    | zero => ?_
    | succ i =>
      have hk : i + 1 ≤ histExtra p + 1 := by unfold histExtra; omega
      have et : s1.t - ((i + 1 : ℕ) : ℝ) * s1.h = s.t - i * s.h := by rw [e1, e2]; push_cast; ring
      rw [et]
      first
        | rw [show ago s1.cache.ts (i + 1) = _ from ago_shiftIn_succ _ _ i hk]; exact hs.times i (by omega)
        | rw [show ago s1.cache.ys (i + 1) = _ from ago_shiftIn_succ _ _ i hk]; exact hs.states i (by omega) d
        | rw [show ago s1.cache.ys (i + 1) = _ from ago_shiftIn_succ _ _ i hk,
            show ago s1.cache.fs (i + 1) = _ from ago_shiftIn_succ _ _ i hk]; exact hs.derivs i (by omega)
  · rw [show ago s1.cache.ts 0 = _ from ago_shiftIn_zero _ _, e1]; simp
  · rw [show ago s1.cache.ys 0 = _ from ago_shiftIn_zero _ _, Nat.cast_zero, zero_mul, sub_zero, ← e3]
    exact hB d
  · rw [show ago s1.cache.ys 0 = _ from ago_shiftIn_zero _ _, show ago s1.cache.fs 0 = _ from ago_shiftIn_zero _ _,
      Nat.cast_zero, zero_mul, sub_zero, e1]

theorem follows_path {c : MultistepCoef ℝ p} {f : ℝ → Vec ℝ n → Vec ℝ n} {y : ℝ → Vec ℝ n} {ε B h : ℝ}
    {S : Solver ℝ n (histExtra p) Unit} {lim : Bound ℝ}
    (hS : ∀ u v : St ℝ n (histExtra p) Unit, u.h = h → Takes S u v → StepWithin c f ε u v)
    {s s' : St ℝ n (histExtra p) Unit} {l : List (St ℝ n (histExtra p) Unit)} (hl : Path S lim s l s') (hh : s.h = h)
    (hs : Follows f y B s) (hB : ∀ u ∈ l, ∀ d, |u.y d - y u.t d| ≤ B) :
    Follows f y B s' ∧ s'.h = h ∧ s'.t = s.t + l.length * h := by
  induction hl with
  | nil s => exact ⟨hs, hh, by simp⟩
  | @cons s s1 s2 l _ ht _ ih =>
    obtain ⟨h1, h2, h3⟩ := follows_step (hS s s1 hh ht) hs (hB s1 List.mem_cons_self)
    obtain ⟨g1, g2, g3⟩ := ih (h2.trans hh) h1 fun u hu => hB u (List.mem_cons_of_mem _ hu)
    refine ⟨g1, g2, ?_⟩
    rw [g3, h3, hh, List.length_cons]; push_cast; ring

/-- The times visited. -/
theorem path_times_le {c : MultistepCoef ℝ p} {f : ℝ → Vec ℝ n → Vec ℝ n} {ε h : ℝ}
    {S : Solver ℝ n (histExtra p) Unit} {lim : Bound ℝ}
    (hS : ∀ u v : St ℝ n (histExtra p) Unit, u.h = h → Takes S u v → StepWithin c f ε u v) (h0 : 0 ≤ h)
    {s s' : St ℝ n (histExtra p) Unit} {l : List (St ℝ n (histExtra p) Unit)} (hl : Path S lim s l s') (hh : s.h = h) :
    ∀ u ∈ l, u.t ≤ s.t + l.length * h := by
  induction hl with
  | nil s => simp
  | @cons s s1 s2 l _ ht _ ih =>
    obtain ⟨y', rfl, -⟩ := hS s s1 hh ht
    set s1 : St ℝ n (histExtra p) Unit := ⟨s.cache.push (s.t + s.h) y' (f (s.t + s.h) y'), s.h, ()⟩ with hs1
    have e1 : s1.t = s.t + s.h := push_t _ _ _ _
    intro u hu
    rw [List.length_cons]
    push_cast
    rcases List.mem_cons.mp hu with rfl | hu
    · rw [e1, hh]
      have : (0 : ℝ) ≤ l.length * h := by positivity
      linarith
    · have := ih hh u hu
      rw [e1, hh] at this
      linarith

/-- The current state nearly satisfies the equation for the next one. -/
theorem start_residual {q : ℕ} {c : MultistepCoef ℝ p} (hx : ExactOnPolynomials c q) {f : ℝ → Vec ℝ n → Vec ℝ n}
    {y : ℝ → Vec ℝ n} {a b t₀ T L : ℝ} (hf : ContDiff ℝ q (joint f)) (ha : a < t₀) (hb : T < b)
    (hy : ∀ t ∈ Set.Ioo a b, SolvesAt f y t) (hL0 : 0 ≤ L)
    (hL : ∀ t u v, (∀ d, |f t u d - f t v d| ≤ L * ‖(u - v : Fin n → ℝ)‖)) :
    ∃ C, 0 ≤ C ∧ ∀ (B : ℝ) (s : St ℝ n (histExtra p) Unit), 0 ≤ B → 0 < s.h → s.h ≤ 1 → t₀ ≤ s.t - p * s.h →
      s.t + s.h ≤ T → Follows f y B s → ∀ d, |defect c s.cache s.h s.y (f (s.t + s.h) s.y) d| ≤ C * (B + s.h) := by
  have hin : ∀ t ∈ Set.Icc t₀ T, t ∈ Set.Ioo a b := fun t ht => ⟨ha.trans_le ht.1, ht.2.trans_lt hb⟩
  have hyc : ContinuousOn (fun t => (y t : Fin n → ℝ)) (Set.Icc t₀ T) := fun t ht =>
    (hy t (hin t ht)).continuousAt.continuousWithinAt
  have hfc : ContinuousOn (fun t => (f t (y t) : Fin n → ℝ)) (Set.Icc t₀ T) := by
    have h1 : Continuous (joint f) := hf.continuous
    exact h1.comp_continuousOn (continuousOn_id.prodMk hyc)
  obtain ⟨D, hD⟩ := isCompact_Icc.exists_bound_of_continuousOn (f := fun t => (f t (y t) : Fin n → ℝ)) hfc
  have hD0 : 0 ≤ max D 0 := le_max_right _ _
  set M := max D 0 with hM
  have hMf : ∀ t ∈ Set.Icc t₀ T, ‖(f t (y t) : Fin n → ℝ)‖ ≤ M := fun t ht => (hD t ht).trans (le_max_left _ _)
  have hylip : ∀ t ∈ Set.Icc t₀ T, ∀ t' ∈ Set.Icc t₀ T, ‖(y t' - y t : Fin n → ℝ)‖ ≤ M * |t' - t| := by
    intro t ht t' ht'
    have := Convex.norm_image_sub_le_of_norm_hasDerivWithin_le (s := Set.Icc t₀ T) (f := fun t => (y t : Fin n → ℝ))
      (fun t ht => (hy t (hin t ht)).hasDerivWithinAt) hMf (convex_Icc _ _) ht ht'
    rwa [Real.norm_eq_abs] at this
  set α := ∑ i, |c.A i| with hα
  have hα0 : 0 ≤ α := Finset.sum_nonneg fun _ _ => abs_nonneg _
  set β := |c.Bn| + ∑ i, |c.B i| with hβ
  have hβ0 : 0 ≤ β := add_nonneg (abs_nonneg _) (Finset.sum_nonneg fun _ _ => abs_nonneg _)
  have hrevA : ∑ i : Fin (p + 1), |c.A i.rev| = α := Equiv.sum_comp Fin.revPerm fun i => |c.A i|
  have hrevB : ∑ i : Fin (p + 1), |c.B i.rev| = ∑ i, |c.B i| := Equiv.sum_comp Fin.revPerm fun i => |c.B i|
  have hA1 : ∑ i : Fin (p + 1), c.A i.rev = -1 := by
    have := hx 1 (by simp) 0 0
    simp at this
    linarith
  refine ⟨2 * α + β * L + α * M * p + β * (M + L * M), by positivity, fun B s hB h0 h1 ht0 hT hs d => ?_⟩
  set h := s.h with hh
  have hback : ∀ i : ℕ, i ≤ p → s.t - i * h ∈ Set.Icc t₀ T := by
    intro i hi
    have hir : (i : ℝ) ≤ p := by exact_mod_cast hi
    have : (0 : ℝ) ≤ i * h := by positivity
    exact ⟨by nlinarith, by linarith⟩
  have hcur := hback 0 (Nat.zero_le _)
  rw [Nat.cast_zero, zero_mul, sub_zero] at hcur
  have hnew : s.t + h ∈ Set.Icc t₀ T := ⟨by linarith [hcur.1], hT⟩
  have h00 : ago s.cache.ys 0 = s.y := rfl
  have hs0 := hs.states 0 (Nat.zero_le _)
  rw [Nat.cast_zero, zero_mul, sub_zero, h00] at hs0
  have hpart1 : |s.y d + ∑ i : Fin (p + 1), c.A i.rev * ago s.cache.ys i d| ≤ α * (2 * B + M * (p * h)) := by
    have e : s.y d + ∑ i : Fin (p + 1), c.A i.rev * ago s.cache.ys i d =
        ∑ i : Fin (p + 1), c.A i.rev * (ago s.cache.ys i d - s.y d) := by
      simp only [mul_sub, Finset.sum_sub_distrib, ← Finset.sum_mul, hA1]; ring
    rw [e, ← hrevA, Finset.sum_mul]
    refine (Finset.abs_sum_le_sum_abs _ _).trans (Finset.sum_le_sum fun i _ => ?_)
    rw [abs_mul]
    refine mul_le_mul_of_nonneg_left ?_ (abs_nonneg _)
    have hi : i.val ≤ p := by have := i.isLt; omega
    have hir : (i.val : ℝ) ≤ p := by exact_mod_cast hi
    have k1 := hs.states i hi d
    have k2 := (norm_le_pi_norm _ d).trans (hylip _ hcur _ (hback i hi))
    rw [Real.norm_eq_abs, Pi.sub_apply, show s.t - (i.val : ℝ) * h - s.t = -(i.val * h) by ring, abs_neg,
      abs_of_nonneg (by positivity : (0 : ℝ) ≤ i.val * h)] at k2
    have k3 : M * (i.val * h) ≤ M * (p * h) :=
      mul_le_mul_of_nonneg_left (mul_le_mul_of_nonneg_right hir h0.le) hD0
    have e2 : ago s.cache.ys i d - s.y d = (ago s.cache.ys i d - y (s.t - i.val * h) d) +
        (y (s.t - i.val * h) d - y s.t d) - (s.y d - y s.t d) := by ring
    rw [e2]
    refine (abs_sub _ _).trans ((add_le_add (abs_add_le _ _) le_rfl).trans ?_)
    linarith [hs0 d]
  have hfa : ∀ t ∈ Set.Icc t₀ T, ∀ v : Vec ℝ n, |f t v d| ≤ M + L * ‖(v - y t : Fin n → ℝ)‖ := by
    intro t ht v
    have k1 := hL t v (y t) d
    have k2 := (norm_le_pi_norm _ d).trans (hMf t ht)
    rw [Real.norm_eq_abs] at k2
    have e : f t v d = (f t v d - f t (y t) d) + f t (y t) d := by ring
    rw [e]
    exact (abs_add_le _ _).trans (by linarith)
  have hpart2 : |c.Bn * f (s.t + h) s.y d + ∑ i : Fin (p + 1), c.B i.rev * ago s.cache.fs i d| ≤
      β * (M + L * (B + M * h)) := by
    have hMh : 0 ≤ M * h := by positivity
    rw [hβ, add_mul, ← hrevB, Finset.sum_mul]
    refine (abs_add_le _ _).trans (add_le_add ?_ ((Finset.abs_sum_le_sum_abs _ _).trans (Finset.sum_le_sum fun i _ => ?_)))
    · rw [abs_mul]
      refine mul_le_mul_of_nonneg_left ((hfa _ hnew _).trans ?_) (abs_nonneg _)
      refine add_le_add le_rfl (mul_le_mul_of_nonneg_left ?_ hL0)
      have k1 : ‖(s.y - y s.t : Fin n → ℝ)‖ ≤ B := (pi_norm_le_iff_of_nonneg hB).mpr hs0
      have k2 := hylip _ hnew _ hcur
      rw [show s.t - (s.t + h) = -h by ring, abs_neg, abs_of_pos h0] at k2
      have e : (s.y - y (s.t + h) : Fin n → ℝ) = (s.y - y s.t) + (y s.t - y (s.t + h)) := by abel
      rw [e]
      exact (norm_add_le _ _).trans (add_le_add k1 k2)
    · rw [abs_mul]
      have hi : i.val ≤ p := by have := i.isLt; omega
      rw [hs.derivs i hi]
      refine mul_le_mul_of_nonneg_left ((hfa _ (hback i hi) _).trans ?_) (abs_nonneg _)
      refine add_le_add le_rfl (mul_le_mul_of_nonneg_left ?_ hL0)
      have k1 : ‖(ago s.cache.ys i - y (s.t - i.val * h) : Fin n → ℝ)‖ ≤ B := (pi_norm_le_iff_of_nonneg hB).mpr (hs.states i hi)
      exact k1.trans (by linarith)
  have hfin : |defect c s.cache h s.y (f (s.t + h) s.y) d| ≤ α * (2 * B + M * (p * h)) + h * (β * (M + L * (B + M * h))) := by
    refine (abs_sub _ _).trans (add_le_add hpart1 ?_)
    rw [abs_mul, abs_of_pos h0]
    exact mul_le_mul_of_nonneg_left hpart2 h0.le
  refine hfin.trans ?_
  have k1 : h * (β * (M + L * (B + M * h))) ≤ β * L * B + β * (M + L * M) * h := by
    have m1 : h * (β * L * B) ≤ 1 * (β * L * B) := mul_le_mul_of_nonneg_right h1 (by positivity)
    have m2 : h * (β * (L * M) * h) ≤ 1 * (β * (L * M) * h) := mul_le_mul_of_nonneg_right h1 (by positivity)
    nlinarith
  have m3 : 0 ≤ (α * M * p + β * (M + L * M)) * B := by positivity
  have m4 : 0 ≤ (2 * α + β * L) * h := by positivity
  nlinarith

theorem pow_small {h μ : ℝ} (k : ℕ) (h0 : 0 ≤ h) (hμ : 1 ≤ μ) (hk : h * μ ^ (k + 1) ≤ 1) :
    h * μ ≤ 1 ∧ (h * μ / 4) ^ (k + 1) ≤ h ^ k := by
  have h1 : 0 ≤ h * μ := by positivity
  constructor
  · refine le_trans (mul_le_mul_of_nonneg_left ?_ h0) hk
    calc μ = μ ^ 1 := (pow_one _).symm
      _ ≤ μ ^ (k + 1) := pow_le_pow_right₀ hμ (by omega)
  · calc (h * μ / 4) ^ (k + 1) ≤ (h * μ) ^ (k + 1) := pow_le_pow_left₀ (by positivity) (by linarith) _
      _ = h ^ k * (h * μ ^ (k + 1)) := by rw [mul_pow, pow_succ h k, mul_assoc]
      _ ≤ h ^ k * 1 := mul_le_mul_of_nonneg_left hk (by positivity)
      _ = h ^ k := mul_one _

/-- **C72.** Implicit multistep methods with a zero-stable formula of order `q ≥ 1` take every step up to `T` on smooth problems
with Lipschitz right-hand side, and converge, as soon as `h`, `tol / h` and the error of the history are small. The tolerance must
not be too small for 50 iterations: `h^48 ≤ tol`. -/
theorem C72_steps {q : ℕ} (hq : 1 ≤ q) (c : MultistepCoef ℝ p) (hst : ZeroStable c) (hx : ExactOnPolynomials c q)
    {lib : Lib ℝ} (hlib : ∀ x, lib.sqrt x = Real.sqrt x) (hs : ExactSolve lib) (b : Bound ℝ) :
    SucceedsWithin (fun zo (rhs : Rhs ℝ n) => ⟨implicitMultistep lib zo c, rhs, b⟩) q := by
  intro f y a b' t₀ T L hf ha hb hy hLip
  have hLip' : ∀ t u v, (∀ d, |f t u d - f t v d| ≤ max L 0 * ‖(u - v : Fin n → ℝ)‖) := fun t u v d =>
    (hLip t u v d).trans (mul_le_mul_of_nonneg_right (le_max_left _ _) (norm_nonneg _))
  have hL0 : 0 ≤ max L 0 := le_max_right _ _
  set L' := max L 0 with hL'
  obtain ⟨δ₁, hδ₁, hwithin⟩ := implicit_within hlib c b f L' hL0 hLip'
  obtain ⟨C, δ₂, hδ₂, hconv⟩ := C70_implicit c hst hx lib hlib b f y a b' t₀ T L' hf ha hb hy hLip'
  obtain ⟨C₁, hC₁, hres⟩ := start_residual hx hf ha hb hy hL0 hLip'
  set N : ℝ := (n : ℝ) + 1 with hN
  have hN0 : 0 < N := by positivity
  set κ := 2 * (N * (C₁ * (3 * |C| + 2))) + 1 with hκ
  have hκ0 : 0 < κ := by positivity
  set μ := 5 * (N * (|c.Bn| * L')) + 4 with hμ
  have hμ0 : 0 < μ := by positivity
  have hμ1 : 1 ≤ μ := by
    have : 0 ≤ 5 * (N * (|c.Bn| * L')) := by positivity
    linarith
  have hμp : 0 < μ ^ 49 := pow_pos hμ0 _
  set δ := min (min δ₁ δ₂) (min 1 (min (1 / κ) (1 / μ ^ 49))) with hδdef
  refine ⟨|C|, δ, lt_min (lt_min hδ₁ hδ₂) (lt_min one_pos (lt_min (by positivity) (div_pos one_pos hμp))),
    fun zo hzo E s h0 hsδ ht htδ hEδ hst0 hfo m => ?_⟩
  obtain ⟨⟨he, ht0, hz⟩, hj⟩ := hzo
  have k1 : s.h ≤ δ₁ := hsδ.trans ((min_le_left _ _).trans (min_le_left _ _))
  have k2 : s.h ≤ δ₂ := hsδ.trans ((min_le_left _ _).trans (min_le_right _ _))
  have k3 : δ ≤ 1 := (min_le_right _ _).trans (min_le_left _ _)
  have k4 : δ ≤ 1 / κ := (min_le_right _ _).trans ((min_le_right _ _).trans (min_le_left _ _))
  have k5 : δ ≤ 1 / μ ^ 49 := (min_le_right _ _).trans ((min_le_right _ _).trans (min_le_right _ _))
  rw [le_div_iff₀ hκ0] at k4
  rw [le_div_iff₀ hμp] at k5
  have k6 : s.h * μ ^ 49 ≤ 1 := (mul_le_mul_of_nonneg_right hsδ hμp.le).trans k5
  obtain ⟨ρ, hρ0, hρ1, hρt, hsm⟩ : ∃ ρ, 0 ≤ ρ ∧ 4 * ρ ≤ 1 ∧ ρ ^ 49 ≤ zo.tol ∧ 5 * (N * (s.h * |c.Bn| * L')) ≤ 4 * ρ := by
    obtain ⟨k7, k8⟩ := pow_small 48 h0.le hμ1 k6
    refine ⟨s.h * μ / 4, div_nonneg (mul_nonneg h0.le hμ0.le) (by norm_num), by linarith only [k7], k8.trans ht, ?_⟩
    have : 4 * (s.h * μ / 4) = 5 * (N * (s.h * |c.Bn| * L')) + 4 * s.h := by rw [hμ]; ring
    linarith only [this, h0]
  obtain ⟨P, hP⟩ : ∃ P, P = ρ ^ 49 := ⟨_, rfl⟩
  have hP0 : 0 ≤ P := hP ▸ pow_nonneg hρ0 49
  rw [← hP] at hρt
  clear k5 k6 hμp ht
  have hδ0 : 0 ≤ δ := h0.le.trans hsδ
  have htol0 : 0 ≤ zo.tol / s.h := by positivity
  have hpw : s.h ^ q ≤ s.h := by
    calc s.h ^ q ≤ s.h ^ 1 := pow_le_pow_of_le_one h0.le (hsδ.trans k3) hq
      _ = s.h := pow_one _
  have hpw0 : 0 ≤ s.h ^ q := by positivity
  by_cases hn : n = 0
  · -- no components
    subst hn
    have one : ∀ u : St ℝ 0 (histExtra p) Unit, u.h = s.h →
        ∃ v, Takes ⟨implicitMultistep lib zo c, pureRhs f, b⟩ u v := by
      intro u hu
      refine C72_step hlib hs he hj ht0 (by rw [hz]) c f b u L' 0 ρ hL0 (hLip' _) ?_ hρ1 le_rfl (fun d => d.elim0) (by
        rw [mul_zero, mul_zero, mul_zero]; exact ht0)
      rw [hu, abs_mul, abs_of_pos h0]
      exact hsm
    have many : ∀ m, ∀ u : St ℝ 0 (histExtra p) Unit, u.h = s.h → ∃ l v, l.length = m ∧
        Path ⟨implicitMultistep lib zo c, pureRhs f, b⟩ .inf u l v := by
      intro m
      induction m with
      | zero => exact fun u _ => ⟨[], u, rfl, .nil u⟩
      | succ m ih =>
        intro u hu
        obtain ⟨v, hv⟩ := one u hu
        obtain ⟨y', rfl, -⟩ := hwithin zo ⟨he, ht0, hz⟩ u v (by rw [hu]; exact h0) (by rw [hu]; exact k1) hv
        obtain ⟨l, w, h1, h2⟩ := ih ⟨u.cache.push (u.t + u.h) y' (f (u.t + u.h) y'), u.h, ()⟩ hu
        exact ⟨_ :: l, w, by simp [h1], .cons trivial hv h2⟩
    intro _
    obtain ⟨l, v, h1, h2⟩ := many m s rfl
    exact ⟨l, v, h1, h2, fun u _ d => d.elim0⟩
  have hE : 0 ≤ E := (abs_nonneg _).trans (hfo.states 0 (Nat.zero_le _) ⟨0, Nat.pos_of_ne_zero hn⟩)
  set B := |C| * (E + s.h ^ q + zo.tol / s.h) + E with hB
  have hB0 : 0 ≤ B := by positivity
  have hBδ : B ≤ (3 * |C| + 1) * δ := by
    have : |C| * (E + s.h ^ q + zo.tol / s.h) ≤ |C| * (3 * δ) :=
      mul_le_mul_of_nonneg_left (by linarith) (abs_nonneg _)
    linarith
  have hS : ∀ u v : St ℝ n (histExtra p) Unit, u.h = s.h → Takes ⟨implicitMultistep lib zo c, pureRhs f, b⟩ u v →
      StepWithin c f (3 * zo.tol) u v := fun u v hu => hwithin zo ⟨he, ht0, hz⟩ u v (by rw [hu]; exact h0) (by rw [hu]; exact k1)
  have hfoB : Follows f y B s := ⟨hfo.times, fun i hi d => (hfo.states i hi d).trans (by
    have : 0 ≤ |C| * (E + s.h ^ q + zo.tol / s.h) := by positivity
    linarith), hfo.derivs⟩
  induction m with
  | zero => exact fun _ => ⟨[], s, rfl, .nil s, by simp⟩
  | succ m ih =>
    intro hT
    push_cast at hT
    obtain ⟨l, s', hlen, hl, hclose⟩ := ih (by nlinarith)
    obtain ⟨f1, f2, f3⟩ := follows_path hS hl rfl hfoB fun u hu d => (hclose u hu d).trans (by linarith)
    rw [hlen] at f3
    have hT' : s'.t + s'.h ≤ T := by rw [f3, f2]; linarith
    have hst' : t₀ ≤ s'.t - p * s'.h := by
      rw [f3, f2]
      have : (0 : ℝ) ≤ m * s.h := by positivity
      linarith
    have hr := hres B s' hB0 (by rw [f2]; exact h0) (by rw [f2]; exact hsδ.trans k3) hst' hT' f1
    rw [f2] at hr
    obtain ⟨s2, h2⟩ := C72_step hlib hs he hj ht0 (by rw [hz]) c f b s' L' (C₁ * (B + s.h)) ρ hL0 (hLip' _) (by
      rw [f2, abs_mul, abs_of_pos h0]
      exact hsm) hρ1 (by positivity) (by rw [f2]; exact hr) (by
      have h3 : B + s.h ≤ (3 * |C| + 2) * δ := by linarith
      have h4 : C₁ * (B + s.h) ≤ C₁ * ((3 * |C| + 2) * δ) := mul_le_mul_of_nonneg_left h3 hC₁
      have h5 : N * (C₁ * (B + s.h)) ≤ N * (C₁ * ((3 * |C| + 2) * δ)) := mul_le_mul_of_nonneg_left h4 hN0.le
      rw [hκ] at k4
      have h7 : N * (C₁ * ((3 * |C| + 2) * δ)) = N * (C₁ * (3 * |C| + 2)) * δ := by ring
      have h8 : 2 * (N * (C₁ * (B + s.h))) ≤ 1 := by linarith
      have h9 := mul_le_mul_of_nonneg_left h8 hP0
      rw [← hP]
      refine le_trans (le_of_eq ?_) ((h9.trans_eq (mul_one _)).trans hρt)
      ring)
    have hpath := path_append hl (.cons trivial h2 (.nil s2))
    refine ⟨l ++ [s2], s2, by simp [hlen], hpath, fun u hu d => ?_⟩
    have hle := path_times_le hS h0.le hpath rfl u hu
    rw [List.length_append, hlen] at hle
    push_cast at hle
    have hE0 : 0 ≤ E + s.h ^ q + zo.tol / s.h := by positivity
    refine (hconv zo ⟨he, ht0, hz⟩ E s s2 _ .inf h0 k2 hst0 hfo hpath u hu (by simp at hle; linarith) d).trans ?_
    exact mul_le_mul_of_nonneg_right (le_abs_self C) hE0

/-! ### From the construction on -/

/-- **C72**, with a fixed-step Runge-Kutta starter of order `r ≥ q - 1`. -/
theorem C72_from_start (hp : p ≠ 0) {cls : ZeroOpts ℝ → Rhs ℝ n → Solver ℝ n (histExtra p) Unit} {q r s : ℕ} (hr : 1 ≤ r) (hrq : r ≤ q)
    (hqr : q ≤ r + 1) (h : SucceedsWithin cls q) {T : Tableau ℝ s} (hT : Explicit T)
    (hR : RowSums T) (hB : OrderConditions T.A T.B r) (g : Buffer ℝ n (histExtra p)) (bo : BisectOpts ℝ)
    (argsort : List ℝ → List Nat) (gs : Buffer ℝ n 0) (K : ErkAux ℝ n s) :
    StartSucceedsWithin (fun rhs t y h => multistepInit g bo argsort (erkStarter T gs K) rhs t y (some h)) cls q := by
  intro f y a b t₀ T₁ L hf ha ht hb hy hL
  obtain ⟨D, δ₁, hD, hδ₁, hstart⟩ := erk_start_follows hp hT hR hr hB (hf.of_le (by exact_mod_cast hrq)) ha ht hb hy
  obtain ⟨C, δ, hδ, hconv⟩ := h f y a b t₀ T₁ L hf ha hb hy hL
  refine ⟨|C| * (D + 1), min (min δ δ₁) (min 1 (δ / (D + 1))), by positivity, fun zo hzo h h0 h1 ht48 h2 => ?_⟩
  have htol : 0 ≤ zo.tol := hzo.1.2.1
  set tol := zo.tol
  have k1 : h ≤ δ := h1.trans ((min_le_left _ _).trans (min_le_left _ _))
  have k2 : h ≤ δ₁ := h1.trans ((min_le_left _ _).trans (min_le_right _ _))
  have k3 : h ≤ 1 := h1.trans ((min_le_right _ _).trans (min_le_left _ _))
  have k4 : h ≤ δ / (D + 1) := h1.trans ((min_le_right _ _).trans (min_le_right _ _))
  have k5 : tol / h ≤ δ := h2.trans ((min_le_left _ _).trans (min_le_left _ _))
  have hE : D * h ^ (r + 1) ≤ δ := by
    have h2 : h ^ (r + 1) ≤ h := by
      calc h ^ (r + 1) ≤ h ^ 1 := pow_le_pow_of_le_one h0.le k3 (by omega)
        _ = h := pow_one _
    rw [le_div_iff₀ (by positivity)] at k4
    nlinarith
  obtain ⟨st, hst⟩ := C34_erk_starter_succeeds hp T gs K g bo argsort f t₀ (y t₀) h
  obtain ⟨e1, e2, e3⟩ := hstart h g bo argsort gs K st h0 k2 hst
  refine ⟨st, hst, e2, fun m hm => ?_⟩
  obtain ⟨l, s', h3, h4, h5⟩ := hconv zo hzo _ st (by rw [e1]; exact h0) (by rw [e1]; exact k1) (by rw [e1]; exact ht48)
    (by rw [e1]; exact k5) hE
    (by rw [e1, e2]; linarith) e3 m (by rw [e1]; exact hm)
  refine ⟨l, s', h3, h4, fun u hu d => ?_⟩
  have h6 := h5 u hu d
  rw [e1] at h6
  have h7 : 0 ≤ D * h ^ (r + 1) + h ^ q := by positivity
  have h8 : 0 ≤ tol / h := by positivity
  have h9 := pow_bound (abs_nonneg C) hD h0 k3 hqr
  refine h6.trans ((mul_le_mul_of_nonneg_right (le_abs_self C) (by linarith)).trans ?_)
  have h10 : 0 ≤ |C| * D * (tol / h) := by positivity
  calc |C| * (D * h ^ (r + 1) + h ^ q + tol / h) = |C| * (D * h ^ (r + 1) + h ^ q) + |C| * (tol / h) := by ring
    _ ≤ |C| * (D + 1) * h ^ q + |C| * (tol / h) := by linarith
    _ ≤ |C| * (D + 1) * (h ^ q + tol / h) := by linarith [show |C| * (D + 1) * (h ^ q + tol / h) =
        |C| * (D + 1) * h ^ q + |C| * (tol / h) + |C| * D * (tol / h) by ring]

/-- **C72**, one-step methods. -/
theorem C72_from_start_single {cls : ZeroOpts ℝ → Rhs ℝ n → Solver ℝ n (histExtra 0) Unit} {q : ℕ}
    (h : SucceedsWithin (p := 0) cls q) (g : Buffer ℝ n (histExtra 0)) (bo : BisectOpts ℝ) (argsort : List ℝ → List Nat)
    (starter : Starter ℝ n) :
    StartSucceedsWithin (p := 0) (fun rhs t y h => multistepInit g bo argsort starter rhs t y (some h)) cls q := by
  intro f y a b t₀ T₁ L hf ha ht hb hy hL
  obtain ⟨C, δ, hδ, hconv⟩ := h f y a b t₀ T₁ L hf ha hb hy hL
  refine ⟨C, δ, hδ, fun zo hzo h h0 h1 ht48 h2 => ?_⟩
  obtain ⟨st, hst⟩ : ∃ st, multistepInit g bo argsort starter (pureRhs f) t₀ (y t₀) (some h) = some (.ok st) := by
    unfold multistepInit
    cases h0 : solverInit g () (pureRhs f) t₀ (y t₀) (some h) with
    | error e => simp [solverInit, pureRhs, bind, Except.bind, pure, Except.pure] at h0
    | ok s0 => exact ⟨_, by simp only [if_true]; rfl⟩
  obtain ⟨e1, e2, e3⟩ := single_start_follows hst
  refine ⟨st, hst, by rw [e2]; simp, fun m hm => ?_⟩
  obtain ⟨l, s', h3, h4, h5⟩ := hconv zo hzo 0 st (by rw [e1]; exact h0) (by rw [e1]; exact h1) (by rw [e1]; exact ht48)
    (by rw [e1]; exact h2) hδ.le
    (by rw [e1, e2]; simp) e3 m (by rw [e1]; exact hm)
  refine ⟨l, s', h3, h4, fun u hu d => ?_⟩
  have h6 := h5 u hu d
  rwa [e1, zero_add] at h6

section named
variable (bo : BisectOpts ℝ) (argsort : List ℝ → List Nat) {lib : Lib ℝ} (hlib : ∀ x, lib.sqrt x = Real.sqrt x)
  (hs : ExactSolve lib) (b : Bound ℝ) (gs : Buffer ℝ n 0) (K : ErkAux ℝ n 3)

include hlib hs

/-- **C72**: `AdamsMoulton1` (`BackwardEuler`), `AdamsMoulton2`, `BDF1`, from the construction on. -/
theorem C72_single (g : Buffer ℝ n (histExtra 0)) (starter : Starter ℝ n) :
    StartSucceedsWithin (p := 0) (fun rhs t y h => multistepInit g bo argsort starter rhs t y (some h))
      (fun zo rhs => ⟨implicitMultistep lib zo AdamsMoulton1, rhs, b⟩) 1 ∧
    StartSucceedsWithin (p := 0) (fun rhs t y h => multistepInit g bo argsort starter rhs t y (some h))
      (fun zo rhs => ⟨implicitMultistep lib zo AdamsMoulton2, rhs, b⟩) 2 ∧
    StartSucceedsWithin (p := 0) (fun rhs t y h => multistepInit g bo argsort starter rhs t y (some h))
      (fun zo rhs => ⟨implicitMultistep lib zo BDF1, rhs, b⟩) 1 :=
  ⟨C72_from_start_single (C72_steps le_rfl _ (stable_adams _ rfl) C30_AM1 hlib hs b) g bo argsort starter,
    C72_from_start_single (C72_steps (by norm_num) _ (stable_adams _ rfl) C30_AM2 hlib hs b) g bo argsort starter,
    C72_from_start_single (C72_steps le_rfl _ stable_BDF1 C31_BDF1 hlib hs b) g bo argsort starter⟩

/-- **C72**: the other implicit methods, started with `RungeKutta4`, with the orders of C71. -/
theorem C72_started (g2 : Buffer ℝ n (histExtra 1)) (g3 : Buffer ℝ n (histExtra 2)) (g4 : Buffer ℝ n (histExtra 3))
    (g5 : Buffer ℝ n (histExtra 4)) (g6 : Buffer ℝ n (histExtra 5)) :
    StartSucceedsWithin (fun rhs t y h => multistepInit g2 bo argsort (erkStarter RungeKutta4 gs K) rhs t y (some h))
      (fun zo rhs => ⟨implicitMultistep lib zo AdamsMoulton3, rhs, b⟩) 3 ∧
    StartSucceedsWithin (fun rhs t y h => multistepInit g3 bo argsort (erkStarter RungeKutta4 gs K) rhs t y (some h))
      (fun zo rhs => ⟨implicitMultistep lib zo AdamsMoulton4, rhs, b⟩) 1 ∧
    StartSucceedsWithin (fun rhs t y h => multistepInit g4 bo argsort (erkStarter RungeKutta4 gs K) rhs t y (some h))
      (fun zo rhs => ⟨implicitMultistep lib zo AdamsMoulton5, rhs, b⟩) 1 ∧
    StartSucceedsWithin (fun rhs t y h => multistepInit g2 bo argsort (erkStarter RungeKutta4 gs K) rhs t y (some h))
      (fun zo rhs => ⟨implicitMultistep lib zo BDF2, rhs, b⟩) 2 ∧
    StartSucceedsWithin (fun rhs t y h => multistepInit g3 bo argsort (erkStarter RungeKutta4 gs K) rhs t y (some h))
      (fun zo rhs => ⟨implicitMultistep lib zo BDF3, rhs, b⟩) 3 ∧
    StartSucceedsWithin (fun rhs t y h => multistepInit g4 bo argsort (erkStarter RungeKutta4 gs K) rhs t y (some h))
      (fun zo rhs => ⟨implicitMultistep lib zo BDF4, rhs, b⟩) 4 ∧
    StartSucceedsWithin (fun rhs t y h => multistepInit g5 bo argsort (erkStarter RungeKutta4 gs K) rhs t y (some h))
      (fun zo rhs => ⟨implicitMultistep lib zo BDF5, rhs, b⟩) 5 ∧
    StartSucceedsWithin (fun rhs t y h => multistepInit g6 bo argsort (erkStarter RungeKutta4 gs K) rhs t y (some h))
      (fun zo rhs => ⟨implicitMultistep lib zo BDF6, rhs, b⟩) 5 := by
  have hB : ∀ q ≤ 4, OrderConditions RungeKutta4.A RungeKutta4.B q := fun q hq => OrderConditions.mono RungeKutta4_tree hq
  have ex := RungeKutta4_conditions (α := ℝ) |>.explicit
  have rs := RungeKutta4_rows
  refine ⟨?_, ?_, ?_, ?_, ?_, ?_, ?_, ?_⟩
  · exact C72_from_start (by norm_num) (r := 3) (by norm_num) le_rfl (by norm_num)
      (C72_steps (by norm_num) _ (stable_adams _ rfl) C30_AM3 hlib hs b) ex rs (hB 3 (by norm_num)) _ _ _ _ _
  · exact C72_from_start (by norm_num) (r := 1) le_rfl le_rfl (by norm_num)
      (C72_steps le_rfl _ (stable_adams _ rfl) C30_AM4_partial hlib hs b) ex rs (hB 1 (by norm_num)) _ _ _ _ _
  · exact C72_from_start (by norm_num) (r := 1) le_rfl le_rfl (by norm_num)
      (C72_steps le_rfl _ (stable_adams _ rfl) C30_AM5_partial hlib hs b) ex rs (hB 1 (by norm_num)) _ _ _ _ _
  · exact C72_from_start (by norm_num) (r := 2) (by norm_num) le_rfl (by norm_num)
      (C72_steps (by norm_num) _ stable_BDF2 C31_BDF2 hlib hs b) ex rs (hB 2 (by norm_num)) _ _ _ _ _
  · exact C72_from_start (by norm_num) (r := 3) (by norm_num) le_rfl (by norm_num)
      (C72_steps (by norm_num) _ stable_BDF3 C31_BDF3 hlib hs b) ex rs (hB 3 (by norm_num)) _ _ _ _ _
  · exact C72_from_start (by norm_num) (r := 4) (by norm_num) le_rfl (by norm_num)
      (C72_steps (by norm_num) _ stable_BDF4 C31_BDF4 hlib hs b) ex rs (hB 4 le_rfl) _ _ _ _ _
  · exact C72_from_start (by norm_num) (r := 4) (by norm_num) (by norm_num) le_rfl
      (C72_steps (by norm_num) _ stable_BDF5 C31_BDF5 hlib hs b) ex rs (hB 4 le_rfl) _ _ _ _ _
  · exact C72_from_start (by norm_num) (r := 4) (by norm_num) (by norm_num) le_rfl
      (C72_steps (by norm_num) _ stable_BDF6 (ExactOnPolynomials.mono C31_BDF6 (show 5 ≤ 6 by norm_num)) hlib hs b)
      ex rs (hB 4 le_rfl) _ _ _ _ _

end named

/-- Non-vacuity for C72: `BackwardEuler` on the pendulum `θ'' = -sin θ` (two components, not linear) with the options of the code
succeeds from every state reached with `|h| ≤ 1/15` whose equation is missed by at most one million. -/
example (b : Bound ℝ) (st : St ℝ 2 (histExtra 0) Unit) (h1 : |st.h| ≤ 1 / 15)
    (hR : ∀ d, |defect (BackwardEuler (α := ℝ)) st.cache st.h st.y (![st.y 1, -Real.sin (st.y 0)]) d| ≤ 10 ^ 6) :
    ∃ st', Takes ⟨implicitMultistep Demo.realLib Demo.realZeros BackwardEuler, pureRhs fun _ v => ![v 1, -Real.sin (v 0)], b⟩
      st st' := by
  refine C72_step (fun _ => rfl) Demo.realLib_exactSolve (by norm_num [Demo.realZeros]) (by norm_num [Demo.realZeros])
    (by norm_num [Demo.realZeros]) (by norm_num [Demo.realZeros]) BackwardEuler (fun _ v => ![v 1, -Real.sin (v 0)]) b st 1
    (10 ^ 6) (1 / 4) zero_le_one (fun u v d => ?_) ?_ (by norm_num) (by norm_num) hR (by norm_num [Demo.realZeros])
  · have k0 := norm_le_pi_norm (u - v : Fin 2 → ℝ) 0
    have k1 := norm_le_pi_norm (u - v : Fin 2 → ℝ) 1
    rw [one_mul]
    fin_cases d
    · simpa using k1
    · have h2 : |Real.sin (u 0) - Real.sin (v 0)| ≤ |u 0 - v 0| := by
        have := Real.abs_sin_sub_sin_le (u 0) (v 0)
        exact this
      show |-Real.sin (u 0) - -Real.sin (v 0)| ≤ _
      rw [neg_sub_neg, abs_sub_comm]
      exact h2.trans k0
  · have e : (BackwardEuler (α := ℝ)).Bn = 1 := rfl
    rw [e, mul_one, mul_one]
    push_cast
    linarith

theorem oscillator_solves (t : ℝ) : SolvesAt (n := 2) (fun _ v => ![v 1, -v 0]) (fun t => ![Real.sin t, Real.cos t]) t := by
  refine hasDerivAt_pi.mpr fun i => ?_
  fin_cases i
  · exact Real.hasDerivAt_sin t
  · exact Real.hasDerivAt_cos t

theorem oscillator_lipschitz (u v : Vec ℝ 2) (d : Fin 2) :
    |(![u 1, -u 0] : Fin 2 → ℝ) d - (![v 1, -v 0] : Fin 2 → ℝ) d| ≤ 1 * ‖(u - v : Fin 2 → ℝ)‖ := by
  have k0 := norm_le_pi_norm (u - v : Fin 2 → ℝ) 0
  have k1 := norm_le_pi_norm (u - v : Fin 2 → ℝ) 1
  rw [one_mul]
  fin_cases d
  · simpa using k1
  · show |-u 0 - -v 0| ≤ _
    rw [neg_sub_neg, abs_sub_comm]
    exact k0

theorem oscillator_smooth (q : ℕ) : ContDiff ℝ q (joint (n := 2) fun _ v => ![v 1, -v 0]) := by
  refine contDiff_pi.mpr fun i => ?_
  fin_cases i
  · exact (contDiff_apply ℝ ℝ 1).comp contDiff_snd
  · exact ((contDiff_apply ℝ ℝ 0).comp contDiff_snd).neg

/-- Non-vacuity for C72: `BDF2` on the harmonic oscillator from `(0, 1)` up to `T = 10`, with `tol = h³`. For all small `h` the
construction and all `10/h` steps succeed, and the error is at most `C h²`. -/
example (g2 : Buffer ℝ 2 (histExtra 1)) (g3 : Buffer ℝ 2 (histExtra 2)) (g4 : Buffer ℝ 2 (histExtra 3))
    (g5 : Buffer ℝ 2 (histExtra 4)) (g6 : Buffer ℝ 2 (histExtra 5)) (bo : BisectOpts ℝ) (argsort : List ℝ → List Nat)
    (gs : Buffer ℝ 2 0) (K : ErkAux ℝ 2 3) :
    ∃ C δ, 0 < δ ∧ ∀ h : ℝ, 0 < h → h ≤ δ → ∃ st,
      multistepInit g2 bo argsort (erkStarter RungeKutta4 gs K) (pureRhs fun _ v => ![v 1, -v 0]) 0 (![0, 1]) (some h) =
        some (.ok st) ∧
      ∀ m : ℕ, h + m * h ≤ 10 → ∃ l v, l.length = m ∧
        Path ⟨implicitMultistep Demo.realLib ⟨1 / 10 ^ 4, 1 / 10 ^ 10, h ^ 3, 0⟩ BDF2, pureRhs fun _ v => ![v 1, -v 0], .inf⟩
          .inf st l v ∧
        ∀ u ∈ l, |u.y 0 - Real.sin u.t| ≤ C * h ^ 2 := by
  obtain ⟨C, δ, hδ, hC⟩ := (C72_started (n := 2) bo argsort (lib := Demo.realLib) (fun _ => rfl) Demo.realLib_exactSolve .inf gs K
    g2 g3 g4 g5 g6).2.2.2.1 (fun _ v => ![v 1, -v 0]) (fun t => ![Real.sin t, Real.cos t]) (-1) 11 0 10 1 (oscillator_smooth 2)
    (by norm_num) (by norm_num) (by norm_num) (fun t _ => oscillator_solves t) fun _ u v d => oscillator_lipschitz u v d
  refine ⟨2 * C, min δ 1, by positivity, fun h h0 h1 => ?_⟩
  have k1 : h ≤ δ := h1.trans (min_le_left _ _)
  have k2 : h ≤ 1 := h1.trans (min_le_right _ _)
  have e : h ^ 3 / h = h ^ 2 := by field_simp
  obtain ⟨st, e1, e2, e3⟩ := hC ⟨1 / 10 ^ 4, 1 / 10 ^ 10, h ^ 3, 0⟩ ⟨⟨by norm_num, by positivity, rfl⟩, by norm_num⟩ h h0 k1
    (pow_le_pow_of_le_one h0.le k2 (by norm_num)) (by
      show h ^ 3 / h ≤ δ
      rw [e]
      calc h ^ 2 ≤ h ^ 1 := pow_le_pow_of_le_one h0.le k2 (by norm_num)
        _ ≤ δ := by rw [pow_one]; exact k1)
  refine ⟨st, ?_, fun m hm => ?_⟩
  · simpa only [Real.sin_zero, Real.cos_zero] using e1
  · obtain ⟨l, v, h3, h4, h5⟩ := e3 m (by rw [e2]; simpa using hm)
    refine ⟨l, v, h3, h4, fun u hu => ?_⟩
    have := h5 u hu 0
    rw [e] at this
    calc |u.y 0 - Real.sin u.t| ≤ C * (h ^ 2 + h ^ 2) := this
      _ = _ := by ring

end Nbkode
