import Verif.Proofs.Stability
import Verif.Props.Convergence

/-!
# C102: which step sizes keep the explicit Runge-Kutta methods stable

`ForwardEuler` (the same as `AdamsBashforth1`), `Runge2`, `Runge3`, `Heun3`, `RungeKutta4`, `RungeKutta3_8`.
-/

set_option autoImplicit false
set_option linter.unusedSectionVars false

namespace Nbkode
open Py Spec Solver Polynomial

variable {n k s : Nat} {Y : Type}

/-- The steps of a class are Runge-Kutta steps of the size kept in the state. -/
def FixedRK (T : Tableau ℝ s) (cls : Rhs ℝ n → Solver ℝ n k Y) : Prop :=
  ∀ (f : ℝ → Vec ℝ n → Vec ℝ n) (u v : St ℝ n k Y), u.f = f u.t u.y → Takes (cls (pureRhs f)) u v →
    v.t = u.t + u.h ∧ v.h = u.h ∧ v.f = f v.t v.y ∧ ∃ K, RKStages T (pureRhs f) u.t u.h u.y K ∧ v.y = rkNew T u.h u.y K

theorem erk_fixed (T : Tableau ℝ s) (hT : Explicit T) (b : Bound ℝ) : FixedRK T (fun rhs : Rhs ℝ n => ⟨erk T, rhs, b⟩) := by
  intro f u v hf h
  obtain ⟨K, f', h1, h2, rfl⟩ := (erk_takes_iff T hT _ b u v (by rw [hf]; rfl)).mp h
  have h3 : f (u.t + u.h) (rkNew T u.h u.y K) = f' := by simpa [pureRhs] using h2
  refine ⟨push_t .., rfl, ?_, K, h1, push_y ..⟩
  exact (push_f ..).trans (by simp only [St.t, St.y, push_t, push_y]; exact h3.symm)

theorem euler_fixed (b : Bound ℝ) : FixedRK eulerTableau (fun rhs : Rhs ℝ n => ⟨explicitMultistep ForwardEuler, rhs, b⟩) := by
  intro f u v hf h
  obtain ⟨x, K, h1, h2, h3, h4⟩ := euler_steps b f u v hf h
  obtain ⟨y', f', -, -, rfl⟩ := (explicit_takes_iff ForwardEuler rfl _ b u v).mp h
  have e : x = u.h := by
    have : u.t + u.h = u.t + x := (push_t ..).symm.trans h2
    linarith
  subst e
  exact ⟨h2, rfl, h4, K, h1, h3⟩

/-- What the tableau does to a difference: `E_i` are the differences of the stages times `h`. -/
def FactorOf (T : Tableau ℝ s) (R : ℝ[X]) : Prop :=
  ∀ {n : ℕ} (A : Vec ℝ n →ₗ[ℝ] Vec ℝ n) (d : Vec ℝ n) (E : Fin (s + 1) → Vec ℝ n),
    (∀ i, E i = A (d + ∑ j, T.A i j • E j)) → d + ∑ j, T.B j • E j = aeval A R d

theorem multiplies_of_factor {T : Tableau ℝ s} {cls : Rhs ℝ n → Solver ℝ n k Y} (hC : FixedRK T cls) {R : ℝ[X]} (hR : FactorOf T R) :
    Multiplies cls R := by
  intro L g t₀ h N u v hu hv
  have state : ∀ (w : ℕ → St ℝ n k Y), Steps cls (affine L g) t₀ h N w → ∀ j ≤ N, (w j).t = t₀ + j * h ∧ (w j).h = h ∧
      (w j).f = affine L g (w j).t (w j).y := by
    intro w hw j
    induction j with
    | zero => intro _; exact ⟨by simp [hw.time], hw.size, by rw [hw.time]; exact hw.slope⟩
    | succ j ih =>
      intro hj
      obtain ⟨a1, a2, a3⟩ := ih (by omega)
      obtain ⟨b1, b2, b3, -⟩ := hC _ _ _ a3 (hw.takes j (by omega))
      exact ⟨by rw [b1, a1, a2]; push_cast; ring, b2.trans a2, b3⟩
  have main : ∀ j ≤ N, (u j).y - (v j).y = (aeval (h • L) R ^ j) ((u 0).y - (v 0).y) := by
    intro j
    induction j with
    | zero => intro _; simp
    | succ j ih =>
      intro hj
      obtain ⟨a1, a2, a3⟩ := state u hu j (by omega)
      obtain ⟨b1, b2, b3⟩ := state v hv j (by omega)
      obtain ⟨-, -, -, K, k1, k2⟩ := hC _ _ _ a3 (hu.takes j (by omega))
      obtain ⟨-, -, -, K', k1', k2'⟩ := hC _ _ _ b3 (hv.takes j (by omega))
      rw [pow_succ', Module.End.mul_apply, ← ih (by omega)]
      rw [a1, a2] at k1
      rw [b1, b2] at k1'
      rw [a2] at k2
      rw [b2] at k2'
      have key := hR (h • L) ((u j).y - (v j).y) (fun i => h • (K i - K' i)) ?_
      · rw [← key, k2, k2']
        funext d
        simp only [rkNew, Pi.sub_apply, Pi.add_apply, Finset.sum_apply, Pi.smul_apply, smul_eq_mul]
        rw [Finset.mul_sum, Finset.mul_sum]
        rw [show ∀ a b c e : ℝ, a + b - (c + e) = a - c + (b - e) from fun _ _ _ _ => by ring, ← Finset.sum_sub_distrib]
        congr 1
        exact Finset.sum_congr rfl fun i _ => by ring
      · intro i
        have c1 : affine L g (t₀ + j * h + T.C i * h) (fun d => (u j).y d + h * ∑ l, T.A i l * K l d) = K i := by simpa [pureRhs] using k1 i
        have c2 : affine L g (t₀ + j * h + T.C i * h) (fun d => (v j).y d + h * ∑ l, T.A i l * K' l d) = K' i := by simpa [pureRhs] using k1' i
        show h • (K i - K' i) = h • L _
        rw [← c1, ← c2]
        unfold affine
        rw [add_sub_add_right_eq_sub, ← map_sub]
        congr 2
        funext d
        simp only [Pi.sub_apply, Pi.add_apply, Finset.sum_apply, Pi.smul_apply, smul_eq_mul]
        rw [Finset.mul_sum, Finset.mul_sum]
        rw [show ∀ a b c e : ℝ, a + b - (c + e) = a - c + (b - e) from fun _ _ _ _ => by ring, ← Finset.sum_sub_distrib]
        congr 1
        exact Finset.sum_congr rfl fun i _ => by ring
  exact main N le_rfl

/-! ### The stability functions -/

theorem factor_euler : FactorOf eulerTableau (1 + X) := by
  intro n A d E h
  have h0 := h 0
  simp [eulerTableau] at h0 ⊢
  rw [h0]

theorem factor_Runge2 : FactorOf Runge2 (1 + X + C (1 / 2) * X ^ 2) := by
  intro n A d E h
  have h0 := h 0
  have h1 := h 1
  simp [Runge2, q, Fin.sum_univ_two] at h0 h1 ⊢
  rw [h1, h0]
  simp only [pow_two, Module.End.mul_apply, Algebra.algebraMap_eq_smul_one, LinearMap.smul_apply, Module.End.one_apply]
  module

theorem factor_Heun3 : FactorOf Heun3 (1 + X + C (1 / 2) * X ^ 2 + C (1 / 6) * X ^ 3) := by
  intro n A d E h
  have h0 := h 0
  have h1 := h 1
  have h2 := h 2
  simp [Heun3, q, Fin.sum_univ_three] at h0 h1 h2 ⊢
  rw [h2, h1, h0]
  simp only [pow_succ, pow_zero, one_mul, Module.End.mul_apply, Algebra.algebraMap_eq_smul_one, LinearMap.smul_apply, Module.End.one_apply, map_add, map_smul]
  module

theorem factor_Runge3 : FactorOf Runge3 (1 + X + C (1 / 2) * X ^ 2 + C (1 / 6) * X ^ 3 + C (1 / 12) * X ^ 4) := by
  intro n A d E h
  have h0 := h 0
  have h1 := h 1
  have h2 := h 2
  have h3 := h 3
  simp [Runge3, q, Fin.sum_univ_four] at h0 h1 h2 h3 ⊢
  rw [h3, h2, h1, h0]
  simp only [pow_succ, pow_zero, one_mul, Module.End.mul_apply, Algebra.algebraMap_eq_smul_one, LinearMap.smul_apply, Module.End.one_apply, map_add, map_smul]
  module

theorem factor_RungeKutta4 : FactorOf RungeKutta4 (1 + X + C (1 / 2) * X ^ 2 + C (1 / 6) * X ^ 3 + C (1 / 24) * X ^ 4) := by
  intro n A d E h
  have h0 := h 0
  have h1 := h 1
  have h2 := h 2
  have h3 := h 3
  simp [RungeKutta4, q, Fin.sum_univ_four] at h0 h1 h2 h3 ⊢
  rw [h3, h2, h1, h0]
  simp only [pow_succ, pow_zero, one_mul, Module.End.mul_apply, Algebra.algebraMap_eq_smul_one, LinearMap.smul_apply, Module.End.one_apply, map_add, map_smul]
  module

theorem factor_RungeKutta3_8 : FactorOf RungeKutta3_8 (1 + X + C (1 / 2) * X ^ 2 + C (1 / 6) * X ^ 3 + C (1 / 24) * X ^ 4) := by
  intro n A d E h
  have h0 := h 0
  have h1 := h 1
  have h2 := h 2
  have h3 := h 3
  simp [RungeKutta3_8, q, Fin.sum_univ_four] at h0 h1 h2 h3 ⊢
  rw [h3, h2, h1, h0]
  simp only [pow_succ, pow_zero, one_mul, Module.End.mul_apply, Algebra.algebraMap_eq_smul_one, LinearMap.smul_apply, Module.End.one_apply, map_add, map_smul, map_neg]
  module

/-! ### What follows from the stability function -/

theorem stable_of {cls : Rhs ℝ n → Solver ℝ n k Y} {R : ℝ[X]} (hM : Multiplies cls R) {s : ℝ}
    (hR : ∀ x, 0 ≤ x → x ≤ s → |R.eval (-x)| ≤ 1) : StableUpTo cls s := by
  intro L c g t₀ h N u v hL hh hs hu hv
  rw [hM L g t₀ h N u v hu hv]
  have symm : ∀ v w, ∑ i, (h • L) v i * w i = ∑ i, v i * (h • L) w i := by
    intro v w
    have := hL.symm v w
    simp only [LinearMap.smul_apply, Pi.smul_apply, smul_eq_mul]
    rw [show ∑ i, h * L v i * w i = h * ∑ i, L v i * w i from by rw [Finset.mul_sum]; exact Finset.sum_congr rfl fun i _ => by ring,
      this, Finset.mul_sum]
    exact Finset.sum_congr rfl fun i _ => by ring
  refine length_pow_le (fun x => length_aeval_le symm R (fun e lam he h1 => ?_) x) N _
  have e1 : lam = h * ∑ i, L e i * e i := by
    have : ∑ i, (h • L) e i * e i = lam * ∑ i, e i ^ 2 := by
      rw [he, Finset.mul_sum]
      exact Finset.sum_congr rfl fun i _ => by simp only [Pi.smul_apply, smul_eq_mul]; ring
    rw [h1, mul_one] at this
    rw [← this, Finset.mul_sum]
    exact Finset.sum_congr rfl fun i _ => by simp only [LinearMap.smul_apply, Pi.smul_apply, smul_eq_mul]; ring
  have e2 := hL.nonpos e
  have e3 := hL.rate e
  rw [h1, mul_one] at e3
  have := hR (-lam) (by rw [e1]; nlinarith) (by rw [e1]; nlinarith)
  rwa [neg_neg] at this

theorem grows_of {cls : Rhs ℝ n → Solver ℝ n k Y} {R : ℝ[X]} (hM : Multiplies cls R) {s : ℝ} (hR : ∀ x, s < x → 1 < |R.eval (-x)|) :
    GrowsBeyond cls s := by
  intro x hx
  refine ⟨_, hR x hx, fun L lam g t₀ h N u v he hl hu hv => ?_⟩
  rw [hM L g t₀ h N u v hu hv, aeval_pow_eigen (lam := -x), length_smul, abs_pow]
  rw [LinearMap.smul_apply, he, smul_smul, hl]

theorem turns_of {cls : Rhs ℝ n → Solver ℝ n k Y} {R : ℝ[X]} (hM : Multiplies cls R) {a b r : ℝ → ℝ}
    (hR : ∀ (A : Vec ℝ n →ₗ[ℝ] Vec ℝ n) (x : ℝ) (w : Vec ℝ n), A (A w) = -x ^ 2 • w → aeval A R w = a x • w + b x • A w)
    (hr : ∀ x, r x = a x ^ 2 + b x ^ 2 * x ^ 2) : TurnsBy cls r := by
  intro L ω g t₀ h N u v hL hw hu hv
  rw [hM L g t₀ h N u v hu hv, hr]
  refine turn_pow (L := h • L) (P := aeval (h • L) R) ?_ (fun w hw => hR _ _ w hw) N _ ?_
  · intro w
    have := hL w
    simp only [LinearMap.smul_apply, Pi.smul_apply, smul_eq_mul, mul_assoc]
    rw [← Finset.mul_sum, this, mul_zero]
  · rw [LinearMap.smul_apply, LinearMap.smul_apply, map_smul, hw]
    module

/-! ### The property -/

/-- **C102**: the stability function of `ForwardEuler`. -/
theorem C102_factor_ForwardEuler (b : Bound ℝ) :
    Multiplies (fun rhs : Rhs ℝ n => (⟨explicitMultistep ForwardEuler, rhs, b⟩ : Solver ℝ n 0 Unit)) (1 + X) :=
  multiplies_of_factor (euler_fixed b) factor_euler

/-- **C102**: the stability function of `Runge2`. -/
theorem C102_factor_Runge2 (b : Bound ℝ) : Multiplies (fun rhs : Rhs ℝ n => ⟨erk Runge2, rhs, b⟩) (1 + X + C (1 / 2) * X ^ 2) :=
  multiplies_of_factor (erk_fixed _ Runge2_conditions.explicit b) factor_Runge2

/-- **C102**: the stability function of `Runge3`. -/
theorem C102_factor_Runge3 (b : Bound ℝ) :
    Multiplies (fun rhs : Rhs ℝ n => ⟨erk Runge3, rhs, b⟩) (1 + X + C (1 / 2) * X ^ 2 + C (1 / 6) * X ^ 3 + C (1 / 12) * X ^ 4) :=
  multiplies_of_factor (erk_fixed _ Runge3_conditions.explicit b) factor_Runge3

/-- **C102**: the stability function of `Heun3`. -/
theorem C102_factor_Heun3 (b : Bound ℝ) :
    Multiplies (fun rhs : Rhs ℝ n => ⟨erk Heun3, rhs, b⟩) (1 + X + C (1 / 2) * X ^ 2 + C (1 / 6) * X ^ 3) :=
  multiplies_of_factor (erk_fixed _ Heun3_conditions.explicit b) factor_Heun3

/-- **C102**: the stability function of `RungeKutta4`. -/
theorem C102_factor_RungeKutta4 (b : Bound ℝ) :
    Multiplies (fun rhs : Rhs ℝ n => ⟨erk RungeKutta4, rhs, b⟩) (1 + X + C (1 / 2) * X ^ 2 + C (1 / 6) * X ^ 3 + C (1 / 24) * X ^ 4) :=
  multiplies_of_factor (erk_fixed _ RungeKutta4_conditions.explicit b) factor_RungeKutta4

/-- **C102**: the stability function of `RungeKutta3_8`. -/
theorem C102_factor_RungeKutta3_8 (b : Bound ℝ) :
    Multiplies (fun rhs : Rhs ℝ n => ⟨erk RungeKutta3_8, rhs, b⟩) (1 + X + C (1 / 2) * X ^ 2 + C (1 / 6) * X ^ 3 + C (1 / 24) * X ^ 4) :=
  multiplies_of_factor (erk_fixed _ RungeKutta3_8_conditions.explicit b) factor_RungeKutta3_8

/-- **C102**: `ForwardEuler` is stable on damped problems up to `h c = 2` and not beyond. -/
theorem C102_limit_ForwardEuler (b : Bound ℝ) :
    StableUpTo (fun rhs : Rhs ℝ n => (⟨explicitMultistep ForwardEuler, rhs, b⟩ : Solver ℝ n 0 Unit)) 2 ∧
      GrowsBeyond (fun rhs : Rhs ℝ n => (⟨explicitMultistep ForwardEuler, rhs, b⟩ : Solver ℝ n 0 Unit)) 2 := by
  refine ⟨stable_of (C102_factor_ForwardEuler b) fun x h0 h2 => ?_, grows_of (C102_factor_ForwardEuler b) fun x hx => ?_⟩
  · simp only [eval_add, eval_one, eval_X]
    rw [abs_le]; constructor <;> linarith
  · simp only [eval_add, eval_one, eval_X]
    rw [lt_abs]; right; linarith

/-- **C102**: `Runge2` up to 2. -/
theorem C102_limit_Runge2 (b : Bound ℝ) : StableUpTo (fun rhs : Rhs ℝ n => ⟨erk Runge2, rhs, b⟩) 2 ∧
    GrowsBeyond (fun rhs : Rhs ℝ n => ⟨erk Runge2, rhs, b⟩) 2 := by
  refine ⟨stable_of (C102_factor_Runge2 b) fun x h0 h2 => ?_, grows_of (C102_factor_Runge2 b) fun x hx => ?_⟩
  · simp only [eval_add, eval_one, eval_X, eval_mul, eval_C, eval_pow]
    rw [abs_le]; constructor <;> nlinarith
  · simp only [eval_add, eval_one, eval_X, eval_mul, eval_C, eval_pow]
    rw [lt_abs]; left; nlinarith

/-- **C102**: `Runge3` up to 2 only, though of order three. -/
theorem C102_limit_Runge3 (b : Bound ℝ) : StableUpTo (fun rhs : Rhs ℝ n => ⟨erk Runge3, rhs, b⟩) 2 ∧
    GrowsBeyond (fun rhs : Rhs ℝ n => ⟨erk Runge3, rhs, b⟩) 2 := by
  have key : ∀ x : ℝ, 1 + -x + 1 / 2 * (-x) ^ 2 + 1 / 6 * (-x) ^ 3 + 1 / 12 * (-x) ^ 4 = 1 + x * (x - 2) * (x ^ 2 + 6) / 12 := fun x => by ring
  refine ⟨stable_of (C102_factor_Runge3 b) fun x h0 h2 => ?_, grows_of (C102_factor_Runge3 b) fun x hx => ?_⟩
  · simp only [eval_add, eval_one, eval_X, eval_mul, eval_C, eval_pow]
    rw [key, abs_le]
    have h1 : 0 ≤ x * (2 - x) := mul_nonneg h0 (by linarith)
    have h3 : x * (2 - x) ≤ 1 := by nlinarith [sq_nonneg (x - 1)]
    constructor <;> nlinarith [mul_nonneg h1 (sq_nonneg x), mul_nonneg (sub_nonneg.2 h3) (sq_nonneg x)]
  · simp only [eval_add, eval_one, eval_X, eval_mul, eval_C, eval_pow]
    rw [key, lt_abs]; left
    have : 0 < x * (x - 2) * (x ^ 2 + 6) := by
      have : 0 < x := by linarith
      have : 0 < x - 2 := by linarith
      positivity
    linarith

/-- The limit of `Heun3`. -/
theorem exists_limit3 : ∃ s : ℝ, 251 / 100 < s ∧ s < 252 / 100 ∧ ∀ x : ℝ, (x ≤ s → 0 ≤ 2 - x + x ^ 2 / 2 - x ^ 3 / 6) ∧
    (s < x → 2 - x + x ^ 2 / 2 - x ^ 3 / 6 < 0) := by
  have mono : ∀ x y : ℝ, x < y → 2 - y + y ^ 2 / 2 - y ^ 3 / 6 < 2 - x + x ^ 2 / 2 - x ^ 3 / 6 := by
    intro x y hxy
    have : (2 - x + x ^ 2 / 2 - x ^ 3 / 6) - (2 - y + y ^ 2 / 2 - y ^ 3 / 6) = (y - x) * (1 - (x + y) / 2 + (x ^ 2 + x * y + y ^ 2) / 6) := by ring
    have h2 : 0 < 1 - (x + y) / 2 + (x ^ 2 + x * y + y ^ 2) / 6 := by nlinarith [sq_nonneg (x + y - 2), sq_nonneg (x - y)]
    nlinarith [mul_pos (sub_pos.2 hxy) h2]
  obtain ⟨s, hs, h0⟩ := intermediate_value_Icc' (a := (251 / 100 : ℝ)) (b := 252 / 100) (by norm_num)
    (f := fun x : ℝ => 2 - x + x ^ 2 / 2 - x ^ 3 / 6) (by fun_prop) (show (0 : ℝ) ∈ Set.Icc _ _ by norm_num)
  simp only at h0
  refine ⟨s, lt_of_le_of_ne hs.1 ?_, lt_of_le_of_ne hs.2 ?_, fun x => ⟨fun h => ?_, fun h => ?_⟩⟩
  · rintro rfl; norm_num at h0
  · rintro rfl; norm_num at h0
  · rcases h.eq_or_lt with rfl | h
    · exact h0.ge
    · linarith [mono x s h]
  · linarith [mono s x h]

/-- The limit of the methods of order four. -/
theorem exists_limit4 : ∃ s : ℝ, 278 / 100 < s ∧ s < 279 / 100 ∧ ∀ x : ℝ, (x ≤ s → x ^ 3 / 24 - x ^ 2 / 6 + x / 2 - 1 ≤ 0) ∧
    (s < x → 0 < x ^ 3 / 24 - x ^ 2 / 6 + x / 2 - 1) := by
  have mono : ∀ x y : ℝ, x < y → x ^ 3 / 24 - x ^ 2 / 6 + x / 2 - 1 < y ^ 3 / 24 - y ^ 2 / 6 + y / 2 - 1 := by
    intro x y hxy
    have : (y ^ 3 / 24 - y ^ 2 / 6 + y / 2 - 1) - (x ^ 3 / 24 - x ^ 2 / 6 + x / 2 - 1) = (y - x) * (1 / 2 - (x + y) / 6 + (x ^ 2 + x * y + y ^ 2) / 24) := by ring
    have h2 : 0 < 1 / 2 - (x + y) / 6 + (x ^ 2 + x * y + y ^ 2) / 24 := by nlinarith [sq_nonneg (x + y - 8 / 3), sq_nonneg (x - y)]
    nlinarith [mul_pos (sub_pos.2 hxy) h2]
  obtain ⟨s, hs, h0⟩ := intermediate_value_Icc (a := (278 / 100 : ℝ)) (b := 279 / 100) (by norm_num)
    (f := fun x : ℝ => x ^ 3 / 24 - x ^ 2 / 6 + x / 2 - 1) (by fun_prop) (show (0 : ℝ) ∈ Set.Icc _ _ by norm_num)
  simp only at h0
  refine ⟨s, lt_of_le_of_ne hs.1 ?_, lt_of_le_of_ne hs.2 ?_, fun x => ⟨fun h => ?_, fun h => ?_⟩⟩
  · rintro rfl; norm_num at h0
  · rintro rfl; norm_num at h0
  · rcases h.eq_or_lt with rfl | h
    · exact h0.le
    · linarith [mono x s h]
  · linarith [mono s x h]

/-- **C102**: `Heun3` up to about 2.51. -/
theorem C102_limit_Heun3 (b : Bound ℝ) : ∃ s : ℝ, 251 / 100 < s ∧ s < 252 / 100 ∧ StableUpTo (fun rhs : Rhs ℝ n => ⟨erk Heun3, rhs, b⟩) s ∧
    GrowsBeyond (fun rhs : Rhs ℝ n => ⟨erk Heun3, rhs, b⟩) s := by
  obtain ⟨s, s1, s2, hs⟩ := exists_limit3
  have key : ∀ x : ℝ, 1 + -x + 1 / 2 * (-x) ^ 2 + 1 / 6 * (-x) ^ 3 = -1 + (2 - x + x ^ 2 / 2 - x ^ 3 / 6) := fun x => by ring
  refine ⟨s, s1, s2, stable_of (C102_factor_Heun3 b) fun x h0 h2 => ?_, grows_of (C102_factor_Heun3 b) fun x hx => ?_⟩
  · simp only [eval_add, eval_one, eval_X, eval_mul, eval_C, eval_pow]
    rw [key, abs_le]
    have := (hs x).1 h2
    refine ⟨by linarith, ?_⟩
    nlinarith [mul_nonneg h0 (sq_nonneg (x - 3 / 2))]
  · simp only [eval_add, eval_one, eval_X, eval_mul, eval_C, eval_pow]
    rw [key, lt_abs]; right
    have := (hs x).2 hx
    linarith

theorem limit4 {cls : Rhs ℝ n → Solver ℝ n k Y} (hM : Multiplies cls (1 + X + C (1 / 2) * X ^ 2 + C (1 / 6) * X ^ 3 + C (1 / 24) * X ^ 4)) :
    ∃ s : ℝ, 278 / 100 < s ∧ s < 279 / 100 ∧ StableUpTo cls s ∧ GrowsBeyond cls s := by
  obtain ⟨s, s1, s2, hs⟩ := exists_limit4
  have key : ∀ x : ℝ, 1 + -x + 1 / 2 * (-x) ^ 2 + 1 / 6 * (-x) ^ 3 + 1 / 24 * (-x) ^ 4 = 1 + x * (x ^ 3 / 24 - x ^ 2 / 6 + x / 2 - 1) :=
    fun x => by ring
  refine ⟨s, s1, s2, stable_of hM fun x h0 h2 => ?_, grows_of hM fun x hx => ?_⟩
  · simp only [eval_add, eval_one, eval_X, eval_mul, eval_C, eval_pow]
    rw [key, abs_le]
    have := (hs x).1 h2
    refine ⟨?_, by nlinarith⟩
    nlinarith [sq_nonneg (x ^ 2 - 2 * x), sq_nonneg (x - 3 / 2), sq_nonneg (x ^ 2 - 2 * x + 1)]
  · simp only [eval_add, eval_one, eval_X, eval_mul, eval_C, eval_pow]
    rw [key, lt_abs]; left
    have := (hs x).2 hx
    have : 0 < x := by linarith
    nlinarith [mul_pos this ((hs x).2 hx)]

/-- **C102**: `RungeKutta4` up to about 2.785. -/
theorem C102_limit_RungeKutta4 (b : Bound ℝ) : ∃ s : ℝ, 278 / 100 < s ∧ s < 279 / 100 ∧
    StableUpTo (fun rhs : Rhs ℝ n => ⟨erk RungeKutta4, rhs, b⟩) s ∧ GrowsBeyond (fun rhs : Rhs ℝ n => ⟨erk RungeKutta4, rhs, b⟩) s :=
  limit4 (C102_factor_RungeKutta4 b)

/-- **C102**: `RungeKutta3_8`, the same. -/
theorem C102_limit_RungeKutta3_8 (b : Bound ℝ) : ∃ s : ℝ, 278 / 100 < s ∧ s < 279 / 100 ∧
    StableUpTo (fun rhs : Rhs ℝ n => ⟨erk RungeKutta3_8, rhs, b⟩) s ∧ GrowsBeyond (fun rhs : Rhs ℝ n => ⟨erk RungeKutta3_8, rhs, b⟩) s :=
  limit4 (C102_factor_RungeKutta3_8 b)

/-- **C102**: `ForwardEuler` makes every oscillation grow. -/
theorem C102_turn_ForwardEuler (b : Bound ℝ) :
    TurnsBy (fun rhs : Rhs ℝ n => (⟨explicitMultistep ForwardEuler, rhs, b⟩ : Solver ℝ n 0 Unit)) fun x => 1 + x ^ 2 := by
  refine turns_of (a := fun _ => 1) (b := fun _ => 1) (C102_factor_ForwardEuler b) (fun A x w hw => ?_) fun x => by ring
  simp

/-- **C102**: so does `Runge2`. -/
theorem C102_turn_Runge2 (b : Bound ℝ) : TurnsBy (fun rhs : Rhs ℝ n => ⟨erk Runge2, rhs, b⟩) fun x => 1 + x ^ 4 / 4 := by
  refine turns_of (a := fun x => 1 - x ^ 2 / 2) (b := fun _ => 1) (C102_factor_Runge2 b) (fun A x w hw => ?_) fun x => by ring
  simp [pow_two, hw, Algebra.algebraMap_eq_smul_one]
  module

/-- **C102**: `Runge3` makes an oscillation grow if `(h ω)^2` is below 2 or above 6, and shrink between: the factor is
`1 + (h ω)^4 ((h ω)^2 - 2) ((h ω)^2 - 6) / 144`. -/
theorem C102_turn_Runge3 (b : Bound ℝ) :
    TurnsBy (fun rhs : Rhs ℝ n => ⟨erk Runge3, rhs, b⟩) fun x => 1 + x ^ 4 * (x ^ 2 - 2) * (x ^ 2 - 6) / 144 := by
  refine turns_of (a := fun x => 1 - x ^ 2 / 2 + x ^ 4 / 12) (b := fun x => 1 - x ^ 2 / 6) (C102_factor_Runge3 b) (fun A x w hw => ?_)
    fun x => by ring
  simp [pow_succ, hw, Algebra.algebraMap_eq_smul_one]
  module

/-- **C102**: `Heun3` does not make it grow if `(h ω)^2 ≤ 3`: the factor is `1 - (h ω)^4 (3 - (h ω)^2) / 36`. -/
theorem C102_turn_Heun3 (b : Bound ℝ) :
    TurnsBy (fun rhs : Rhs ℝ n => ⟨erk Heun3, rhs, b⟩) fun x => 1 - x ^ 4 * (3 - x ^ 2) / 36 := by
  refine turns_of (a := fun x => 1 - x ^ 2 / 2) (b := fun x => 1 - x ^ 2 / 6) (C102_factor_Heun3 b) (fun A x w hw => ?_) fun x => by ring
  simp [pow_succ, hw, Algebra.algebraMap_eq_smul_one]
  module

theorem turn4 {cls : Rhs ℝ n → Solver ℝ n k Y} (hM : Multiplies cls (1 + X + C (1 / 2) * X ^ 2 + C (1 / 6) * X ^ 3 + C (1 / 24) * X ^ 4)) :
    TurnsBy cls fun x => 1 - x ^ 6 * (8 - x ^ 2) / 576 := by
  refine turns_of (a := fun x => 1 - x ^ 2 / 2 + x ^ 4 / 24) (b := fun x => 1 - x ^ 2 / 6) hM (fun A x w hw => ?_) fun x => by ring
  simp [pow_succ, hw, Algebra.algebraMap_eq_smul_one]
  module

/-- **C102**: `RungeKutta4` does not make it grow if `(h ω)^2 ≤ 8`: the factor is `1 - (h ω)^6 (8 - (h ω)^2) / 576`. -/
theorem C102_turn_RungeKutta4 (b : Bound ℝ) :
    TurnsBy (fun rhs : Rhs ℝ n => ⟨erk RungeKutta4, rhs, b⟩) fun x => 1 - x ^ 6 * (8 - x ^ 2) / 576 := turn4 (C102_factor_RungeKutta4 b)

/-- **C102**: `RungeKutta3_8`, the same. -/
theorem C102_turn_RungeKutta3_8 (b : Bound ℝ) :
    TurnsBy (fun rhs : Rhs ℝ n => ⟨erk RungeKutta3_8, rhs, b⟩) fun x => 1 - x ^ 6 * (8 - x ^ 2) / 576 := turn4 (C102_factor_RungeKutta3_8 b)

/-! ### Cases -/

namespace Demo

/-- There are any number of steps from any state. -/
def HasSteps (cls : Rhs ℝ n → Solver ℝ n k Y) : Prop :=
  ∀ f t₀ h (y₀ : Vec ℝ n) (N : ℕ), ∃ u, Steps cls f t₀ h N u ∧ (u 0).y = y₀

theorem hasSteps {cls : Rhs ℝ n → Solver ℝ n k Y} (aux : Y)
    (hS : ∀ (f : ℝ → Vec ℝ n → Vec ℝ n) (w : St ℝ n k Y), w.f = f w.t w.y → ∃ v, Takes (cls (pureRhs f)) w v ∧ v.f = f v.t v.y) : HasSteps cls := by
  intro f t₀ h y₀ N
  choose! nx h1 h2 using hS f
  let u : ℕ → St ℝ n k Y := fun j => nx^[j] ⟨⟨fun _ => t₀, fun _ => y₀, fun _ => f t₀ y₀⟩, h, aux⟩
  have inv : ∀ j, (u j).f = f (u j).t (u j).y := by
    intro j
    induction j with
    | zero => rfl
    | succ j ih =>
      show (nx^[j + 1] _).f = _
      have e : u (j + 1) = nx (u j) := Function.iterate_succ_apply' nx j _
      change (u (j + 1)).f = f (u (j + 1)).t (u (j + 1)).y
      rw [e]
      exact h2 _ ih
  refine ⟨u, ⟨rfl, rfl, rfl, fun j _ => ?_⟩, rfl⟩
  have e : u (j + 1) = nx (u j) := Function.iterate_succ_apply' nx j _
  rw [e]
  exact h1 _ (inv j)

theorem erk_hasSteps {T : Tableau ℝ s} (hT : Explicit T) (b : Bound ℝ) : HasSteps (fun rhs : Rhs ℝ n => ⟨erk T, rhs, b⟩) := by
  refine hasSteps (fun _ => 0) fun f w hw => ?_
  obtain ⟨v, h1, -, -, h2⟩ := erk_takes hT b f w hw
  exact ⟨v, h1, h2⟩

theorem euler_hasSteps (b : Bound ℝ) : HasSteps (fun rhs : Rhs ℝ n => (⟨explicitMultistep ForwardEuler, rhs, b⟩ : Solver ℝ n 0 Unit)) := by
  refine hasSteps () fun f w hw => ?_
  obtain ⟨v, h1⟩ : ∃ v, Takes (⟨explicitMultistep ForwardEuler, pureRhs f, b⟩ : Solver ℝ n 0 Unit) w v :=
    ⟨⟨Buffer.push (k := histExtra 0) w.cache (w.t + w.h) (multistepK (p := 0) ForwardEuler w.cache w.h) (f (w.t + w.h)
      (multistepK (p := 0) ForwardEuler w.cache w.h)), w.h, ()⟩, explicitMultistepBody_run (p := 0) ForwardEuler (pureRhs f) w⟩
  exact ⟨v, h1, (euler_fixed b f w v hw h1).2.2.1⟩

/-- Two decays, at rates 1 and 3. -/
noncomputable def decay : Vec ℝ 2 →ₗ[ℝ] Vec ℝ 2 := Matrix.mulVecLin !![-1, 0; 0, -3]

/-- A rotation. -/
noncomputable def turn : Vec ℝ 2 →ₗ[ℝ] Vec ℝ 2 := Matrix.mulVecLin !![0, -1; 1, 0]

theorem decay_damping : Damping decay 3 := by
  refine ⟨fun v w => ?_, fun v => ?_, fun v => ?_⟩ <;> simp [decay, Matrix.mulVec, dotProduct, Fin.sum_univ_two]
  · ring
  · nlinarith [sq_nonneg (v 0), sq_nonneg (v 1)]
  · nlinarith [sq_nonneg (v 0), sq_nonneg (v 1)]

/-- The hypotheses of `Multiplies`, `StableUpTo`, `GrowsBeyond` and `TurnsBy` are met: the decays with steps of size `1/2` and `1`, from `(2, 1)` and
`(2, 0)`, and the rotation with steps of size 1. -/
def Met (cls : Rhs ℝ 2 → Solver ℝ 2 k Y) (R : ℝ[X]) (r : ℝ → ℝ) (N : ℕ) : Prop :=
    (∃ u v, Steps cls (affine decay fun _ => ![1, 0]) 0 (1 / 2) N u ∧ Steps cls (affine decay fun _ => ![1, 0]) 0 (1 / 2) N v ∧
      (u 0).y = ![2, 1] ∧ (v 0).y = ![2, 0] ∧ (u N).y - (v N).y = (aeval ((1 / 2 : ℝ) • decay) R ^ N) ((u 0).y - (v 0).y) ∧
      length ((u N).y - (v N).y) ≤ length ((u 0).y - (v 0).y)) ∧
    (∃ u v ρ, Steps cls (affine decay fun _ => ![1, 0]) 0 1 N u ∧ Steps cls (affine decay fun _ => ![1, 0]) 0 1 N v ∧
      (u 0).y = ![2, 1] ∧ (v 0).y = ![2, 0] ∧ 1 < ρ ∧ length ((u N).y - (v N).y) = ρ ^ N * length ((u 0).y - (v 0).y)) ∧
    ∃ u v, Steps cls (affine turn fun _ => ![1, 0]) 0 1 N u ∧ Steps cls (affine turn fun _ => ![1, 0]) 0 1 N v ∧ (u 0).y = ![2, 1] ∧
      (v 0).y = ![2, 0] ∧ length ((u N).y - (v N).y) ^ 2 = r 1 ^ N * length ((u 0).y - (v 0).y) ^ 2

theorem stability_cases {cls : Rhs ℝ 2 → Solver ℝ 2 k Y} (hC : HasSteps cls) {R : ℝ[X]} (hM : Multiplies cls R) {s : ℝ} (hs : 3 / 2 ≤ s) (hs' : s < 3)
    (hS : StableUpTo cls s) (hG : GrowsBeyond cls s) {r : ℝ → ℝ} (hT : TurnsBy cls r) (N : ℕ) : Met cls R r N := by
  refine ⟨?_, ?_, ?_⟩
  · obtain ⟨u, hu, u0⟩ := hC (affine decay fun _ => ![1, 0]) 0 (1 / 2) ![2, 1] N
    obtain ⟨v, hv, v0⟩ := hC (affine decay fun _ => ![1, 0]) 0 (1 / 2) ![2, 0] N
    exact ⟨u, v, hu, hv, u0, v0, hM _ _ _ _ _ _ _ hu hv, hS _ 3 _ _ _ _ _ _ decay_damping (by norm_num) (by linarith) hu hv⟩
  · obtain ⟨u, hu, u0⟩ := hC (affine decay fun _ => ![1, 0]) 0 1 ![2, 1] N
    obtain ⟨v, hv, v0⟩ := hC (affine decay fun _ => ![1, 0]) 0 1 ![2, 0] N
    obtain ⟨ρ, hρ, h⟩ := hG 3 hs'
    refine ⟨u, v, ρ, hu, hv, u0, v0, hρ, h _ (-3) _ _ _ _ _ _ ?_ (by norm_num) hu hv⟩
    rw [u0, v0]
    funext i
    fin_cases i <;> simp [decay, Matrix.mulVec, dotProduct, Fin.sum_univ_two]
  · obtain ⟨u, hu, u0⟩ := hC (affine turn fun _ => ![1, 0]) 0 1 ![2, 1] N
    obtain ⟨v, hv, v0⟩ := hC (affine turn fun _ => ![1, 0]) 0 1 ![2, 0] N
    have := hT _ 1 _ _ _ _ _ _ (fun w => ?_) ?_ hu hv
    · rw [one_mul] at this
      exact ⟨u, v, hu, hv, u0, v0, this⟩
    · simp [turn, Matrix.mulVec, dotProduct, Fin.sum_univ_two]
      ring
    · rw [u0, v0]
      funext i
      fin_cases i <;> simp [turn, Matrix.mulVec, dotProduct, Fin.sum_univ_two]

example (N : ℕ) : Met (fun rhs => (⟨explicitMultistep ForwardEuler, rhs, .inf⟩ : Solver ℝ 2 0 Unit)) (1 + X) (fun x => 1 + x ^ 2) N :=
  stability_cases (euler_hasSteps .inf) (C102_factor_ForwardEuler .inf) (by norm_num) (by norm_num) (C102_limit_ForwardEuler .inf).1
    (C102_limit_ForwardEuler .inf).2 (C102_turn_ForwardEuler .inf) N

example (N : ℕ) : Met (fun rhs => ⟨erk Runge2, rhs, .inf⟩) (1 + X + C (1 / 2) * X ^ 2)
    (fun x => 1 + x ^ 4 / 4) N :=
  stability_cases (erk_hasSteps Runge2_conditions.explicit .inf) (C102_factor_Runge2 .inf) (by norm_num) (by norm_num)
    (C102_limit_Runge2 .inf).1 (C102_limit_Runge2 .inf).2 (C102_turn_Runge2 .inf) N

example (N : ℕ) : Met (fun rhs => ⟨erk Runge3, rhs, .inf⟩) (1 + X + C (1 / 2) * X ^ 2 + C (1 / 6) * X ^ 3 + C (1 / 12) * X ^ 4)
    (fun x => 1 + x ^ 4 * (x ^ 2 - 2) * (x ^ 2 - 6) / 144) N :=
  stability_cases (erk_hasSteps Runge3_conditions.explicit .inf) (C102_factor_Runge3 .inf) (by norm_num) (by norm_num)
    (C102_limit_Runge3 .inf).1 (C102_limit_Runge3 .inf).2 (C102_turn_Runge3 .inf) N

example (N : ℕ) : Met (fun rhs => ⟨erk Heun3, rhs, .inf⟩) (1 + X + C (1 / 2) * X ^ 2 + C (1 / 6) * X ^ 3)
    (fun x => 1 - x ^ 4 * (3 - x ^ 2) / 36) N := by
  obtain ⟨s, h1, h2, h3, h4⟩ := C102_limit_Heun3 (n := 2) .inf
  exact stability_cases (erk_hasSteps Heun3_conditions.explicit .inf) (C102_factor_Heun3 .inf) (by linarith) (by linarith) h3 h4
    (C102_turn_Heun3 .inf) N

example (N : ℕ) : Met (fun rhs => ⟨erk RungeKutta4, rhs, .inf⟩) (1 + X + C (1 / 2) * X ^ 2 + C (1 / 6) * X ^ 3 + C (1 / 24) * X ^ 4)
    (fun x => 1 - x ^ 6 * (8 - x ^ 2) / 576) N := by
  obtain ⟨s, h1, h2, h3, h4⟩ := C102_limit_RungeKutta4 (n := 2) .inf
  exact stability_cases (erk_hasSteps RungeKutta4_conditions.explicit .inf) (C102_factor_RungeKutta4 .inf) (by linarith) (by linarith) h3 h4
    (C102_turn_RungeKutta4 .inf) N

example (N : ℕ) : Met (fun rhs => ⟨erk RungeKutta3_8, rhs, .inf⟩) (1 + X + C (1 / 2) * X ^ 2 + C (1 / 6) * X ^ 3 + C (1 / 24) * X ^ 4)
    (fun x => 1 - x ^ 6 * (8 - x ^ 2) / 576) N := by
  obtain ⟨s, h1, h2, h3, h4⟩ := C102_limit_RungeKutta3_8 (n := 2) .inf
  exact stability_cases (erk_hasSteps RungeKutta3_8_conditions.explicit .inf) (C102_factor_RungeKutta3_8 .inf) (by linarith) (by linarith) h3 h4
    (C102_turn_RungeKutta3_8 .inf) N

end Demo

end Nbkode
