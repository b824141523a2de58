import Verif.Props.Implicit
import Verif.Props.ImplicitSuccess
import Mathlib.Algebra.Order.BigOperators.Ring.Finset

/-!
# C76 for the implicit methods: linear invariants up to the tolerance of Newton's method
-/

set_option autoImplicit false
set_option linter.unusedSectionVars false

namespace Nbkode
open Py Spec Solver

variable {n p : Nat}

/-- The defect of a step, seen along `w`. -/
theorem sum_defect (c : MultistepCoef ℝ p) (b : Buffer ℝ n (histExtra p)) (h : ℝ) (y' f' w : Vec ℝ n) (hf : ∑ d, w d * f' d = 0)
    (hb : ∀ i, ∑ d, w d * b.fs i d = 0) :
    ∑ d, w d * defect c b h y' f' d = ∑ d, w d * y' d + ∑ i : Fin (p + 1), c.A i.rev * ∑ d, w d * ago b.ys i d := by
  unfold defect
  have e1 : ∑ d, w d * ∑ i : Fin (p + 1), c.A i.rev * ago b.ys i d = ∑ i : Fin (p + 1), c.A i.rev * ∑ d, w d * ago b.ys i d := by
    simp only [Finset.mul_sum]
    rw [Finset.sum_comm]
    exact Finset.sum_congr rfl fun i _ => Finset.sum_congr rfl fun d _ => by ring
  have e2 : ∑ d, w d * ∑ i : Fin (p + 1), c.B i.rev * ago b.fs i d = 0 := by
    simp only [Finset.mul_sum]
    rw [Finset.sum_comm]
    refine Finset.sum_eq_zero fun i _ => ?_
    have : ∑ d, w d * ago b.fs i d = 0 := hb _
    calc ∑ d, w d * (c.B i.rev * ago b.fs i d) = c.B i.rev * ∑ d, w d * ago b.fs i d := by
          rw [Finset.mul_sum]; exact Finset.sum_congr rfl fun d _ => by ring
      _ = 0 := by rw [this, mul_zero]
  have e3 : ∀ d, w d * (y' d + ∑ i : Fin (p + 1), c.A i.rev * ago b.ys i d -
      h * (c.Bn * f' d + ∑ i : Fin (p + 1), c.B i.rev * ago b.fs i d)) =
      w d * y' d + w d * ∑ i : Fin (p + 1), c.A i.rev * ago b.ys i d - h * c.Bn * (w d * f' d) -
        h * (w d * ∑ i : Fin (p + 1), c.B i.rev * ago b.fs i d) := fun d => by ring
  simp only [e3, Finset.sum_sub_distrib, Finset.sum_add_distrib, ← Finset.mul_sum]
  rw [hf, e1, e2]
  ring

theorem sum_mul_le (w d : Vec ℝ n) {tol : ℝ} (h : |Real.sqrt (∑ i, d i ^ 2)| ≤ tol) :
    |∑ i, w i * d i| ≤ Real.sqrt (∑ i, w i ^ 2) * tol := by
  rw [abs_of_nonneg (Real.sqrt_nonneg _)] at h
  have h1 := Finset.sum_mul_sq_le_sq_mul_sq Finset.univ w d
  refine (Real.abs_le_sqrt h1).trans ?_
  rw [Real.sqrt_mul (Finset.sum_nonneg fun i _ => sq_nonneg _)]
  exact mul_le_mul_of_nonneg_left h (Real.sqrt_nonneg _)

/-- **C76** for one step of an implicit method. The exact method would give zero on the left. -/
theorem C76_implicit_step {lib : Lib ℝ} (hlib : ∀ x, lib.sqrt x = Real.sqrt x) (zo : ZeroOpts ℝ) (c : MultistepCoef ℝ p) (rhs : Rhs ℝ n)
    (b : Bound ℝ) (hn : n ≠ 1) (w : Vec ℝ n) (hf : ∀ t y f, rhs t y = .ok f → ∑ d, w d * f d = 0) (st st' : St ℝ n (histExtra p) Unit)
    (hst : ∀ i, ∑ d, w d * st.cache.fs i d = 0) (h : Takes ⟨implicitMultistep lib zo c, rhs, b⟩ st st') :
    |∑ d, w d * st'.y d + ∑ i : Fin (p + 1), c.A i.rev * ∑ d, w d * ago st.cache.ys i d| ≤ Real.sqrt (∑ d, w d ^ 2) * zo.tol ∧
      ∀ i, ∑ d, w d * st'.cache.fs i d = 0 := by
  obtain ⟨y', f', h1, rfl, h2⟩ := implicit_residual lib zo c rhs b hn st st' h
  refine ⟨?_, ?_⟩
  · unfold euclid at h2
    rw [hlib] at h2
    have h3 := sum_mul_le w _ h2
    rw [sum_defect c st.cache st.h y' f' w (hf _ _ _ h1) hst] at h3
    have e : (⟨st.cache.push (st.t + st.h) y' f', st.h, ()⟩ : St ℝ n (histExtra p) Unit).y = y' := push_y _ _ _ _
    rw [e]
    exact h3
  · intro i
    show ∑ d, w d * (shiftIn st.cache.fs f') i d = 0
    unfold shiftIn
    split
    · exact hst _
    · exact hf _ _ _ h1

/-- **C76** for any number of steps of backward Euler, of the trapezoidal rule (`AdamsMoulton2`) and of the other Adams-Moulton
methods: the drift is at most the tolerance times the number of steps. -/
theorem C76_adams_moulton {lib : Lib ℝ} (hlib : ∀ x, lib.sqrt x = Real.sqrt x) (zo : ZeroOpts ℝ) (c : MultistepCoef ℝ p)
    (hc : c.A = adamsA p) (rhs : Rhs ℝ n) (b : Bound ℝ) (hn : n ≠ 1) (w : Vec ℝ n) (hf : ∀ t y f, rhs t y = .ok f → ∑ d, w d * f d = 0)
    (u : ℕ → St ℝ n (histExtra p) Unit) (hu : ∀ i, ∑ d, w d * (u 0).cache.fs i d = 0) (N : ℕ)
    (h : ∀ k < N, Takes ⟨implicitMultistep lib zo c, rhs, b⟩ (u k) (u (k + 1))) :
    |∑ d, w d * (u N).y d - ∑ d, w d * (u 0).y d| ≤ N * (Real.sqrt (∑ d, w d ^ 2) * zo.tol) := by
  have key : ∀ k ≤ N, |∑ d, w d * (u k).y d - ∑ d, w d * (u 0).y d| ≤ k * (Real.sqrt (∑ d, w d ^ 2) * zo.tol) ∧
      ∀ i, ∑ d, w d * (u k).cache.fs i d = 0 := by
    intro k
    induction k with
    | zero => intro _; exact ⟨by simp, hu⟩
    | succ k ih =>
      intro hk
      obtain ⟨i1, i2⟩ := ih (by omega)
      obtain ⟨s1, s2⟩ := C76_implicit_step hlib zo c rhs b hn w hf _ _ i2 (h k (by omega))
      refine ⟨?_, s2⟩
      have e : ∑ i : Fin (p + 1), c.A i.rev * ∑ d, w d * ago (u k).cache.ys i d = -∑ d, w d * (u k).y d := by
        rw [hc, Finset.sum_eq_single 0]
        · have : (adamsA p (0 : Fin (p + 1)).rev : ℝ) = -1 := by
            unfold adamsA
            rw [if_pos (by simp [Fin.rev])]
          rw [this, neg_one_mul]
          rfl
        · intro i _ hi
          have : (adamsA p i.rev : ℝ) = 0 := by
            unfold adamsA
            refine if_neg fun h => hi ?_
            rw [Fin.val_rev] at h
            ext
            show (i : ℕ) = 0
            omega
          rw [this, zero_mul]
        · intro h; exact absurd (Finset.mem_univ _) h
      rw [e] at s1
      have e2 : ∑ d, w d * (u (k + 1)).y d - ∑ d, w d * (u 0).y d =
          (∑ d, w d * (u (k + 1)).y d + -∑ d, w d * (u k).y d) + (∑ d, w d * (u k).y d - ∑ d, w d * (u 0).y d) := by ring
      rw [e2]
      refine (abs_add_le _ _).trans ?_
      push_cast
      linarith
  exact (key N le_rfl).1

/-! ### Cases -/

namespace Demo

/-- Two tanks that exchange their contents. -/
def tanks : Rhs ℝ 2 := pureRhs fun _ y i => ∑ j, (!![-1, 1; 1, -1] : Matrix (Fin 2) (Fin 2) ℝ) i j * y j + 0

theorem tanks_step (c : MultistepCoef ℝ p) (hc : 0 < c.Bn) (st : St ℝ 2 (histExtra p) Unit) (hh : 0 < st.h) :
    ∃ st', Takes ⟨implicitMultistep realLib realZeros c, tanks, .inf⟩ st st' ∧ st'.h = st.h := by
  obtain ⟨y', f', -, h, -⟩ := linear_system realLib realLib_exactSolve
    realLib_sqrt_zero realZeros (by norm_num [realZeros])
    (by norm_num [realZeros]) (by decide) c !![-1, 1; 1, -1] (fun _ _ => 0) .inf st (by
      intro x hx
      have h0 := hx 0
      have h1 := hx 1
      simp [Fin.sum_univ_two] at h0 h1
      have hb : 0 < st.h * c.Bn := mul_pos hh hc
      have e1 : x 1 = -x 0 := by linarith
      rw [e1] at h0
      have e2 : x 0 * (1 + 2 * (st.h * c.Bn)) = 0 := by linarith
      have e3 : x 0 = 0 := by
        rcases mul_eq_zero.1 e2 with h | h
        · exact h
        · linarith
      funext i
      fin_cases i
      · exact e3
      · show x 1 = 0; rw [e1, e3, neg_zero])
  refine ⟨_, h, ?_⟩
  obtain ⟨_, _, -, e, -⟩ := implicit_residual realLib realZeros c tanks .inf (by decide) _ _ h
  rw [e]

/-- Any implicit method makes any number of steps on the tanks, with any step size. -/
theorem tanks_steps (c : MultistepCoef ℝ p) (hc : 0 < c.Bn) (st : St ℝ 2 (histExtra p) Unit) (hh : 0 < st.h) :
    ∃ u : ℕ → St ℝ 2 (histExtra p) Unit, u 0 = st ∧
      ∀ k, Takes ⟨implicitMultistep realLib realZeros c, tanks, .inf⟩ (u k) (u (k + 1)) := by
  choose! g hg using tanks_step (p := p) c hc
  refine ⟨fun k => g^[k] st, rfl, fun k => ?_⟩
  have hk : 0 < (g^[k] st).h := by
    induction k with
    | zero => exact hh
    | succ k ih => rw [Function.iterate_succ_apply', (hg _ ih).2]; exact ih
  show Takes _ (g^[k] st) (g^[k + 1] st)
  rw [Function.iterate_succ_apply']
  exact (hg _ hk).1

theorem tanks_total : ∀ t y f, tanks t y = .ok f → ∑ d, (1 : Vec ℝ 2) d * f d = 0 := by
  intro t y f h
  cases h
  simp [Fin.sum_univ_two]
  ring

/-- C76: the tanks never hold more than `N` times `sqrt 2` times the tolerance more or less than in the beginning. -/
example (N : ℕ) : ∃ u : ℕ → St ℝ 2 (histExtra 0) Unit, (∀ k, Takes ⟨implicitMultistep realLib realZeros BackwardEuler, tanks, .inf⟩ (u k) (u (k + 1))) ∧
    |∑ d, (1 : Vec ℝ 2) d * (u N).y d - ∑ d, (1 : Vec ℝ 2) d * (u 0).y d| ≤ N * (Real.sqrt (∑ d, (1 : Vec ℝ 2) d ^ 2) * realZeros.tol) := by
  obtain ⟨u, h0, h1⟩ := tanks_steps BackwardEuler (by norm_num [BackwardEuler, AdamsMoulton1])
    ⟨⟨fun _ => 0, fun _ => ![1, 0], fun _ => ![-1, 1]⟩, 100, ()⟩ (by norm_num)
  refine ⟨u, h1, C76_adams_moulton (fun _ => rfl) realZeros BackwardEuler rfl tanks .inf (by decide) 1 tanks_total u ?_ N fun k _ => h1 k⟩
  intro i
  rw [h0]
  simp [Fin.sum_univ_two]

end Demo
end Nbkode
