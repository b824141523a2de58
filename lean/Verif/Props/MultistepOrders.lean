import Verif.Props.Implicit
import Verif.Proofs.Quadrature
import Mathlib.Tactic.NormNum
import Mathlib.Tactic.IntervalCases
import Mathlib.Tactic.LinearCombination

/-!
# Orders of the multistep methods: C29, C30, C31
-/

set_option autoImplicit false
set_option linter.unusedSectionVars false

namespace Nbkode
open Py Spec Solver Polynomial

variable {α : Type} [Field α] [LinearOrder α] [IsStrictOrderedRing α] [BEq α] [LawfulBEq α]
variable {n p : Nat}

/-- The `k`-th order condition: the formula is exact on the `k`-th power of the distance from the current time. -/
def OrderCondition (c : MultistepCoef α p) (k : Nat) : Prop :=
  1 + ∑ i : Fin (p + 1), c.A i.rev * (-(i : ℕ) : α) ^ k =
    k * (c.Bn + ∑ i : Fin (p + 1), c.B i.rev * (-(i : ℕ) : α) ^ (k - 1))

theorem eval_expand (y : α[X]) (m : Nat) (hy : y.natDegree ≤ m) (t x : α) :
    y.eval (t + x) = ∑ k ∈ Finset.range (m + 1), (taylor t y).coeff k * x ^ k := by
  have h1 : y.eval (t + x) = (taylor t y).eval x := by rw [taylor_eval, add_comm]
  have hd : (taylor t y).natDegree ≤ m := by rw [natDegree_taylor]; exact hy
  rw [h1, eval_eq_sum_range' (n := m + 1) (by omega)]

theorem derivative_expand (y : α[X]) (m : Nat) (hy : y.natDegree ≤ m) (t x : α) :
    (derivative y).eval (t + x) =
      ∑ k ∈ Finset.range (m + 1), (taylor t y).coeff k * (k * x ^ (k - 1)) := by
  have h1 : (derivative y).eval (t + x) = (derivative (taylor t y)).eval x := by
    rw [taylor_apply, derivative_comp, eval_mul, eval_comp]; simp [add_comm]
  rw [h1, derivative_eval, sum_def]
  have hd : (taylor t y).natDegree ≤ m := by rw [natDegree_taylor]; exact hy
  have := Polynomial.sum_over_range' (taylor t y) (f := fun i a => a * i * x ^ (i - 1)) (by simp)
    (m + 1) (by omega)
  rw [sum_def] at this
  rw [this]
  exact Finset.sum_congr rfl fun k _ => by ring

theorem exact_of_conditions {c : MultistepCoef α p} {m : Nat} (h : ∀ k ≤ m, OrderCondition c k) :
    ExactOnPolynomials c m := by
  intro y hy t s
  have e1 : ∀ i : ℕ, t - i * s = t + (-(i : α)) * s := fun i => by ring
  simp only [e1, eval_expand y m hy, derivative_expand y m hy]
  simp only [Finset.mul_sum]
  rw [Finset.sum_comm, Finset.sum_comm (s := Finset.univ) (t := Finset.range (m + 1)),
    ← Finset.sum_add_distrib, ← Finset.sum_add_distrib, Finset.mul_sum]
  refine Finset.sum_congr rfl fun k hk => ?_
  have hc := h k (by have := Finset.mem_range.mp hk; omega)
  unfold OrderCondition at hc
  rw [mul_add, Finset.mul_sum] at hc
  have e2 : ∀ (x : α), s * (k * (x * s) ^ (k - 1)) = k * x ^ (k - 1) * s ^ k := by
    intro x
    cases k with
    | zero => simp
    | succ k => simp only [Nat.add_sub_cancel, mul_pow, pow_succ]; ring
  have e3 : s * (k * s ^ (k - 1)) = k * s ^ k := by simpa using e2 1
  have l : (∑ i : Fin (p + 1), c.A i.rev * ((taylor t y).coeff k * (-((i : ℕ) : α) * s) ^ k)) =
      (taylor t y).coeff k * s ^ k * ∑ i : Fin (p + 1), c.A i.rev * (-((i : ℕ) : α)) ^ k := by
    rw [Finset.mul_sum]
    exact Finset.sum_congr rfl fun i _ => by rw [mul_pow]; ring
  have r : s * (∑ i : Fin (p + 1), c.B i.rev * ((taylor t y).coeff k *
        (k * (-((i : ℕ) : α) * s) ^ (k - 1)))) =
      (taylor t y).coeff k * s ^ k *
        ∑ i : Fin (p + 1), (k : α) * (c.B i.rev * (-((i : ℕ) : α)) ^ (k - 1)) := by
    rw [Finset.mul_sum, Finset.mul_sum]
    refine Finset.sum_congr rfl fun i _ => ?_
    linear_combination (c.B i.rev * (taylor t y).coeff k) * e2 (-((i : ℕ) : α))
  rw [l, mul_add, r]
  linear_combination (taylor t y).coeff k * s ^ k * hc -
    (taylor t y).coeff k * c.Bn * e3

theorem conditions_of_exact {c : MultistepCoef α p} {m : Nat} (h : ExactOnPolynomials c m) (k : Nat)
    (hk : k ≤ m) : OrderCondition c k := by
  have := h (X ^ k) (by rw [natDegree_X_pow]; exact hk) 0 1
  rw [derivative_X_pow] at this
  simpa [OrderCondition, mul_add, Finset.mul_sum, mul_assoc, mul_comm, mul_left_comm] using this

/-! ### What exactness means for a step -/

/-- If an explicit formula is exact on polynomials of degree `m`, then a step from an evenly spaced history of a
solution whose components are such polynomials lands exactly on the solution. -/
theorem explicit_step_exact {c : MultistepCoef α p} (hc : c.Bn = 0) {m : Nat}
    (hx : ExactOnPolynomials c m) (G : Fin n → α[X]) (hG : ∀ d, (G d).natDegree ≤ m) (b : Bound α)
    (st : St α n (histExtra p) Unit)
    (hs : Samples st.cache st.t st.h (fun t d => (G d).eval t) (fun t d => (derivative (G d)).eval t)) :
    ∃ st', Takes ⟨explicitMultistep c, pureRhs fun t _ d => (derivative (G d)).eval t, b⟩ st st' ∧
      st'.t = st.t + st.h ∧ st'.y = fun d => (G d).eval (st.t + st.h) := by
  refine ⟨_, (explicit_takes_iff c hc _ b st _).mpr
    ⟨fun d => (G d).eval (st.t + st.h), _, ?_, rfl, rfl⟩, push_t _ _ _ _, push_y _ _ _ _⟩
  funext d
  have hd := hx (G d) (hG d) st.t st.h
  simp only [defect, Pi.zero_apply, hc]
  rw [hc] at hd
  have e1 : ∀ i : Fin (p + 1), ago st.cache.ys i d = (G d).eval (st.t - (i : ℕ) * st.h) := fun i =>
    congrFun (hs i (by have := i.isLt; omega)).2.1 d
  have e2 : ∀ i : Fin (p + 1), ago st.cache.fs i d = (derivative (G d)).eval (st.t - (i : ℕ) * st.h) :=
    fun i => congrFun (hs i (by have := i.isLt; omega)).2.2 d
  simp only [e1, e2, hd]
  ring

/-- The same for an implicit formula on a scalar problem. -/
theorem implicit_step_exact (lib : Lib α) (zo : ZeroOpts α) (he : 0 < zo.secantEps) (ht : 0 ≤ zo.tol)
    (hr : 0 ≤ zo.rtol) {c : MultistepCoef α p} {m : Nat} (hx : ExactOnPolynomials c m) (G : α[X])
    (hG : G.natDegree ≤ m) (b : Bound α) (st : St α 1 (histExtra p) Unit)
    (hs : Samples st.cache st.t st.h (fun t _ => G.eval t) (fun t _ => (derivative G).eval t)) :
    ∃ st', Takes ⟨implicitMultistep lib zo c, pureRhs fun t _ _ => (derivative G).eval t, b⟩ st st' ∧
      st'.t = st.t + st.h ∧ st'.y = fun _ => G.eval (st.t + st.h) := by
  obtain ⟨y', f', rfl, h1, h2⟩ := linear_exact lib zo he ht hr c 0
    (fun t => (derivative G).eval t) b st (by simp)
  simp only [zero_mul, zero_add] at h1 h2
  refine ⟨_, h1, push_t _ _ _ _, ?_⟩
  show (st.cache.push _ _ _).y = _
  rw [push_y]
  funext d
  have hd := hx G hG st.t st.h
  have h3 := congrFun h2 d
  have e1 : ∀ i : Fin (p + 1), ago st.cache.ys i d = G.eval (st.t - (i : ℕ) * st.h) := fun i =>
    congrFun (hs i (by have := i.isLt; omega)).2.1 d
  have e2 : ∀ i : Fin (p + 1), ago st.cache.fs i d = (derivative G).eval (st.t - (i : ℕ) * st.h) :=
    fun i => congrFun (hs i (by have := i.isLt; omega)).2.2 d
  simp only [defect, Pi.zero_apply, e1, e2] at h3
  linear_combination h3 - hd

/-! ### The registered methods -/

open Lean.Parser.Tactic in
/-- Check the order conditions of a concrete formula. -/
macro "check_orders" "[" ts:simpLemma,* "]" : tactic => `(tactic|
  (apply exact_of_conditions
   intro k hk
   interval_cases k <;>
   simp [OrderCondition, Fin.sum_univ_succ, Fin.rev, adamsA, q, $ts,*] <;> norm_num))

open Lean.Parser.Tactic in
macro "refute_order" h:ident k:num "[" ts:simpLemma,* "]" : tactic => `(tactic|
  (have := conditions_of_exact $h $k (le_refl _)
   simp [OrderCondition, Fin.sum_univ_succ, Fin.rev, adamsA, q, $ts,*] at this <;> norm_num at this))

/-- **C29**, `AdamsBashforth1` (`ForwardEuler`): order 1. -/
theorem C29_AB1 : ExactOnPolynomials (AdamsBashforth1 : MultistepCoef α 0) 1 := by
  check_orders [AdamsBashforth1]

/-- **C31.** The equation solved by `BDFk` is satisfied by all polynomials of degree `k`. -/
theorem C31_BDF1 : ExactOnPolynomials (BDF1 : MultistepCoef α 0) 1 := by check_orders [BDF1]
theorem C31_BDF2 : ExactOnPolynomials (BDF2 : MultistepCoef α 1) 2 := by check_orders [BDF2]
theorem C31_BDF3 : ExactOnPolynomials (BDF3 : MultistepCoef α 2) 3 := by check_orders [BDF3]
theorem C31_BDF4 : ExactOnPolynomials (BDF4 : MultistepCoef α 3) 4 := by check_orders [BDF4]
theorem C31_BDF5 : ExactOnPolynomials (BDF5 : MultistepCoef α 4) 5 := by check_orders [BDF5]
theorem C31_BDF6 : ExactOnPolynomials (BDF6 : MultistepCoef α 5) 6 := by check_orders [BDF6]

/-- **C30.** `AdamsMoulton1`, `2`, `3` have their order. -/
theorem C30_AM1 : ExactOnPolynomials (AdamsMoulton1 : MultistepCoef α 0) 1 := by
  check_orders [AdamsMoulton1]
theorem C30_AM2 : ExactOnPolynomials (AdamsMoulton2 : MultistepCoef α 0) 2 := by
  check_orders [AdamsMoulton2]
theorem C30_AM3 : ExactOnPolynomials (AdamsMoulton3 : MultistepCoef α 1) 3 := by
  check_orders [AdamsMoulton3]

/-- **C29 refuted**: `AdamsBashforth2` to `5` read their coefficients in the wrong order; they are not even exact
on quadratic solutions. -/
theorem C29_AB2_refuted : ¬ ExactOnPolynomials (AdamsBashforth2 : MultistepCoef α 1) 2 := by
  intro h; refute_order h 2 [AdamsBashforth2]
theorem C29_AB3_refuted : ¬ ExactOnPolynomials (AdamsBashforth3 : MultistepCoef α 2) 2 := by
  intro h; refute_order h 2 [AdamsBashforth3]
theorem C29_AB4_refuted : ¬ ExactOnPolynomials (AdamsBashforth4 : MultistepCoef α 3) 2 := by
  intro h; refute_order h 2 [AdamsBashforth4]
theorem C29_AB5_refuted : ¬ ExactOnPolynomials (AdamsBashforth5 : MultistepCoef α 4) 2 := by
  intro h; refute_order h 2 [AdamsBashforth5]

/-- **C30 refuted** for `AdamsMoulton4`, `5`: the same mistake. -/
theorem C30_AM4_refuted : ¬ ExactOnPolynomials (AdamsMoulton4 : MultistepCoef α 2) 2 := by
  intro h; refute_order h 2 [AdamsMoulton4]
theorem C30_AM5_refuted : ¬ ExactOnPolynomials (AdamsMoulton5 : MultistepCoef α 3) 2 := by
  intro h; refute_order h 2 [AdamsMoulton5]

/-- **C29 refuted**, seen from outside: on `y' = 2t`, from an exact history of `y = t^2`, `AdamsBashforth2` (documented as
`u[n+1] = u[n] + h (3/2 f(u[n]) - 1/2 f(u[n-1]))`, which is exact here) lands `4 h^2` below the solution. -/
theorem C29_AB2_misses (b : Bound α) (st st' : St α 1 (histExtra 1) Unit)
    (hs : Samples (p := 1) st.cache st.t st.h (fun t _ => t ^ 2) (fun t _ => 2 * t))
    (h : Takes ⟨explicitMultistep AdamsBashforth2, pureRhs fun t _ _ => 2 * t, b⟩ st st') :
    st'.y = fun _ => (st.t + st.h) ^ 2 - 4 * st.h ^ 2 := by
  obtain ⟨y', f', h1, h2, rfl⟩ := (explicit_takes_iff AdamsBashforth2 rfl _ b st st').mp h
  show (st.cache.push _ _ _).y = _
  rw [push_y]
  funext d
  have h3 := congrFun h1 d
  have e1 : ∀ i : Fin 2, ago st.cache.ys i d = (st.t - (i : ℕ) * st.h) ^ 2 := fun i =>
    congrFun (hs i (by have := i.isLt; omega)).2.1 d
  have e2 : ∀ i : Fin 2, ago st.cache.fs i d = 2 * (st.t - (i : ℕ) * st.h) :=
    fun i => congrFun (hs i (by have := i.isLt; omega)).2.2 d
  simp only [defect, Pi.zero_apply, e1, e2] at h3
  simp [Fin.sum_univ_succ, Fin.rev, adamsA, q, AdamsBashforth2] at h3
  linear_combination h3

/-- Such a state exists and takes the step: `t = 1`, `h = 1`, history `(0, 0)`, `(1, 1)`. -/
example : ∃ st st' : St ℚ 1 (histExtra 1) Unit,
    Samples (p := 1) st.cache st.t st.h (fun t _ => t ^ 2) (fun t _ => 2 * t) ∧
    Takes ⟨explicitMultistep AdamsBashforth2, pureRhs fun t _ _ => 2 * t, .inf⟩ st st' ∧
    st'.y = fun _ => 0 := by
  let st : St ℚ 1 (histExtra 1) Unit :=
    ⟨⟨![0, 1], ![fun _ => 0, fun _ => 1], ![fun _ => 0, fun _ => 2]⟩, 1, ()⟩
  have hs : Samples (p := 1) st.cache st.t st.h (fun t _ => t ^ 2) (fun t _ => 2 * t) := by
    intro i hi
    interval_cases i <;> simp [st, ago, histExtra, St.t, Buffer.t, Buffer.iLast]
  obtain ⟨st', h⟩ : ∃ st', Takes ⟨explicitMultistep AdamsBashforth2, pureRhs fun t _ _ => 2 * t, .inf⟩ st st' :=
    ⟨_, by unfold Takes; exact explicitMultistepBody_run _ _ _⟩
  refine ⟨st, st', hs, h, ?_⟩
  rw [C29_AB2_misses _ _ _ hs h]
  funext _
  simp [st, St.t, Buffer.t, Buffer.iLast, histExtra]
  norm_num

/-- What is left of **C29**, **C30** for these methods: order 1. Missing: orders 2 to 5. -/
theorem C29_AB2_partial : ExactOnPolynomials (AdamsBashforth2 : MultistepCoef α 1) 1 := by
  check_orders [AdamsBashforth2]
theorem C29_AB3_partial : ExactOnPolynomials (AdamsBashforth3 : MultistepCoef α 2) 1 := by
  check_orders [AdamsBashforth3]
theorem C29_AB4_partial : ExactOnPolynomials (AdamsBashforth4 : MultistepCoef α 3) 1 := by
  check_orders [AdamsBashforth4]
theorem C29_AB5_partial : ExactOnPolynomials (AdamsBashforth5 : MultistepCoef α 4) 1 := by
  check_orders [AdamsBashforth5]
theorem C30_AM4_partial : ExactOnPolynomials (AdamsMoulton4 : MultistepCoef α 2) 1 := by
  check_orders [AdamsMoulton4]
theorem C30_AM5_partial : ExactOnPolynomials (AdamsMoulton5 : MultistepCoef α 3) 1 := by
  check_orders [AdamsMoulton5]

/-! ### The same in terms of steps -/

/-- **C29** in terms of steps: on problems of any dimension `AdamsBashforth1` (`ForwardEuler`) is exact on linear solutions. The
same holds for `AdamsBashforth2` to `5`; exactness on polynomials of degree 2 to 5 is missing (`C29_AB2_misses`). -/
theorem C29_steps_partial (b : Bound α) :
    StepsExactly (fun rhs : Rhs α n => ⟨explicitMultistep AdamsBashforth1, rhs, b⟩) 1 ∧
    StepsExactly (fun rhs : Rhs α n => ⟨explicitMultistep AdamsBashforth2, rhs, b⟩) 1 ∧
    StepsExactly (fun rhs : Rhs α n => ⟨explicitMultistep AdamsBashforth3, rhs, b⟩) 1 ∧
    StepsExactly (fun rhs : Rhs α n => ⟨explicitMultistep AdamsBashforth4, rhs, b⟩) 1 ∧
    StepsExactly (fun rhs : Rhs α n => ⟨explicitMultistep AdamsBashforth5, rhs, b⟩) 1 :=
  ⟨fun G hG st hs => explicit_step_exact rfl C29_AB1 G hG b st hs,
    fun G hG st hs => explicit_step_exact rfl C29_AB2_partial G hG b st hs,
    fun G hG st hs => explicit_step_exact rfl C29_AB3_partial G hG b st hs,
    fun G hG st hs => explicit_step_exact rfl C29_AB4_partial G hG b st hs,
    fun G hG st hs => explicit_step_exact rfl C29_AB5_partial G hG b st hs⟩

theorem implicit_steps_exactly (lib : Lib α) (zo : ZeroOpts α) (he : 0 < zo.secantEps) (ht : 0 ≤ zo.tol)
    (hr : 0 ≤ zo.rtol) {c : MultistepCoef α p} {m : Nat} (hx : ExactOnPolynomials c m) (b : Bound α) :
    StepsExactly (fun rhs : Rhs α 1 => ⟨implicitMultistep lib zo c, rhs, b⟩) m := by
  intro G hG st hs
  have e : ∀ g : Fin 1 → α[X], ∀ d : Fin 1, g d = g 0 := fun g d => by rw [Subsingleton.elim d 0]
  obtain ⟨st', h1, h2, h3⟩ := implicit_step_exact lib zo he ht hr hx (G 0) (hG 0) b st (by
    simpa only [e G] using hs)
  exact ⟨st', by simpa only [e G] using h1, h2, by simpa only [e G] using h3⟩

/-- **C30** in terms of steps, scalar problems: `AdamsMoulton1`, `2`, `3` are exact on polynomial solutions of degree 1, 2, 3;
`AdamsMoulton4`, `5` only on linear ones (missing: degree 2 to 5, see `C30_AM4_misses`). -/
theorem C30_steps_partial (lib : Lib α) (zo : ZeroOpts α) (he : 0 < zo.secantEps) (ht : 0 ≤ zo.tol)
    (hr : 0 ≤ zo.rtol) (b : Bound α) :
    StepsExactly (fun rhs : Rhs α 1 => ⟨implicitMultistep lib zo AdamsMoulton1, rhs, b⟩) 1 ∧
    StepsExactly (fun rhs : Rhs α 1 => ⟨implicitMultistep lib zo AdamsMoulton2, rhs, b⟩) 2 ∧
    StepsExactly (fun rhs : Rhs α 1 => ⟨implicitMultistep lib zo AdamsMoulton3, rhs, b⟩) 3 ∧
    StepsExactly (fun rhs : Rhs α 1 => ⟨implicitMultistep lib zo AdamsMoulton4, rhs, b⟩) 1 ∧
    StepsExactly (fun rhs : Rhs α 1 => ⟨implicitMultistep lib zo AdamsMoulton5, rhs, b⟩) 1 :=
  ⟨implicit_steps_exactly lib zo he ht hr C30_AM1 b, implicit_steps_exactly lib zo he ht hr C30_AM2 b,
    implicit_steps_exactly lib zo he ht hr C30_AM3 b, implicit_steps_exactly lib zo he ht hr C30_AM4_partial b,
    implicit_steps_exactly lib zo he ht hr C30_AM5_partial b⟩

/-- **C31** in terms of steps, scalar problems: `BDFk` is exact on polynomial solutions of degree `k`. -/
theorem C31_steps (lib : Lib α) (zo : ZeroOpts α) (he : 0 < zo.secantEps) (ht : 0 ≤ zo.tol)
    (hr : 0 ≤ zo.rtol) (b : Bound α) :
    StepsExactly (fun rhs : Rhs α 1 => ⟨implicitMultistep lib zo BDF1, rhs, b⟩) 1 ∧
    StepsExactly (fun rhs : Rhs α 1 => ⟨implicitMultistep lib zo BDF2, rhs, b⟩) 2 ∧
    StepsExactly (fun rhs : Rhs α 1 => ⟨implicitMultistep lib zo BDF3, rhs, b⟩) 3 ∧
    StepsExactly (fun rhs : Rhs α 1 => ⟨implicitMultistep lib zo BDF4, rhs, b⟩) 4 ∧
    StepsExactly (fun rhs : Rhs α 1 => ⟨implicitMultistep lib zo BDF5, rhs, b⟩) 5 ∧
    StepsExactly (fun rhs : Rhs α 1 => ⟨implicitMultistep lib zo BDF6, rhs, b⟩) 6 :=
  ⟨implicit_steps_exactly lib zo he ht hr C31_BDF1 b, implicit_steps_exactly lib zo he ht hr C31_BDF2 b,
    implicit_steps_exactly lib zo he ht hr C31_BDF3 b, implicit_steps_exactly lib zo he ht hr C31_BDF4 b,
    implicit_steps_exactly lib zo he ht hr C31_BDF5 b, implicit_steps_exactly lib zo he ht hr C31_BDF6 b⟩

theorem explicit_quadratic {c : MultistepCoef α p} (hc : c.Bn = 0) (b : Bound α) (st st' : St α 1 (histExtra p) Unit)
    (hs : Samples (p := p) st.cache st.t st.h (fun t _ => t ^ 2) (fun t _ => 2 * t))
    (h : Takes ⟨explicitMultistep c, pureRhs fun t _ _ => 2 * t, b⟩ st st') (d : Fin 1) :
    st'.y d = st.h * ∑ i : Fin (p + 1), c.B i.rev * (2 * (st.t - (i : ℕ) * st.h)) -
      ∑ i : Fin (p + 1), c.A i.rev * (st.t - (i : ℕ) * st.h) ^ 2 := by
  obtain ⟨y', f', h1, -, rfl⟩ := (explicit_takes_iff c hc _ b st st').mp h
  show (st.cache.push _ _ _).y d = _
  rw [push_y]
  have h3 := congrFun h1 d
  have e1 : ∀ i : Fin (p + 1), ago st.cache.ys i d = (st.t - (i : ℕ) * st.h) ^ 2 := fun i =>
    congrFun (hs i (by have := i.isLt; omega)).2.1 d
  have e2 : ∀ i : Fin (p + 1), ago st.cache.fs i d = 2 * (st.t - (i : ℕ) * st.h) :=
    fun i => congrFun (hs i (by have := i.isLt; omega)).2.2 d
  simp only [defect, Pi.zero_apply, e1, e2, hc, zero_mul, zero_add] at h3
  linear_combination h3

/-- The other reversed methods, on the same problem. -/
theorem C29_AB3_misses (b : Bound α) (st st' : St α 1 (histExtra 2) Unit)
    (hs : Samples (p := 2) st.cache st.t st.h (fun t _ => t ^ 2) (fun t _ => 2 * t))
    (h : Takes ⟨explicitMultistep AdamsBashforth3, pureRhs fun t _ _ => 2 * t, b⟩ st st') :
    st'.y = fun _ => (st.t + st.h) ^ 2 - 6 * st.h ^ 2 := by
  funext d
  rw [explicit_quadratic rfl b st st' hs h d]
  simp [Fin.sum_univ_succ, Fin.rev, adamsA, q, AdamsBashforth3]
  ring

theorem C29_AB4_misses (b : Bound α) (st st' : St α 1 (histExtra 3) Unit)
    (hs : Samples (p := 3) st.cache st.t st.h (fun t _ => t ^ 2) (fun t _ => 2 * t))
    (h : Takes ⟨explicitMultistep AdamsBashforth4, pureRhs fun t _ _ => 2 * t, b⟩ st st') :
    st'.y = fun _ => (st.t + st.h) ^ 2 - 8 * st.h ^ 2 := by
  funext d
  rw [explicit_quadratic rfl b st st' hs h d]
  simp [Fin.sum_univ_succ, Fin.rev, adamsA, q, AdamsBashforth4]
  ring

theorem C29_AB5_misses (b : Bound α) (st st' : St α 1 (histExtra 4) Unit)
    (hs : Samples (p := 4) st.cache st.t st.h (fun t _ => t ^ 2) (fun t _ => 2 * t))
    (h : Takes ⟨explicitMultistep AdamsBashforth5, pureRhs fun t _ _ => 2 * t, b⟩ st st') :
    st'.y = fun _ => (st.t + st.h) ^ 2 - 10 * st.h ^ 2 := by
  funext d
  rw [explicit_quadratic rfl b st st' hs h d]
  simp [Fin.sum_univ_succ, Fin.rev, adamsA, q, AdamsBashforth5]
  ring

/-- An exact history of a curve, on the grid `0, -h, -2h, ...`. -/
def sampled (p : Nat) (h : α) (y f : α → Vec α n) : St α n (histExtra p) Unit :=
  ⟨⟨fun i => -((histExtra p + 1 - i.val : ℕ) : α) * h, fun i => y (-((histExtra p + 1 - i.val : ℕ) : α) * h),
    fun i => f (-((histExtra p + 1 - i.val : ℕ) : α) * h)⟩, h, ()⟩

theorem sampled_t (p : Nat) (h : α) (y f : α → Vec α n) : (sampled p h y f).t = 0 := by
  simp [sampled, St.t, Buffer.t, Buffer.iLast]

theorem sampled_samples (p : Nat) (h : α) (y f : α → Vec α n) :
    Samples (p := p) (sampled p h y f).cache (sampled p h y f).t h y f := by
  intro i hi
  rw [sampled_t]
  have e : (histExtra p + 1 - (histExtra p + 1 - i) : ℕ) = i := by unfold histExtra; omega
  have e2 : (0 : α) - i * h = -(i : α) * h := by ring
  simp [sampled, ago, e, e2]

-- C31: a step of `BDF3` on the cubic `t^3`, from an exact history.
example : ∃ st', Takes ⟨implicitMultistep Demo.realLib Demo.realZeros BDF3, pureRhs fun t _ _ => 3 * t ^ 2, .inf⟩
      (sampled 2 (1 / 2 : ℝ) (fun t _ => t ^ 3) (fun t _ => 3 * t ^ 2)) st' ∧ st'.y = fun _ : Fin 1 => 1 / 8 := by
  have e : ∀ t : ℝ, (derivative (X ^ 3 : ℝ[X])).eval t = 3 * t ^ 2 := by intro t; simp; norm_num
  have e' : ∀ t : ℝ, (X ^ 3 : ℝ[X]).eval t = t ^ 3 := by intro t; simp
  obtain ⟨st', h1, -, h2⟩ := (C31_steps Demo.realLib Demo.realZeros (by norm_num [Demo.realZeros])
    (by norm_num [Demo.realZeros]) (by norm_num [Demo.realZeros]) .inf).2.2.1 (fun _ => X ^ 3) (by simp)
    (sampled 2 (1 / 2 : ℝ) (fun t _ => t ^ 3) (fun t _ => 3 * t ^ 2)) (by
      simp only [e, e']; exact sampled_samples 2 (1 / 2 : ℝ) _ _)
  simp only [e, e'] at h1 h2
  refine ⟨st', h1, h2.trans ?_⟩
  funext _
  rw [sampled_t]
  norm_num [sampled]

-- C30: a step of `AdamsMoulton3` on `t^2`, from an exact history.
example : ∃ st', Takes ⟨implicitMultistep Demo.realLib Demo.realZeros AdamsMoulton3, pureRhs fun t _ _ => 2 * t, .inf⟩
      (sampled 1 (1 / 2 : ℝ) (fun t _ => t ^ 2) (fun t _ => 2 * t)) st' ∧ st'.y = fun _ : Fin 1 => 1 / 4 := by
  have e : ∀ t : ℝ, (derivative (X ^ 2 : ℝ[X])).eval t = 2 * t := by intro t; simp; norm_num
  have e' : ∀ t : ℝ, (X ^ 2 : ℝ[X]).eval t = t ^ 2 := by intro t; simp
  obtain ⟨st', h1, -, h2⟩ := (C30_steps_partial Demo.realLib Demo.realZeros (by norm_num [Demo.realZeros])
    (by norm_num [Demo.realZeros]) (by norm_num [Demo.realZeros]) .inf).2.2.1 (fun _ => X ^ 2) (by simp)
    (sampled 1 (1 / 2 : ℝ) (fun t _ => t ^ 2) (fun t _ => 2 * t)) (by
      simp only [e, e']; exact sampled_samples 1 (1 / 2 : ℝ) _ _)
  simp only [e, e'] at h1 h2
  refine ⟨st', h1, h2.trans ?_⟩
  funext _
  rw [sampled_t]
  norm_num [sampled]

/-- **C30 refuted**, seen from outside: on `y' = 2t`, from an exact history of `y = t^2`, `AdamsMoulton4` lands `3 h^2` below the solution. -/
theorem C30_AM4_misses (lib : Lib α) (zo : ZeroOpts α) (he : 0 < zo.secantEps) (ht : 0 ≤ zo.tol)
    (hr : 0 ≤ zo.rtol) (b : Bound α) (st : St α 1 (histExtra 2) Unit)
    (hs : Samples (p := 2) st.cache st.t st.h (fun t _ => t ^ 2) (fun t _ => 2 * t)) :
    ∃ st', Takes ⟨implicitMultistep lib zo AdamsMoulton4, pureRhs fun t _ _ => 2 * t, b⟩ st st' ∧
      st'.y = fun _ => (st.t + st.h) ^ 2 - 3 * st.h ^ 2 := by
  obtain ⟨y', f', rfl, h1, h2⟩ := linear_exact lib zo he ht hr AdamsMoulton4 0 (fun t => 2 * t) b st (by simp)
  simp only [zero_mul, zero_add] at h1 h2
  refine ⟨_, h1, ?_⟩
  show (st.cache.push _ _ _).y = _
  rw [push_y]
  funext d
  have h3 := congrFun h2 d
  have e1 : ∀ i : Fin 3, ago st.cache.ys i d = (st.t - (i : ℕ) * st.h) ^ 2 := fun i =>
    congrFun (hs i (by have := i.isLt; omega)).2.1 d
  have e2 : ∀ i : Fin 3, ago st.cache.fs i d = 2 * (st.t - (i : ℕ) * st.h) :=
    fun i => congrFun (hs i (by have := i.isLt; omega)).2.2 d
  simp only [defect, Pi.zero_apply, e1, e2] at h3
  simp [Fin.sum_univ_succ, Fin.rev, adamsA, q, AdamsMoulton4] at h3
  linear_combination h3

/-- The formula with `B` read newest first. -/
def MultistepCoef.reversed (c : MultistepCoef α p) : MultistepCoef α p := { c with B := fun i => c.B i.rev }

/-- Reading `B` newest first, as documented, restores the advertised orders. -/
theorem C29_AB2_reversed : ExactOnPolynomials (AdamsBashforth2 : MultistepCoef α 1).reversed 2 := by
  check_orders [AdamsBashforth2, MultistepCoef.reversed]
theorem C29_AB3_reversed : ExactOnPolynomials (AdamsBashforth3 : MultistepCoef α 2).reversed 3 := by
  check_orders [AdamsBashforth3, MultistepCoef.reversed]
theorem C29_AB4_reversed : ExactOnPolynomials (AdamsBashforth4 : MultistepCoef α 3).reversed 4 := by
  check_orders [AdamsBashforth4, MultistepCoef.reversed]
theorem C29_AB5_reversed : ExactOnPolynomials (AdamsBashforth5 : MultistepCoef α 4).reversed 5 := by
  check_orders [AdamsBashforth5, MultistepCoef.reversed]
theorem C30_AM4_reversed : ExactOnPolynomials (AdamsMoulton4 : MultistepCoef α 2).reversed 4 := by
  check_orders [AdamsMoulton4, MultistepCoef.reversed]
theorem C30_AM5_reversed : ExactOnPolynomials (AdamsMoulton5 : MultistepCoef α 3).reversed 5 := by
  check_orders [AdamsMoulton5, MultistepCoef.reversed]

end Nbkode
