import Verif.Props.InvariantImplicit
import Verif.Props.ImplicitScalar
import Verif.Proofs.Dissipative

/-!
# C77: the implicit methods of low order are stable on dissipative problems, for every step size

`BackwardEuler` (the same as `AdamsMoulton1` and `BDF1`), `AdamsMoulton2` (the trapezoidal rule) and `BDF2`. However stiff the problem and however
long the step, two runs do not move apart, but for what the tolerance of Newton's method leaves.
-/

set_option autoImplicit false
set_option linter.unusedSectionVars false

namespace Nbkode
open Py Spec Solver

variable {n p : Nat}

/-- `st'` follows `st` by a step that misses the equation of the formula `c` by at most `τ`. -/
def StepEq (c : MultistepCoef ℝ p) (f : ℝ → Vec ℝ n → Vec ℝ n) (τ : ℝ) (st st' : St ℝ n (histExtra p) Unit) : Prop :=
  st'.t = st.t + st.h ∧ st'.h = st.h ∧ st'.f = f st'.t st'.y ∧
    (∀ i ≤ histExtra p, ago st'.cache.ys (i + 1) = ago st.cache.ys i) ∧
    length (fun i => defect c st.cache st.h st'.y st'.f i) ≤ τ

/-- One step of an implicit method, as an equation with a small remainder. -/
theorem implicit_step_eq {lib : Lib ℝ} (hlib : ∀ x, lib.sqrt x = Real.sqrt x) (zo : ZeroOpts ℝ) (c : MultistepCoef ℝ p)
    (f : ℝ → Vec ℝ n → Vec ℝ n) (b : Bound ℝ) (hn : n ≠ 1) (st st' : St ℝ n (histExtra p) Unit)
    (h : Takes ⟨implicitMultistep lib zo c, pureRhs f, b⟩ st st') :
    StepEq c f zo.tol st st' := by
  obtain ⟨y', f', h1, rfl, h2⟩ := implicit_residual lib zo c (pureRhs f) b hn st st' h
  have ey : (⟨st.cache.push (st.t + st.h) y' f', st.h, ()⟩ : St ℝ n (histExtra p) Unit).y = y' := push_y _ _ _ _
  have ef : (⟨st.cache.push (st.t + st.h) y' f', st.h, ()⟩ : St ℝ n (histExtra p) Unit).f = f' := push_f _ _ _ _
  have et : (⟨st.cache.push (st.t + st.h) y' f', st.h, ()⟩ : St ℝ n (histExtra p) Unit).t = st.t + st.h := push_t _ _ _ _
  have hf : f (st.t + st.h) y' = f' := by simpa [pureRhs] using h1
  refine ⟨et, rfl, by rw [ey, ef, et, hf], ?_, ?_⟩
  · intro i hi
    show (shiftIn st.cache.ys y') _ = st.cache.ys _
    unfold shiftIn
    rw [dif_pos (by dsimp only; omega)]
    congr 1
    ext
    dsimp only
    omega
  · rw [ey, ef]
    unfold euclid at h2
    rw [hlib, abs_of_nonneg (Real.sqrt_nonneg _)] at h2
    exact h2

/-- The steps of a run have the same step size. -/
theorem stepEq_time {c : MultistepCoef ℝ p} {f : ℝ → Vec ℝ n → Vec ℝ n} {τ : ℝ} (u : ℕ → St ℝ n (histExtra p) Unit) (N : ℕ)
    (h : ∀ k < N, StepEq c f τ (u k) (u (k + 1))) :
    ∀ k ≤ N, (u k).t = (u 0).t + k * (u 0).h ∧ (u k).h = (u 0).h := by
  intro k
  induction k with
  | zero => simp
  | succ k ih =>
    intro hk
    obtain ⟨e1, e2⟩ := ih (by omega)
    obtain ⟨s1, s2, -⟩ := h k (by omega)
    refine ⟨?_, s2.trans e2⟩
    rw [s1, e1, e2]; push_cast; ring

/-- One step of an implicit method on one equation whose right-hand side is Lipschitz in `y`, as an equation with a small remainder. -/
theorem implicit_step_eq_scalar (lib : Lib ℝ) (zo : ZeroOpts ℝ) (he : 0 < zo.secantEps) (h0 : 0 ≤ zo.tol) (hz : zo.rtol = 0) (c : MultistepCoef ℝ p)
    (f : ℝ → Vec ℝ 1 → Vec ℝ 1) {L : ℝ} (hL : ∀ t (y z : Vec ℝ 1), |f t y 0 - f t z 0| ≤ L * |y 0 - z 0|) (b : Bound ℝ) (st st' : St ℝ 1 (histExtra p) Unit)
    (h : Takes ⟨implicitMultistep lib zo c, pureRhs f, b⟩ st st') :
    StepEq c f (2 * (1 + |st.h * c.Bn| * L) * zo.tol) st st' := by
  obtain ⟨y', rfl, h2⟩ := implicit_scalar lib zo he h0 hz c f L b st st' (hL _) h
  have ey : (⟨st.cache.push (st.t + st.h) y' (f (st.t + st.h) y'), st.h, ()⟩ : St ℝ 1 (histExtra p) Unit).y = y' := push_y _ _ _ _
  have ef : (⟨st.cache.push (st.t + st.h) y' (f (st.t + st.h) y'), st.h, ()⟩ : St ℝ 1 (histExtra p) Unit).f = f (st.t + st.h) y' := push_f _ _ _ _
  have et : (⟨st.cache.push (st.t + st.h) y' (f (st.t + st.h) y'), st.h, ()⟩ : St ℝ 1 (histExtra p) Unit).t = st.t + st.h := push_t _ _ _ _
  refine ⟨et, rfl, by rw [ey, ef, et], ?_, ?_⟩
  · intro i hi
    show (shiftIn st.cache.ys y') _ = st.cache.ys _
    unfold shiftIn
    rw [dif_pos (by dsimp only; omega)]
    congr 1
    ext
    dsimp only
    omega
  · rw [ey, ef]
    unfold length
    rw [Fin.sum_univ_one, Real.sqrt_sq_eq_abs]
    exact h2

/-- The same for the steps of a run, with its step size. -/
theorem implicit_steps_eq_scalar (lib : Lib ℝ) (zo : ZeroOpts ℝ) (he : 0 < zo.secantEps) (h0 : 0 ≤ zo.tol) (hz : zo.rtol = 0) (c : MultistepCoef ℝ p)
    (f : ℝ → Vec ℝ 1 → Vec ℝ 1) {L : ℝ} (hL : ∀ t (y z : Vec ℝ 1), |f t y 0 - f t z 0| ≤ L * |y 0 - z 0|) (b : Bound ℝ)
    (u : ℕ → St ℝ 1 (histExtra p) Unit) (N : ℕ) (h : ∀ k < N, Takes ⟨implicitMultistep lib zo c, pureRhs f, b⟩ (u k) (u (k + 1))) :
    ∀ k < N, StepEq c f (2 * (1 + |(u 0).h * c.Bn| * L) * zo.tol) (u k) (u (k + 1)) := by
  have hh : ∀ k ≤ N, (u k).h = (u 0).h := by
    intro k
    induction k with
    | zero => intro _; rfl
    | succ k ih =>
      intro hk
      exact (implicit_step_eq_scalar lib zo he h0 hz c f hL b _ _ (h k hk)).2.1.trans (ih (by omega))
  intro k hk
  rw [← hh k hk.le]
  exact implicit_step_eq_scalar lib zo he h0 hz c f hL b _ _ (h k hk)

theorem length_sub_le {v w : Vec ℝ n} {τ σ : ℝ} (hv : length v ≤ τ) (hw : length w ≤ σ) : ‖toE v - toE w‖ ≤ τ + σ := by
  refine (norm_sub_le _ _).trans ?_
  rw [toE_norm, toE_norm]
  exact add_le_add hv hw

theorem dissipative_inner {f : ℝ → Vec ℝ n → Vec ℝ n} (hf : Dissipative f) (t : ℝ) (y z : Vec ℝ n) :
    inner ℝ (toE (f t y) - toE (f t z)) (toE y - toE z) ≤ 0 := by
  have := hf t y z
  rw [← toE_inner (fun i => f t y i - f t z i) (fun i => y i - z i)] at this
  exact this

theorem defect_BackwardEuler (b : Buffer ℝ n (histExtra 0)) (h : ℝ) (y' f' : Vec ℝ n) (i : Fin n) :
    defect BackwardEuler b h y' f' i = y' i - b.y i - h * f' i := by
  have e : ago b.ys 0 = b.y := rfl
  simp [defect, BackwardEuler, AdamsMoulton1, adamsA, e]
  ring

theorem defect_AdamsMoulton2 (b : Buffer ℝ n (histExtra 0)) (h : ℝ) (y' f' : Vec ℝ n) (i : Fin n) :
    defect AdamsMoulton2 b h y' f' i = y' i - b.y i - h / 2 * (b.f i + f' i) := by
  have e : ago b.ys 0 = b.y := rfl
  have e' : ago b.fs 0 = b.f := rfl
  simp [defect, AdamsMoulton2, adamsA, e, e', q]
  ring

theorem defect_BDF2 (b : Buffer ℝ n (histExtra 1)) (h : ℝ) (y' f' : Vec ℝ n) (i : Fin n) :
    defect BDF2 b h y' f' i = y' i - 4 / 3 * b.y i + 1 / 3 * ago b.ys 1 i - h * (2 / 3) * f' i := by
  have e : ago b.ys 0 = b.y := rfl
  simp [defect, BDF2, Fin.sum_univ_two, e, q]
  ring

theorem length_sub_eq (v w : Vec ℝ n) : length (fun i => v i - w i) = ‖toE v - toE w‖ := (toE_norm _).symm

/-- The core of C77 for `BackwardEuler`: any two runs with the same step size, however long the steps. -/
theorem backward_of (f : ℝ → Vec ℝ n → Vec ℝ n)
    (hf : Dissipative f) {τ : ℝ} (u v : ℕ → St ℝ n (histExtra 0) Unit) (N : ℕ)
    (hu : ∀ k < N, StepEq BackwardEuler f τ (u k) (u (k + 1)))
    (hv : ∀ k < N, StepEq BackwardEuler f τ (v k) (v (k + 1)))
    (ht : (u 0).t = (v 0).t) (hh : (u 0).h = (v 0).h) (h0 : 0 ≤ (u 0).h) :
    length (fun i => (u N).y i - (v N).y i) ≤ length (fun i => (u 0).y i - (v 0).y i) + N * (2 * τ) := by
  have tu := stepEq_time u N hu
  have tv := stepEq_time v N hv
  rw [length_sub_eq, length_sub_eq]
  refine backward_steps (d := fun k => toE (u k).y - toE (v k).y)
    (g := fun k => toE (f ((u 0).t + k * (u 0).h) (u k).y) - toE (f ((u 0).t + k * (u 0).h) (v k).y)) h0 N
    (fun k => dissipative_inner hf _ _ _) ?_
  intro k hk
  obtain ⟨-, -, a3, -, a5⟩ := (hu k hk)
  obtain ⟨-, -, b3, -, b5⟩ := (hv k hk)
  refine ⟨_, (length_sub_le a5 b5).trans_eq (two_mul _).symm, ?_⟩
  rw [(tu k hk.le).2, a3, (tu (k + 1) hk).1, (tv k hk.le).2, b3, (tv (k + 1) hk).1, ← hh, ← ht]
  refine toE_ext fun i => ?_
  simp only [PiLp.add_apply, PiLp.sub_apply, PiLp.smul_apply, toE_apply, smul_eq_mul, defect_BackwardEuler, St.y]
  ring

/-- The core of C77 for `BackwardEuler` near an equilibrium `z`: the run does not move away from it. -/
theorem equilibrium_of (f : ℝ → Vec ℝ n → Vec ℝ n)
    (hf : Dissipative f) {τ : ℝ} (u : ℕ → St ℝ n (histExtra 0) Unit) (N : ℕ)
    (hu : ∀ k < N, StepEq BackwardEuler f τ (u k) (u (k + 1)))
    (h0 : 0 ≤ (u 0).h) (z : Vec ℝ n) (hz : ∀ t, f t z = 0) :
    length (fun i => (u N).y i - z i) ≤ length (fun i => (u 0).y i - z i) + N * τ := by
  have tu := stepEq_time u N hu
  rw [length_sub_eq, length_sub_eq]
  refine backward_steps (d := fun k => toE (u k).y - toE z)
    (g := fun k => toE (f ((u 0).t + k * (u 0).h) (u k).y) - toE (f ((u 0).t + k * (u 0).h) z)) h0 N
    (fun k => dissipative_inner hf _ _ _) ?_
  intro k hk
  obtain ⟨-, -, a3, -, a5⟩ := (hu k hk)
  refine ⟨toE _, (toE_norm _).trans_le a5, ?_⟩
  rw [(tu k hk.le).2, a3, (tu (k + 1) hk).1, hz]
  refine toE_ext fun i => ?_
  simp only [PiLp.add_apply, PiLp.sub_apply, PiLp.smul_apply, toE_apply, smul_eq_mul, defect_BackwardEuler, St.y, Pi.zero_apply]
  ring

/-- The core of C77 for `AdamsMoulton2`, the trapezoidal rule. The recorded slopes at the start are those of the right-hand side. -/
theorem trapezoid_of (f : ℝ → Vec ℝ n → Vec ℝ n)
    (hf : Dissipative f) {τ : ℝ} (u v : ℕ → St ℝ n (histExtra 0) Unit) (N : ℕ)
    (hu : ∀ k < N, StepEq AdamsMoulton2 f τ (u k) (u (k + 1)))
    (hv : ∀ k < N, StepEq AdamsMoulton2 f τ (v k) (v (k + 1)))
    (ht : (u 0).t = (v 0).t) (hh : (u 0).h = (v 0).h) (h0 : 0 ≤ (u 0).h) (fu : (u 0).f = f (u 0).t (u 0).y)
    (fv : (v 0).f = f (v 0).t (v 0).y) :
    length (fun i => (u N).y i - (v N).y i) ≤ length (fun i => (u 0).y i - (v 0).y i) +
      (u 0).h / 2 * length (fun i => f (u 0).t (u 0).y i - f (u 0).t (v 0).y i) + N * (2 * τ) := by
  have tu := stepEq_time u N hu
  have tv := stepEq_time v N hv
  have gu : ∀ k ≤ N, (u k).f = f (u k).t (u k).y := by
    intro k hk
    cases k with
    | zero => exact fu
    | succ k => exact (hu k hk).2.2.1
  have gv : ∀ k ≤ N, (v k).f = f (v k).t (v k).y := by
    intro k hk
    cases k with
    | zero => exact fv
    | succ k => exact (hv k hk).2.2.1
  rw [length_sub_eq, length_sub_eq, length_sub_eq]
  have := trapezoid_steps (d := fun k => toE (u k).y - toE (v k).y)
    (g := fun k => toE (f ((u 0).t + k * (u 0).h) (u k).y) - toE (f ((u 0).t + k * (u 0).h) (v k).y)) (τ := 2 * τ) h0 N
    (fun k => dissipative_inner hf _ _ _) (by
      intro k hk
      obtain ⟨-, -, -, -, a5⟩ := (hu k hk)
      obtain ⟨-, -, -, -, b5⟩ := (hv k hk)
      refine ⟨_, (length_sub_le a5 b5).trans_eq (two_mul _).symm, ?_⟩
      have e1 := gu k hk.le
      have e2 := gv k hk.le
      rw [(tu k hk.le).1] at e1
      rw [(tv k hk.le).1, ← hh, ← ht] at e2
      rw [(tu k hk.le).2, gu (k + 1) hk, (tu (k + 1) hk).1, (tv k hk.le).2, gv (k + 1) hk, (tv (k + 1) hk).1, ← hh, ← ht, ← e1, ← e2]
      refine toE_ext fun i => ?_
      simp only [PiLp.add_apply, PiLp.sub_apply, PiLp.smul_apply, toE_apply, smul_eq_mul, defect_AdamsMoulton2, St.y, St.f]
      ring)
  simpa using this

/-- The core of C77 for `BDF2`. It starts from two points; the runs never move apart by more than the starting points allow. -/
theorem bdf2_of (f : ℝ → Vec ℝ n → Vec ℝ n)
    (hf : Dissipative f) {τ : ℝ} (u v : ℕ → St ℝ n (histExtra 1) Unit) (N : ℕ)
    (hu : ∀ k < N, StepEq BDF2 f τ (u k) (u (k + 1)))
    (hv : ∀ k < N, StepEq BDF2 f τ (v k) (v (k + 1)))
    (ht : (u 0).t = (v 0).t) (hh : (u 0).h = (v 0).h) (h0 : 0 ≤ (u 0).h) :
    length (fun i => (u N).y i - (v N).y i) ≤
      Real.sqrt (length (fun i => (u 0).y i - (v 0).y i) ^ 2 +
        length (fun i => 2 * ((u 0).y i - (v 0).y i) - (ago (u 0).cache.ys 1 i - ago (v 0).cache.ys 1 i)) ^ 2) + N * (12 * τ) := by
  have tu := stepEq_time u N hu
  have tv := stepEq_time v N hv
  have := bdf2_steps (d := fun k => toE (u k).y - toE (v k).y) (e := fun k => toE (ago (u k).cache.ys 1) - toE (ago (v k).cache.ys 1))
    (g := fun k => toE (f ((u 0).t + k * (u 0).h) (u k).y) - toE (f ((u 0).t + k * (u 0).h) (v k).y)) (τ := 2 * τ) h0 N
    (fun k => dissipative_inner hf _ _ _) (by
      intro k hk
      obtain ⟨-, -, -, a4, -⟩ := (hu k hk)
      obtain ⟨-, -, -, b4, -⟩ := (hv k hk)
      show toE (ago (u (k + 1)).cache.ys (0 + 1)) - toE (ago (v (k + 1)).cache.ys (0 + 1)) = _
      rw [a4 0 (Nat.zero_le _), b4 0 (Nat.zero_le _)]
      rfl) (by
      intro k hk
      obtain ⟨-, -, a3, -, a5⟩ := (hu k hk)
      obtain ⟨-, -, b3, -, b5⟩ := (hv k hk)
      refine ⟨_, (length_sub_le a5 b5).trans_eq (two_mul _).symm, ?_⟩
      rw [(tu k hk.le).2, a3, (tu (k + 1) hk).1, (tv k hk.le).2, b3, (tv (k + 1) hk).1, ← hh, ← ht]
      refine toE_ext fun i => ?_
      simp only [PiLp.add_apply, PiLp.sub_apply, PiLp.smul_apply, toE_apply, smul_eq_mul, defect_BDF2, St.y]
      ring)
  rw [length_sub_eq, length_sub_eq]
  have e : length (fun i => 2 * ((u 0).y i - (v 0).y i) - (ago (u 0).cache.ys 1 i - ago (v 0).cache.ys 1 i)) =
      ‖(2 : ℝ) • (toE (u 0).y - toE (v 0).y) - (toE (ago (u 0).cache.ys 1) - toE (ago (v 0).cache.ys 1))‖ := by
    rw [← toE_norm]; rfl
  rw [e]
  refine this.trans (le_of_eq ?_)
  ring

/-- **C77** for `BackwardEuler`: any two runs with the same step size, however long the steps. -/
theorem C77_BackwardEuler {lib : Lib ℝ} (hlib : ∀ x, lib.sqrt x = Real.sqrt x) (zo : ZeroOpts ℝ) (f : ℝ → Vec ℝ n → Vec ℝ n)
    (hf : Dissipative f) (b b' : Bound ℝ) (hn : n ≠ 1) (u v : ℕ → St ℝ n (histExtra 0) Unit) (N : ℕ)
    (hu : ∀ k < N, Takes ⟨implicitMultistep lib zo BackwardEuler, pureRhs f, b⟩ (u k) (u (k + 1)))
    (hv : ∀ k < N, Takes ⟨implicitMultistep lib zo BackwardEuler, pureRhs f, b'⟩ (v k) (v (k + 1)))
    (ht : (u 0).t = (v 0).t) (hh : (u 0).h = (v 0).h) (h0 : 0 ≤ (u 0).h) :
    length (fun i => (u N).y i - (v N).y i) ≤ length (fun i => (u 0).y i - (v 0).y i) + N * (2 * zo.tol) :=
  backward_of f hf u v N (fun k hk => implicit_step_eq hlib zo _ f b hn _ _ (hu k hk)) (fun k hk => implicit_step_eq hlib zo _ f b' hn _ _ (hv k hk)) ht hh h0

/-- **C77** for `BackwardEuler`: any two runs with the same step size, however long the steps. One equation, with a right-hand side that is Lipschitz in `y`. -/
theorem C77_BackwardEuler_scalar (lib : Lib ℝ) (zo : ZeroOpts ℝ) (he : 0 < zo.secantEps) (hz0 : 0 ≤ zo.tol) (hrt : zo.rtol = 0) (f : ℝ → Vec ℝ 1 → Vec ℝ 1)
    {L : ℝ} (hL : ∀ t (y z : Vec ℝ 1), |f t y 0 - f t z 0| ≤ L * |y 0 - z 0|)
    (hf : Dissipative f) (b b' : Bound ℝ) (u v : ℕ → St ℝ 1 (histExtra 0) Unit) (N : ℕ)
    (hu : ∀ k < N, Takes ⟨implicitMultistep lib zo BackwardEuler, pureRhs f, b⟩ (u k) (u (k + 1)))
    (hv : ∀ k < N, Takes ⟨implicitMultistep lib zo BackwardEuler, pureRhs f, b'⟩ (v k) (v (k + 1)))
    (ht : (u 0).t = (v 0).t) (hh : (u 0).h = (v 0).h) (h0 : 0 ≤ (u 0).h) :
    length (fun i => (u N).y i - (v N).y i) ≤ length (fun i => (u 0).y i - (v 0).y i) + N * (2 * (2 * (1 + (u 0).h * L) * zo.tol)) := by
  have e : |(u 0).h * (BackwardEuler : MultistepCoef ℝ _).Bn| = (u 0).h := by
    rw [abs_of_nonneg (mul_nonneg h0 (by norm_num [BackwardEuler, AdamsMoulton1, q]))]
    norm_num [BackwardEuler, AdamsMoulton1, q]
    try ring
  have hu' := implicit_steps_eq_scalar lib zo he hz0 hrt _ f hL b u N hu
  rw [e] at hu'
  have hv' := implicit_steps_eq_scalar lib zo he hz0 hrt _ f hL b' v N hv
  rw [← hh, e] at hv'
  exact backward_of f hf u v N hu' hv' ht hh h0

/-- **C77** for `BackwardEuler` near an equilibrium `z`: the run does not move away from it. -/
theorem C77_BackwardEuler_equilibrium {lib : Lib ℝ} (hlib : ∀ x, lib.sqrt x = Real.sqrt x) (zo : ZeroOpts ℝ) (f : ℝ → Vec ℝ n → Vec ℝ n)
    (hf : Dissipative f) (b : Bound ℝ) (hn : n ≠ 1) (u : ℕ → St ℝ n (histExtra 0) Unit) (N : ℕ)
    (hu : ∀ k < N, Takes ⟨implicitMultistep lib zo BackwardEuler, pureRhs f, b⟩ (u k) (u (k + 1)))
    (h0 : 0 ≤ (u 0).h) (z : Vec ℝ n) (hz : ∀ t, f t z = 0) :
    length (fun i => (u N).y i - z i) ≤ length (fun i => (u 0).y i - z i) + N * zo.tol :=
  equilibrium_of f hf u N (fun k hk => implicit_step_eq hlib zo _ f b hn _ _ (hu k hk)) h0 z hz

/-- **C77** for `BackwardEuler` near an equilibrium `z`: the run does not move away from it. One equation, with a right-hand side that is Lipschitz in `y`. -/
theorem C77_BackwardEuler_equilibrium_scalar (lib : Lib ℝ) (zo : ZeroOpts ℝ) (he : 0 < zo.secantEps) (hz0 : 0 ≤ zo.tol) (hrt : zo.rtol = 0) (f : ℝ → Vec ℝ 1 → Vec ℝ 1)
    {L : ℝ} (hL : ∀ t (y z : Vec ℝ 1), |f t y 0 - f t z 0| ≤ L * |y 0 - z 0|)
    (hf : Dissipative f) (b : Bound ℝ) (u : ℕ → St ℝ 1 (histExtra 0) Unit) (N : ℕ)
    (hu : ∀ k < N, Takes ⟨implicitMultistep lib zo BackwardEuler, pureRhs f, b⟩ (u k) (u (k + 1)))
    (h0 : 0 ≤ (u 0).h) (z : Vec ℝ 1) (hz : ∀ t, f t z = 0) :
    length (fun i => (u N).y i - z i) ≤ length (fun i => (u 0).y i - z i) + N * (2 * (1 + (u 0).h * L) * zo.tol) := by
  have e : |(u 0).h * (BackwardEuler : MultistepCoef ℝ _).Bn| = (u 0).h := by
    rw [abs_of_nonneg (mul_nonneg h0 (by norm_num [BackwardEuler, AdamsMoulton1, q]))]
    norm_num [BackwardEuler, AdamsMoulton1, q]
    try ring
  have hu' := implicit_steps_eq_scalar lib zo he hz0 hrt _ f hL b u N hu
  rw [e] at hu'
  exact equilibrium_of f hf u N hu' h0 z hz

/-- **C77** for `AdamsMoulton2`, the trapezoidal rule. The recorded slopes at the start are those of the right-hand side. -/
theorem C77_AdamsMoulton2 {lib : Lib ℝ} (hlib : ∀ x, lib.sqrt x = Real.sqrt x) (zo : ZeroOpts ℝ) (f : ℝ → Vec ℝ n → Vec ℝ n)
    (hf : Dissipative f) (b b' : Bound ℝ) (hn : n ≠ 1) (u v : ℕ → St ℝ n (histExtra 0) Unit) (N : ℕ)
    (hu : ∀ k < N, Takes ⟨implicitMultistep lib zo AdamsMoulton2, pureRhs f, b⟩ (u k) (u (k + 1)))
    (hv : ∀ k < N, Takes ⟨implicitMultistep lib zo AdamsMoulton2, pureRhs f, b'⟩ (v k) (v (k + 1)))
    (ht : (u 0).t = (v 0).t) (hh : (u 0).h = (v 0).h) (h0 : 0 ≤ (u 0).h) (fu : (u 0).f = f (u 0).t (u 0).y)
    (fv : (v 0).f = f (v 0).t (v 0).y) :
    length (fun i => (u N).y i - (v N).y i) ≤ length (fun i => (u 0).y i - (v 0).y i) +
      (u 0).h / 2 * length (fun i => f (u 0).t (u 0).y i - f (u 0).t (v 0).y i) + N * (2 * zo.tol) :=
  trapezoid_of f hf u v N (fun k hk => implicit_step_eq hlib zo _ f b hn _ _ (hu k hk)) (fun k hk => implicit_step_eq hlib zo _ f b' hn _ _ (hv k hk)) ht hh h0 fu fv

/-- **C77** for `AdamsMoulton2`, the trapezoidal rule. The recorded slopes at the start are those of the right-hand side. One equation, with a right-hand side that is Lipschitz in `y`. -/
theorem C77_AdamsMoulton2_scalar (lib : Lib ℝ) (zo : ZeroOpts ℝ) (he : 0 < zo.secantEps) (hz0 : 0 ≤ zo.tol) (hrt : zo.rtol = 0) (f : ℝ → Vec ℝ 1 → Vec ℝ 1)
    {L : ℝ} (hL : ∀ t (y z : Vec ℝ 1), |f t y 0 - f t z 0| ≤ L * |y 0 - z 0|)
    (hf : Dissipative f) (b b' : Bound ℝ) (u v : ℕ → St ℝ 1 (histExtra 0) Unit) (N : ℕ)
    (hu : ∀ k < N, Takes ⟨implicitMultistep lib zo AdamsMoulton2, pureRhs f, b⟩ (u k) (u (k + 1)))
    (hv : ∀ k < N, Takes ⟨implicitMultistep lib zo AdamsMoulton2, pureRhs f, b'⟩ (v k) (v (k + 1)))
    (ht : (u 0).t = (v 0).t) (hh : (u 0).h = (v 0).h) (h0 : 0 ≤ (u 0).h) (fu : (u 0).f = f (u 0).t (u 0).y)
    (fv : (v 0).f = f (v 0).t (v 0).y) :
    length (fun i => (u N).y i - (v N).y i) ≤ length (fun i => (u 0).y i - (v 0).y i) +
      (u 0).h / 2 * length (fun i => f (u 0).t (u 0).y i - f (u 0).t (v 0).y i) + N * (2 * (2 * (1 + (u 0).h / 2 * L) * zo.tol)) := by
  have e : |(u 0).h * (AdamsMoulton2 : MultistepCoef ℝ _).Bn| = (u 0).h / 2 := by
    rw [abs_of_nonneg (mul_nonneg h0 (by norm_num [AdamsMoulton2, AdamsMoulton1, q]))]
    norm_num [AdamsMoulton2, AdamsMoulton1, q]
    try ring
  have hu' := implicit_steps_eq_scalar lib zo he hz0 hrt _ f hL b u N hu
  rw [e] at hu'
  have hv' := implicit_steps_eq_scalar lib zo he hz0 hrt _ f hL b' v N hv
  rw [← hh, e] at hv'
  exact trapezoid_of f hf u v N hu' hv' ht hh h0 fu fv

/-- **C77** for `BDF2`. It starts from two points; the runs never move apart by more than the starting points allow. -/
theorem C77_BDF2 {lib : Lib ℝ} (hlib : ∀ x, lib.sqrt x = Real.sqrt x) (zo : ZeroOpts ℝ) (f : ℝ → Vec ℝ n → Vec ℝ n)
    (hf : Dissipative f) (b b' : Bound ℝ) (hn : n ≠ 1) (u v : ℕ → St ℝ n (histExtra 1) Unit) (N : ℕ)
    (hu : ∀ k < N, Takes ⟨implicitMultistep lib zo BDF2, pureRhs f, b⟩ (u k) (u (k + 1)))
    (hv : ∀ k < N, Takes ⟨implicitMultistep lib zo BDF2, pureRhs f, b'⟩ (v k) (v (k + 1)))
    (ht : (u 0).t = (v 0).t) (hh : (u 0).h = (v 0).h) (h0 : 0 ≤ (u 0).h) :
    length (fun i => (u N).y i - (v N).y i) ≤
      Real.sqrt (length (fun i => (u 0).y i - (v 0).y i) ^ 2 +
        length (fun i => 2 * ((u 0).y i - (v 0).y i) - (ago (u 0).cache.ys 1 i - ago (v 0).cache.ys 1 i)) ^ 2) + N * (12 * zo.tol) :=
  bdf2_of f hf u v N (fun k hk => implicit_step_eq hlib zo _ f b hn _ _ (hu k hk)) (fun k hk => implicit_step_eq hlib zo _ f b' hn _ _ (hv k hk)) ht hh h0

/-- **C77** for `BDF2`. It starts from two points; the runs never move apart by more than the starting points allow. One equation, with a right-hand side that is Lipschitz in `y`. -/
theorem C77_BDF2_scalar (lib : Lib ℝ) (zo : ZeroOpts ℝ) (he : 0 < zo.secantEps) (hz0 : 0 ≤ zo.tol) (hrt : zo.rtol = 0) (f : ℝ → Vec ℝ 1 → Vec ℝ 1)
    {L : ℝ} (hL : ∀ t (y z : Vec ℝ 1), |f t y 0 - f t z 0| ≤ L * |y 0 - z 0|)
    (hf : Dissipative f) (b b' : Bound ℝ) (u v : ℕ → St ℝ 1 (histExtra 1) Unit) (N : ℕ)
    (hu : ∀ k < N, Takes ⟨implicitMultistep lib zo BDF2, pureRhs f, b⟩ (u k) (u (k + 1)))
    (hv : ∀ k < N, Takes ⟨implicitMultistep lib zo BDF2, pureRhs f, b'⟩ (v k) (v (k + 1)))
    (ht : (u 0).t = (v 0).t) (hh : (u 0).h = (v 0).h) (h0 : 0 ≤ (u 0).h) :
    length (fun i => (u N).y i - (v N).y i) ≤
      Real.sqrt (length (fun i => (u 0).y i - (v 0).y i) ^ 2 +
        length (fun i => 2 * ((u 0).y i - (v 0).y i) - (ago (u 0).cache.ys 1 i - ago (v 0).cache.ys 1 i)) ^ 2) + N * (12 * (2 * (1 + 2 * (u 0).h / 3 * L) * zo.tol)) := by
  have e : |(u 0).h * (BDF2 : MultistepCoef ℝ _).Bn| = 2 * (u 0).h / 3 := by
    rw [abs_of_nonneg (mul_nonneg h0 (by norm_num [BDF2, AdamsMoulton1, q]))]
    norm_num [BDF2, AdamsMoulton1, q]
    try ring
  have hu' := implicit_steps_eq_scalar lib zo he hz0 hrt _ f hL b u N hu
  rw [e] at hu'
  have hv' := implicit_steps_eq_scalar lib zo he hz0 hrt _ f hL b' v N hv
  rw [← hh, e] at hv'
  exact bdf2_of f hf u v N hu' hv' ht hh h0

/-! ### Cases -/

namespace Demo

theorem tanks_dissipative : Dissipative fun (_ : ℝ) (y : Vec ℝ 2) i => ∑ j, (!![-1, 1; 1, -1] : Matrix (Fin 2) (Fin 2) ℝ) i j * y j + 0 := by
  intro t y z
  simp [Fin.sum_univ_two]
  nlinarith [sq_nonneg ((y 0 - z 0) - (y 1 - z 1))]

/-- `C77_BackwardEuler`: two fillings of the tanks, steps of size 100. -/
example (N : ℕ) : ∃ u v : ℕ → St ℝ 2 (histExtra 0) Unit, (u 0).y = ![1, 0] ∧ (v 0).y = ![0, 3] ∧
    (∀ k, Takes ⟨implicitMultistep realLib realZeros BackwardEuler, tanks, .inf⟩ (u k) (u (k + 1))) ∧
    (∀ k, Takes ⟨implicitMultistep realLib realZeros BackwardEuler, tanks, .inf⟩ (v k) (v (k + 1))) ∧
    length (fun i => (u N).y i - (v N).y i) ≤ length (fun i => (u 0).y i - (v 0).y i) + N * (2 * realZeros.tol) := by
  obtain ⟨u, u0, hu⟩ := tanks_steps BackwardEuler (by norm_num [BackwardEuler, AdamsMoulton1])
    ⟨⟨fun _ => 0, fun _ => ![1, 0], fun _ => ![-1, 1]⟩, 100, ()⟩ (by norm_num)
  obtain ⟨v, v0, hv⟩ := tanks_steps BackwardEuler (by norm_num [BackwardEuler, AdamsMoulton1])
    ⟨⟨fun _ => 0, fun _ => ![0, 3], fun _ => ![3, -3]⟩, 100, ()⟩ (by norm_num)
  refine ⟨u, v, by rw [u0]; rfl, by rw [v0]; rfl, hu, hv, ?_⟩
  exact C77_BackwardEuler (fun _ => rfl) realZeros _ tanks_dissipative .inf .inf (by decide) u v N (fun k _ => hu k) (fun k _ => hv k)
    (by rw [u0, v0]; rfl) (by rw [u0, v0]) (by rw [u0]; norm_num)

/-- `C77_BackwardEuler_equilibrium`: equally full tanks are an equilibrium. -/
example (N : ℕ) : ∃ u : ℕ → St ℝ 2 (histExtra 0) Unit, (u 0).y = ![1, 0] ∧
    (∀ k, Takes ⟨implicitMultistep realLib realZeros BackwardEuler, tanks, .inf⟩ (u k) (u (k + 1))) ∧
    length (fun i => (u N).y i - (![2, 2] : Vec ℝ 2) i) ≤ length (fun i => (u 0).y i - (![2, 2] : Vec ℝ 2) i) + N * realZeros.tol := by
  obtain ⟨u, u0, hu⟩ := tanks_steps BackwardEuler (by norm_num [BackwardEuler, AdamsMoulton1])
    ⟨⟨fun _ => 0, fun _ => ![1, 0], fun _ => ![-1, 1]⟩, 100, ()⟩ (by norm_num)
  refine ⟨u, by rw [u0]; rfl, hu, ?_⟩
  refine C77_BackwardEuler_equilibrium (fun _ => rfl) realZeros _ tanks_dissipative .inf (by decide) u N (fun k _ => hu k)
    (by rw [u0]; norm_num) _ fun t => ?_
  funext i
  fin_cases i <;> simp [Fin.sum_univ_two]

/-- `C77_AdamsMoulton2`: the same with the trapezoidal rule. -/
example (N : ℕ) : ∃ u v : ℕ → St ℝ 2 (histExtra 0) Unit, (u 0).y = ![1, 0] ∧ (v 0).y = ![0, 3] ∧
    length (fun i => (u N).y i - (v N).y i) ≤ length (fun i => (u 0).y i - (v 0).y i) +
      (u 0).h / 2 * length (fun i => (∑ j, (!![-1, 1; 1, -1] : Matrix (Fin 2) (Fin 2) ℝ) i j * (u 0).y j + 0) -
        (∑ j, (!![-1, 1; 1, -1] : Matrix (Fin 2) (Fin 2) ℝ) i j * (v 0).y j + 0)) + N * (2 * realZeros.tol) := by
  obtain ⟨u, u0, hu⟩ := tanks_steps AdamsMoulton2 (by norm_num [AdamsMoulton2, q])
    ⟨⟨fun _ => 0, fun _ => ![1, 0], fun _ => ![-1, 1]⟩, 100, ()⟩ (by norm_num)
  obtain ⟨v, v0, hv⟩ := tanks_steps AdamsMoulton2 (by norm_num [AdamsMoulton2, q])
    ⟨⟨fun _ => 0, fun _ => ![0, 3], fun _ => ![3, -3]⟩, 100, ()⟩ (by norm_num)
  refine ⟨u, v, by rw [u0]; rfl, by rw [v0]; rfl, ?_⟩
  refine C77_AdamsMoulton2 (fun _ => rfl) realZeros _ tanks_dissipative .inf .inf (by decide) u v N (fun k _ => hu k) (fun k _ => hv k)
    (by rw [u0, v0]; rfl) (by rw [u0, v0]) (by rw [u0]; norm_num) ?_ ?_
  · rw [u0]; funext i; fin_cases i <;> simp [St.f, St.y, Buffer.f, Buffer.y, Fin.sum_univ_two]
  · rw [v0]; funext i; fin_cases i <;> simp [St.f, St.y, Buffer.f, Buffer.y, Fin.sum_univ_two]

/-- `C77_BDF2`: the same with `BDF2`. -/
example (N : ℕ) : ∃ u v : ℕ → St ℝ 2 (histExtra 1) Unit, (u 0).y = ![1, 0] ∧ (v 0).y = ![0, 3] ∧
    length (fun i => (u N).y i - (v N).y i) ≤
      Real.sqrt (length (fun i => (u 0).y i - (v 0).y i) ^ 2 +
        length (fun i => 2 * ((u 0).y i - (v 0).y i) - (ago (u 0).cache.ys 1 i - ago (v 0).cache.ys 1 i)) ^ 2) + N * (12 * realZeros.tol) := by
  obtain ⟨u, u0, hu⟩ := tanks_steps BDF2 (by norm_num [BDF2, q])
    ⟨⟨fun _ => 0, fun _ => ![1, 0], fun _ => ![-1, 1]⟩, 100, ()⟩ (by norm_num)
  obtain ⟨v, v0, hv⟩ := tanks_steps BDF2 (by norm_num [BDF2, q])
    ⟨⟨fun _ => 0, fun _ => ![0, 3], fun _ => ![3, -3]⟩, 100, ()⟩ (by norm_num)
  refine ⟨u, v, by rw [u0]; rfl, by rw [v0]; rfl, ?_⟩
  exact C77_BDF2 (fun _ => rfl) realZeros _ tanks_dissipative .inf .inf (by decide) u v N (fun k _ => hu k) (fun k _ => hv k)
    (by rw [u0, v0]; rfl) (by rw [u0, v0]) (by rw [u0]; norm_num)

end Demo
end Nbkode
