import Verif.Model.Tableaux
import Verif.Model.Solver
import Verif.Proofs.Loops
import Verif.Proofs.MethodShape
import Mathlib.Algebra.Order.Field.Rat
import Mathlib.Tactic.NormNum
import Mathlib.Tactic.FinCases
import Mathlib.Tactic.Ring
import Mathlib.Data.Fintype.Basic

/-!
# Concrete solvers for the non-vacuity examples

Forward Euler on `y' = y`, `y(0) = 1` over the rationals, with step `1/2` and various bounds.
-/

set_option autoImplicit false

namespace Nbkode.Demo
open Nbkode

/-- `y' = y` in one dimension. -/
def growth : Rhs ℚ 1 := pureRhs fun _ y => y

/-- A right-hand side that raises for `t > 3/4`. -/
def failing : Rhs ℚ 1 := fun t y => if t > 3/4 then .error (.user 7) else .ok y

/-- `ForwardEuler(growth, ..., t_bound=b)`. -/
def euler (b : Bound ℚ) : Solver ℚ 1 (histExtra 0) Unit := ⟨explicitMultistep ForwardEuler, growth, b⟩

/-- `ForwardEuler(failing, ...)`. -/
def eulerFailing : Solver ℚ 1 (histExtra 0) Unit := ⟨explicitMultistep ForwardEuler, failing, .inf⟩

/-- The state `t`, `y`, `f` repeated in the history, with step `1/2`. -/
def st (t y f : ℚ) : St ℚ 1 (histExtra 0) Unit := ⟨⟨fun _ => t, fun _ _ => y, fun _ _ => f⟩, 1/2, ()⟩

/-- A state with two distinct recorded points. -/
def st2 (t0 y0 f0 t1 y1 f1 : ℚ) : St ℚ 1 (histExtra 0) Unit :=
  ⟨⟨![t0, t1], ![fun _ => y0, fun _ => y1], ![fun _ => f0, fun _ => f1]⟩, 1/2, ()⟩

/-- The initial state of the demo solver: `t = 0`, `y = 1`, `f = 1`, `h = 1/2`. -/
def s0 : St ℚ 1 (histExtra 0) Unit := st 0 1 1

/-- One Euler step of `growth` from a state with last point `(t, y, y)` and `h = 1/2`. -/
theorem euler_takes (b : Bound ℚ) (t0 y0 f0 t y : ℚ) :
    Spec.Takes (euler b) (st2 t0 y0 f0 t y y)
      (st2 t y y (t + 1/2) (y + 1/2 * y) (y + 1/2 * y)) := by
  unfold Spec.Takes
  have e : multistepK (ForwardEuler (α := ℚ)) (st2 t0 y0 f0 t y y).cache (1/2)
      = fun _ => y + 1/2 * y := by
    funext i
    simp [multistepK, vdot, lastRows, ForwardEuler, AdamsBashforth1, adamsA, st2, histExtra,
      Fin.foldl_succ]
    ring
  change (explicitMultistepBody ForwardEuler growth).run _ = _
  rw [explicitMultistepBody_run]
  simp only [growth, pureRhs, St.t]
  simp only [Option.some.injEq, Prod.mk.injEq, true_and]
  have e' : multistepK (ForwardEuler (α := ℚ)) (st2 t0 y0 f0 t y y).cache
      (st2 t0 y0 f0 t y y).h = fun _ => y + 1/2 * y := e
  rw [e']
  unfold st2 Buffer.push
  congr 1
  congr 1
  · funext i; fin_cases i <;> simp [shiftIn, Buffer.t, Buffer.iLast, histExtra]
  · funext i; fin_cases i <;> simp [shiftIn, histExtra]
  · funext i; fin_cases i <;> simp [shiftIn, histExtra]

theorem s0_eq : s0 = st2 0 1 1 0 1 1 := by
  unfold s0 st st2
  congr 1
  congr 1 <;> (funext i; fin_cases i <;> rfl)

/-- The demo solver after one and two steps. -/
def s1 : St ℚ 1 (histExtra 0) Unit := st2 0 1 1 (1/2) (3/2) (3/2)
def s2 : St ℚ 1 (histExtra 0) Unit := st2 (1/2) (3/2) (3/2) 1 (9/4) (9/4)

theorem takes01 (b : Bound ℚ) : Spec.Takes (euler b) s0 s1 := by
  have := euler_takes b 0 1 1 0 1
  rw [s0_eq]
  norm_num at this
  unfold s1
  norm_num
  exact this

theorem takes12 (b : Bound ℚ) : Spec.Takes (euler b) s1 s2 := by
  have := euler_takes b 0 1 1 (1/2) (3/2)
  unfold s1 s2
  norm_num at this ⊢
  exact this

end Nbkode.Demo
