import Verif.Props.Clock
import Verif.Props.Options
import Verif.Props.Change

/-!
# C98: a concrete case, and why variable-step methods are left out
-/

set_option autoImplicit false
set_option linter.unusedSectionVars false

namespace Nbkode
open Py Spec Solver

namespace Demo

/-- `y' = t - y`. -/
def driven : Rhs ℚ 1 := pureRhs fun t y i => t - y i

/-- An event at `y = 1/2` that looks at the first component only. -/
def half (n : Nat) : EventSpec ℚ (n + 1) := ⟨fun _ y => y 0 - 1/2, true, some 1⟩

theorem driven_calls : List.Forall₂ (dropClock ℚ 1).SameCall
    [.step (some 3) none, .runEvents [1, 2] (some [half 1]), .run [5/2, 3], .interpolate 3]
    [.step (some 3) none, .runEvents [1, 2] (some [half 0]), .run [5/2, 3], .interpolate 3] := by
  have e1 := Change.SameCall.runEvents (C := dropClock ℚ 1) [1, 2] [half 1] [half 0] (.cons ⟨fun t y => by
    rw [drop_time, drop_state]; rfl, rfl, rfl⟩ .nil)
  have e2 := Change.SameCall.run (C := dropClock ℚ 1) [5/2, 3]
  have e3 := Change.SameCall.interpolate (C := dropClock ℚ 1) 3
  simp only [List.map, drop_time] at e1 e2 e3
  exact .cons (.step _ _) (.cons e1 (.cons e2 (.cons e3 .nil)))

/-- The autonomous form of `y' = t - y` is `(y, u)' = (u - y, 1)`. -/
theorem driven_autonomous (t : ℚ) (z : Vec ℚ 2) : autonomous driven t z = .ok ![z 1 - z 0, 1] := by
  show Except.ok _ = _
  congr 1
  funext i
  fin_cases i <;> rfl

/-- C98: `y' = t - y` from `y(0) = 1` with Heun3, and with AdamsBashforth3 started with RungeKutta4. -/
example (bo : BisectOpts ℚ) (argsort : List ℚ → List Nat) (hA : ∀ l, IsArgsort l (argsort l)) (ha : ComparisonSort argsort) :=
  And.intro (C98_erk driven (.fin 10) bo argsort hA ha _ _ driven_calls 0 (fun _ => 1) (1/10) Heun3 C98_registered.2.2.1 ⟨0, 0, 0⟩ ⟨0, 0, 0⟩ 0 0) <|
  And.intro (C98_adams_bashforth driven (.fin 10) bo argsort hA ha _ _ driven_calls 0 (fun _ => 1) (1/10) AdamsBashforth3
    C98_registered.2.2.2.2.2.2.2.1.1 C98_registered.2.2.2.2.2.2.2.1.2 ⟨0, 0, 0⟩ ⟨0, 0, 0⟩) <|
  C98_adams_bashforth_started driven (.fin 10) bo argsort hA ha _ _ driven_calls 0 (fun _ => 1) (1/10) AdamsBashforth3
    C98_registered.2.2.2.2.2.2.2.1.1 C98_registered.2.2.2.2.2.2.2.1.2 RungeKutta4 C98_registered.2.2.2.1 ⟨0, 0, 0⟩ ⟨0, 0, 0⟩ ⟨0, 0, 0⟩ ⟨0, 0, 0⟩ 0 0

/-- `f(t) = 1152/65 t³`. -/
noncomputable def cubic (t : ℝ) : ℝ := 1152 / 65 * t ^ 3

/-- A fresh RungeKutta23 at `(0, (0, 0))` with `first_step = 1` on the autonomous form of `y' = cubic(t)`. -/
def clockStart : St ℝ 2 0 (FsalAux ℝ 2 2 (RkItp ℝ 2 3)) :=
  ⟨⟨fun _ => 0, fun _ _ => 0, fun _ => ![0, 1]⟩, 1, ⟨fun _ _ => 0, ⟨fun _ _ => 0, 0⟩⟩⟩

noncomputable def clockK : Fin 4 → Vec ℝ 2 := ![![0, 1], ![cubic (1/2), 1], ![cubic (3/4), 1], ![cubic 1, 1]]

theorem autonomous_time (g : ℝ → ℝ) (t : ℝ) (z : Vec ℝ 2) : autonomous (timeRhs g) t z = .ok ![g (z 1), 1] := by
  show Except.ok _ = _
  congr 1
  funext i
  fin_cases i <;> rfl

theorem clock_stages : RKStages (withLast (RungeKutta23 : FsalCoef ℝ 2 3).toTableau) (autonomous (timeRhs cubic)) 0 1 (fun _ => 0) clockK := by
  intro i
  rw [autonomous_time]
  congr 1
  fin_cases i <;> funext j <;> fin_cases j <;>
    simp [withLast, RungeKutta23, q, clockK, cubic, Fin.sum_univ_succ] <;> norm_num

theorem clockStart_init (sel : Rhs ℝ 2 → ℝ → Vec ℝ 2 → Vec ℝ 2 → Except Err ℝ) (gb : Buffer ℝ 2 0) :
    fsalInit (RungeKutta23 : FsalCoef ℝ 2 3).P coarse sel gb (fun _ _ => 0) ⟨fun _ _ => 0, 0⟩ (autonomous (timeRhs cubic)) 0
      (addClock (fun _ => 0) 0) none (some 1) = .ok clockStart := by
  have e0 : addClock (fun _ : Fin 1 => (0 : ℝ)) 0 = fun _ => 0 := by
    funext i; fin_cases i <;> rfl
  have e1 : autonomous (timeRhs cubic) 0 (fun _ => 0) = .ok ![0, 1] := by
    rw [autonomous_time]; simp [cubic]
  have hb : Buffer.init gb (0 : ℝ) (fun _ => 0) ![0, 1] = ⟨fun _ => 0, fun _ _ => 0, fun _ => ![0, 1]⟩ := by
    have e1 := init_ts gb (0 : ℝ) (fun _ => 0) ![0, 1]
    have e2 := init_ys gb (0 : ℝ) (fun _ => 0) ![0, 1]
    have e3 := init_fs gb (0 : ℝ) (fun _ => 0) ![0, 1]
    generalize Buffer.init gb (0 : ℝ) (fun _ => 0) ![0, 1] = B at *
    obtain ⟨a, b, c⟩ := B
    simp only at e1 e2 e3
    congr 1 <;> funext i
    · exact e1 i
    · exact e2 i
    · exact e3 i
  rw [e0]
  unfold fsalInit variableInit solverInit
  simp only [e1, bind, Except.bind, pure, Except.pure, hb]
  have ha' : ¬ (coarse : VarOptions ℝ).atol < 0 := by norm_num [coarse]
  have fin : ∀ c : Bool, c = true → ∀ e v : Except Err (St ℝ 2 0 (FsalAux ℝ 2 2 (RkItp ℝ 2 3))),
      (if (!c) = true then e else v) = v := by
    intro c hc e v; rw [hc]; rfl
  rw [fin _ (by rw [show (coarse : VarOptions ℝ).maxStep = .inf from rfl]), if_neg ha']
  simp only [rkUpdate, run_modify]
  unfold clockStart
  simp only [Except.ok.injEq]
  congr 2
  simp only [RkItp.mk.injEq]
  refine ⟨?_, rfl⟩
  funext j d
  rw [vdot_apply]
  simp

end Demo
open Demo

/-- The variable-step methods are left out of C98 for a reason: the error norm is a mean over the components, and the clock, which has no error,
brings it down. With `atol = 1`, `rtol = 0` and `first_step = 1`, on `y' = 1152/65 t³` from `(0, 0)`, RungeKutta23 does not accept the first
step; in autonomous form it does. -/
theorem C98_differs_RungeKutta23 (sel : Rhs ℝ 1 → ℝ → Vec ℝ 1 → Vec ℝ 1 → Except Err ℝ) (gb : Buffer ℝ 1 0)
    (sel' : Rhs ℝ 2 → ℝ → Vec ℝ 2 → Vec ℝ 2 → Except Err ℝ) (gb' : Buffer ℝ 2 0) :
    fsalInit (RungeKutta23 : FsalCoef ℝ 2 3).P coarse sel gb (fun _ _ => 0) ⟨fun _ _ => 0, 0⟩ (timeRhs cubic) 0
      (fun _ => 0) none (some 1) = .ok (rk23Start cubic 1) ∧
    fsalInit (RungeKutta23 : FsalCoef ℝ 2 3).P coarse sel' gb' (fun _ _ => 0) ⟨fun _ _ => 0, 0⟩ (autonomous (timeRhs cubic)) 0
      (addClock (fun _ => 0) 0) none (some 1) = .ok clockStart ∧
    (∀ st, Takes ⟨fsal realLib coarse RungeKutta23, timeRhs cubic, .inf⟩ (rk23Start cubic 1) st → st.t ≠ 1) ∧
    ∃ st, Takes ⟨fsal realLib coarse RungeKutta23, autonomous (timeRhs cubic), .inf⟩ clockStart st ∧ st.t = 1 := by
  refine ⟨rk23Start_init coarse (Or.inl rfl) rfl sel gb cubic 1, clockStart_init sel' gb', ?_, ?_⟩
  · intro st h ht
    obtain ⟨h0, K, hK, hn, h1, -⟩ := C36_accepted realLib coarse RungeKutta23 RungeKutta23_conditions.explicit _ .inf _ st rfl h
    have : h0 = 1 := by
      rw [ht] at h1
      have : (1 : ℝ) = 0 + h0 := h1
      linarith
    subst this
    have e : K = rk23K cubic 0 1 := by
      funext i
      exact Except.ok.inj ((hK i).symm.trans (rk23_stages cubic 0 1 (fun _ => 0) i))
    have e2 := rk23_norm coarse rfl rfl cubic 0 1 st.y (rk23Start cubic 1).y
    simp only [rkNorm, Except.ok.injEq] at e2
    rw [e, e2] at hn
    have e3 : |1 * (-5 / 72 * cubic 0 + 1 / 12 * cubic (0 + 1 / 2) + 1 / 9 * cubic (0 + 3 / 4 * 1) - 1 / 8 * cubic (0 + 1))| = (6 / 5 : ℝ) := by
      rw [show (1 * (-5 / 72 * cubic 0 + 1 / 12 * cubic (0 + 1 / 2) + 1 / 9 * cubic (0 + 3 / 4 * 1) - 1 / 8 * cubic (0 + 1)) : ℝ) = -(6 / 5) by
        norm_num [cubic], abs_neg, abs_of_pos (by norm_num)]
    rw [e3] at hn
    norm_num at hn
  · have hn : rkNorm realLib coarse (RungeKutta23 : FsalCoef ℝ 2 3).E 1 clockK
        (proposal (RungeKutta23 : FsalCoef ℝ 2 3).toTableau 1 (fun _ => 0) clockK) (fun _ => 0) = .ok (Real.sqrt (18 / 25)) := by
      simp only [rkNorm, rmsError, Except.ok.injEq]
      show Real.sqrt _ = _
      congr 1
      simp [Fin.sum_univ_succ, clockK, RungeKutta23, fsalE, q, RungeKutta23B2, coarse, VarOptions.default, cubic]
      norm_num
    have hpos : 0 < Real.sqrt (18 / 25) := Real.sqrt_pos.2 (by norm_num)
    have hlt : Real.sqrt (18 / 25) < 1 := by
      rw [show (1 : ℝ) = Real.sqrt 1 by simp]
      exact Real.sqrt_lt_sqrt (by norm_num) (by norm_num)
    refine ⟨_, (fsal_takes_iff realLib coarse RungeKutta23 RungeKutta23_conditions.explicit _ .inf clockStart _ ?_).mpr
      ⟨[⟨1, _⟩], ⟨1, _⟩, _, clockK, .accept clock_stages hn (Or.inr hlt) (Or.inr ⟨hpos.ne', ?_, rfl⟩), rfl, rfl⟩, ?_⟩
    · rw [autonomous_time]
      congr 1
      funext j
      fin_cases j
      · show cubic 0 = 0
        simp [cubic]
      · rfl
    · exact (Real.rpow_pos_of_pos hpos _).ne'
    · show (Buffer.push _ _ _ _).t = _
      rw [push_t]
      exact zero_add 1

end Nbkode
