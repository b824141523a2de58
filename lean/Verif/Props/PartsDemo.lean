import Verif.Props.Parts

/-!
# C100: concrete cases, and why variable-step methods are left out of the first part
-/

set_option autoImplicit false
set_option linter.unusedSectionVars false

namespace Nbkode
open Py Spec Solver

namespace Demo

/-- Prey and predator, and the number of prey eaten so far: `x' = x - x y`, `y' = x y - y`, `w' = x y`. -/
def eaten : Rhs ℚ 3 := pureRhs fun _ z => ![z 0 - z 0 * z 1, z 0 * z 1 - z 1, z 0 * z 1]

/-- Prey and predator. -/
def prey : Rhs ℚ 2 := pureRhs fun _ z => ![z 0 - z 0 * z 1, z 0 * z 1 - z 1]

theorem prey_own : OnItsOwn ![0, 1] eaten prey := by
  intro t z
  show Except.ok _ = Except.ok _
  congr 1
  funext i
  fin_cases i <;> rfl

/-- An event at `x = 1` looks at the first component only. -/
theorem prey_calls : List.Forall₂ (pick ℚ (![0, 1] : Fin 2 → Fin 3)).SameCall
    [.step (some 3) none, .runEvents [1, 2] (some [⟨fun _ y => y 0 - 1, some true, some 1⟩]), .run [5/2, 3]]
    [.step (some 3) none, .runEvents [1, 2] (some [⟨fun _ y => y 0 - 1, some true, some 1⟩]), .run [5/2, 3]] := by
  have e1 := Change.SameCall.runEvents (C := pick ℚ (![0, 1] : Fin 2 → Fin 3)) [1, 2] [⟨fun _ y => y 0 - 1, some true, some 1⟩]
    [⟨fun _ y => y 0 - 1, some true, some 1⟩] (.cons ⟨fun t y => by rw [pick_time, pick_state]; rfl, rfl, rfl⟩ .nil)
  have e2 := Change.SameCall.run (C := pick ℚ (![0, 1] : Fin 2 → Fin 3)) [5/2, 3]
  simp only [List.map, pick_time] at e1 e2
  exact .cons (.step _ _) (.cons e1 (.cons e2 .nil))

/-- C100: counting the prey that were eaten changes nothing for prey and predator, with RungeKutta4 and AdamsBashforth3. -/
example (bo : BisectOpts ℚ) (argsort : List ℚ → List Nat) (hA : ∀ l, IsArgsort l (argsort l)) (ha : ComparisonSort argsort) :=
  And.intro (C100_erk ![0, 1] eaten prey prey_own (.fin 10) bo argsort hA ha _ _ prey_calls 0 ![2, 1, 0] (1/10) RungeKutta4 ⟨0, 0, 0⟩ ⟨0, 0, 0⟩ 0 0)
    (C100_explicit_multistep ![0, 1] eaten prey prey_own (.fin 10) bo argsort hA ha _ _ prey_calls 0 ![2, 1, 0] (1/10) AdamsBashforth3
      (by norm_num [AdamsBashforth3, Fin.sum_univ_three, adamsA]; decide +kernel) RungeKutta4 ⟨0, 0, 0⟩ ⟨0, 0, 0⟩ ⟨0, 0, 0⟩ ⟨0, 0, 0⟩ 0 0)

/-- Two copies of the logistic equation. -/
theorem logistic_twice : OnItsOwn (fun _ : Fin 2 => (0 : Fin 1)) logistic (pureRhs fun _ y i => y i * (1 - y i)) := by
  intro t z
  rfl

/-- C100: two copies of the logistic equation with RungeKutta45 and DOP853. -/
example {lib : Lib ℚ} (bo : BisectOpts ℚ) (argsort : List ℚ → List Nat) (hA : ∀ l, IsArgsort l (argsort l)) (ha : ComparisonSort argsort)
    (sel : Rhs ℚ 1 → ℚ → Vec ℚ 1 → Vec ℚ 1 → Except Err ℚ) (sel' : Rhs ℚ 2 → ℚ → Vec ℚ 2 → Vec ℚ 2 → Except Err ℚ) :=
  have hι : EachPicked (fun _ : Fin 2 => (0 : Fin 1)) 2 := by unfold EachPicked; decide
  have ho : SaneOptions (VarOptions.default : VarOptions ℚ) := by
    constructor <;> norm_num [VarOptions.default]
  And.intro (C100_fsal_copies (fun _ : Fin 2 => (0 : Fin 1)) logistic _ logistic_twice (.fin 10) bo argsort hA ha [.step (some 3) none]
      [.step (some 3) none] (.cons (.step _ _) .nil) 0 (fun _ => 1/4) (1/10) two_ne_zero hι lib .default ho RungeKutta45 sel sel' ⟨0, 0, 0⟩ ⟨0, 0, 0⟩
      0 0 ⟨0, 0⟩ ⟨0, 0⟩ (by norm_num))
    (C100_dop853_copies (fun _ : Fin 2 => (0 : Fin 1)) logistic _ logistic_twice (.fin 10) bo argsort hA ha [.step (some 3) none]
      [.step (some 3) none] (.cons (.step _ _) .nil) 0 (fun _ => 1/4) (1/10) two_ne_zero hι lib .default ho DOP853 sel sel' ⟨0, 0, 0⟩ ⟨0, 0, 0⟩
      0 0 ⟨0, 0, 0⟩ ⟨0, 0, 0⟩ (by norm_num))

/-- `(y, u)' = (cubic(t), 1)`: two uncoupled equations. -/
noncomputable def uncoupled : Rhs ℝ 2 := pureRhs fun t _ => ![cubic t, 1]

theorem uncoupled_own : OnItsOwn (fun _ : Fin 1 => (0 : Fin 2)) uncoupled (timeRhs cubic) := by
  intro t z
  rfl

theorem uncoupled_stages : RKStages (withLast (RungeKutta23 : FsalCoef ℝ 2 3).toTableau) uncoupled 0 1 (fun _ => 0) clockK := by
  intro i
  show Except.ok _ = Except.ok _
  congr 1
  fin_cases i <;> funext j <;> fin_cases j <;>
    simp [withLast, RungeKutta23, q, clockK, cubic]

theorem uncoupled_init (sel : Rhs ℝ 2 → ℝ → Vec ℝ 2 → Vec ℝ 2 → Except Err ℝ) (gb : Buffer ℝ 2 0) :
    fsalInit (RungeKutta23 : FsalCoef ℝ 2 3).P coarse sel gb (fun _ _ => 0) ⟨fun _ _ => 0, 0⟩ uncoupled 0 (fun _ => 0) none (some 1) =
      .ok clockStart := by
  have h := clockStart_init sel gb
  have e0 : addClock (fun _ : Fin 1 => (0 : ℝ)) 0 = fun _ => 0 := by
    funext i; fin_cases i <;> rfl
  rw [e0] at h
  have e1 : autonomous (timeRhs cubic) 0 (fun _ => 0) = uncoupled 0 fun _ => 0 := autonomous_time _ _ _
  unfold fsalInit variableInit solverInit at h ⊢
  rw [← e1]
  exact h

end Demo
open Demo

/-- The variable-step methods are left out of the first part of C100 for a reason: the error norm is a mean over all components. With `atol = 1`,
`rtol = 0` and `first_step = 1`, RungeKutta23 does not accept the first step on `y' = 1152/65 t³` from `(0, 0)`; with the uncoupled
equation `u' = 1` beside it, it does. -/
theorem C100_differs_RungeKutta23 (sel : Rhs ℝ 1 → ℝ → Vec ℝ 1 → Vec ℝ 1 → Except Err ℝ) (gb : Buffer ℝ 1 0)
    (sel' : Rhs ℝ 2 → ℝ → Vec ℝ 2 → Vec ℝ 2 → Except Err ℝ) (gb' : Buffer ℝ 2 0) :
    OnItsOwn (fun _ : Fin 1 => (0 : Fin 2)) uncoupled (timeRhs cubic) ∧
    fsalInit (RungeKutta23 : FsalCoef ℝ 2 3).P coarse sel gb (fun _ _ => 0) ⟨fun _ _ => 0, 0⟩ (timeRhs cubic) 0
      (fun _ => 0) none (some 1) = .ok (rk23Start cubic 1) ∧
    fsalInit (RungeKutta23 : FsalCoef ℝ 2 3).P coarse sel' gb' (fun _ _ => 0) ⟨fun _ _ => 0, 0⟩ uncoupled 0
      (fun _ => 0) none (some 1) = .ok clockStart ∧
    (∀ st, Takes ⟨fsal realLib coarse RungeKutta23, timeRhs cubic, .inf⟩ (rk23Start cubic 1) st → st.t ≠ 1) ∧
    ∃ st, Takes ⟨fsal realLib coarse RungeKutta23, uncoupled, .inf⟩ clockStart st ∧ st.t = 1 := by
  obtain ⟨h1, -, h2, -⟩ := C98_differs_RungeKutta23 sel gb sel' gb'
  refine ⟨uncoupled_own, h1, uncoupled_init sel' gb', h2, ?_⟩
  have hn : rkNorm realLib coarse (RungeKutta23 : FsalCoef ℝ 2 3).E 1 clockK
      (proposal (RungeKutta23 : FsalCoef ℝ 2 3).toTableau 1 (fun _ => 0) clockK) (fun _ => 0) = .ok (Real.sqrt (18 / 25)) := by
    simp only [rkNorm, rmsError, Except.ok.injEq]
    show Real.sqrt _ = _
    congr 1
    simp [Fin.sum_univ_succ, clockK, RungeKutta23, fsalE, q, RungeKutta23B2, coarse, VarOptions.default, cubic]
    norm_num
  have hpos : 0 < Real.sqrt (18 / 25) := Real.sqrt_pos.2 (by norm_num)
  have hlt : Real.sqrt (18 / 25) < 1 := by
    rw [show (1 : ℝ) = Real.sqrt 1 by simp]
    exact Real.sqrt_lt_sqrt (by norm_num) (by norm_num)
  refine ⟨_, (fsal_takes_iff realLib coarse RungeKutta23 RungeKutta23_conditions.explicit _ .inf clockStart _ ?_).mpr
    ⟨[⟨1, _⟩], ⟨1, _⟩, _, clockK, .accept uncoupled_stages hn (Or.inr hlt) (Or.inr ⟨hpos.ne', ?_, rfl⟩), rfl, rfl⟩, ?_⟩
  · show Except.ok ![cubic 0, 1] = Except.ok ![0, 1]
    simp [cubic]
  · exact (Real.rpow_pos_of_pos hpos _).ne'
  · show (Buffer.push _ _ _ _).t = _
    rw [push_t]
    exact zero_add 1

end Nbkode
