import Verif.Props.Options
import Verif.Props.Equilibria
import Verif.Spec.Construct
import Verif.Proofs.DenseInit

/-!
# Concrete variable-step solvers for the non-vacuity examples

RungeKutta23 on `y' = t` and DOP853 on a right-hand side which is `1` at `t = 1/4` and `0` elsewhere, from `(0, 0)` with
`first_step = 1`, in exact real arithmetic; both take one step to `t = 1`.
-/

set_option autoImplicit false

namespace Nbkode.Demo
open Py Spec Solver

noncomputable section

theorem coarse_sane : SaneOptions coarse := ⟨default_sane.minFactor_pos, default_sane.minFactor_le,
  default_sane.maxFactor_pos, default_sane.safety_le⟩

/-- `step()` when the step succeeds. -/
theorem clean_step {α : Type} [LinearOrder α] [Add α] [Sub α] [Mul α] [Div α] [Neg α] [Zero α] [One α] [NatCast α] [BEq α]
    {n k : Nat} {X : Type} {S : Solver α n k X} {bo : BisectOpts α} {argsort : List α → List Nat} {s0 s s' : St α n k X}
    (h : CleanSession S bo argsort s0 s) (hf : Fits S.tBound s) (ht : Takes S s s') : CleanSession S bo argsort s0 s' := by
  refine .call (.step none none) h ?_
  show (do let _ ← S.step none none : Py _ _).run s = _
  rw [run_bind, step_none_run, (pstep_true (S := S) (b := S.tBound)).mpr ⟨hf, ht⟩]
  rfl

/-- RungeKutta23 on `y' = t`. -/
def rk23 : Solver ℝ 1 0 (FsalAux ℝ 1 2 (RkItp ℝ 1 3)) := ⟨fsal realLib coarse RungeKutta23, timeRhs fun t => t, .inf⟩

/-- It takes a step from `(0, 0)` to `t = 1`. -/
theorem rk23_step : ∃ st, Takes rk23 (rk23Start (fun t => t) 1) st ∧ st.t = 1 ∧ st.cache.ts (Buffer.iPrev 0) = 0 := by
  refine ⟨_, (fsal_takes_iff realLib coarse RungeKutta23 RungeKutta23_conditions.explicit _ .inf _ _
      rfl).mpr ⟨[⟨1, 0⟩], ⟨1, 0⟩, _, rk23K (fun t => t) 0 1,
        .accept (rk23_stages _ _ _ _) ?_ (Or.inl rfl) (Or.inl ⟨rfl, rfl⟩), rfl, rfl⟩, ?_, rfl⟩
  · show rkNorm realLib coarse _ 1 (rk23K (fun t => t) 0 1) _ _ = _
    rw [rk23_norm coarse rfl rfl]; norm_num
  · refine (push_t _ _ _ _).trans ?_
    show (0 : ℝ) + 1 = 1
    norm_num

/-- `1` at `t = 1/4`, `0` elsewhere. -/
def pulse (t : ℝ) : ℝ := if t = 1 / 4 then 1 else 0

/-- DOP853 on `y' = pulse(t)`. -/
def dop : Solver ℝ 1 0 (FsalAux ℝ 1 11 (DopItp ℝ 1)) := ⟨dop853 realLib coarse DOP853, timeRhs pulse, .inf⟩

theorem timeRhs_total (g : ℝ → ℝ) : ∀ t y, ∃ f, timeRhs g t y = .ok f := fun _ _ => ⟨_, rfl⟩

theorem dop_init (sel : Rhs ℝ 1 → ℝ → Vec ℝ 1 → Vec ℝ 1 → Except Err ℝ) (gb : Buffer ℝ 1 0) (K : Fin 13 → Vec ℝ 1)
    (itp : DopItp ℝ 1) : ∃ st, dopInit (DOP853 : DopCoef ℝ).toDopDense coarse sel gb K itp (timeRhs pulse) 0 (fun _ => 0)
      none (some 1) = .ok st ∧ st.h = 1 ∧ st.t = 0 ∧ st.y = (fun _ => 0) ∧ st.f = fun _ => 0 := by
  have h1 : variableInit coarse sel gb (⟨K, itp⟩ : FsalAux ℝ 1 11 (DopItp ℝ 1)) (timeRhs pulse) 0 (fun _ => 0) none
      (some 1) = .ok ⟨Buffer.init gb 0 (fun _ => 0) (fun _ => pulse 0), 1, ⟨K, itp⟩⟩ := by
    unfold variableInit solverInit
    simp only [timeRhs, pureRhs, bind, Except.bind, pure, Except.pure]
    have ha : ¬ (coarse.atol < 0) := by simp [coarse]
    have fin : ∀ c : Bool, c = true → ∀ e v : Except Err (St ℝ 1 0 (FsalAux ℝ 1 11 (DopItp ℝ 1))),
        (if (!c) = true then e else v) = v := by
      intro c hc e v; rw [hc]; rfl
    rw [fin _ (by rfl), if_neg ha]
  unfold dopInit
  rw [h1]
  simp only [bind, Except.bind, pure, Except.pure]
  rcases dopUpdate_run (DOP853 : DopCoef ℝ).toDopDense (timeRhs pulse)
    ⟨Buffer.init gb 0 (fun _ => 0) (fun _ => pulse 0), 1, ⟨K, itp⟩⟩ with ⟨Kx, -, hu⟩ | ⟨hno, -⟩
  · rw [hu]
    refine ⟨_, rfl, rfl, init_ts _ _ _ _ _, init_ys _ _ _ _ _, (init_fs _ _ _ _ _).trans ?_⟩
    funext i
    simp [pulse]
  · exact absurd (dopStages_exist _ _ (timeRhs_total _) _ _ _ _) hno

/-- The stages of a step from `(0, 0)` to `t = 1`: only the stage at `t = 1/4` is not zero. -/
def dopK : Fin 13 → Vec ℝ 1 := fun i _ => if i = 6 then 1 else 0

theorem dopK_stages (y : Vec ℝ 1) :
    RKStages (withLast (DOP853 : DopCoef ℝ).toTableau) (timeRhs pulse) 0 1 y dopK := by
  intro i
  simp only [timeRhs, pureRhs, Except.ok.injEq]
  funext _
  simp only [zero_add, mul_one, pulse, dopK]
  fin_cases i <;> simp [withLast, DOP853, dopC, q] <;> norm_num

theorem dopK_norm (yN y : Vec ℝ 1) : ∃ en, dopNorm realLib coarse (DOP853 : DopCoef ℝ).E3 (DOP853 : DopCoef ℝ).E5 1 dopK
    yN y = .ok en ∧ 0 < en ∧ en < 1 := by
  have hsum : ∀ (E : Fin 13 → ℝ) (d : Fin 1), ∑ j, E j * dopK j d = E 6 := by
    intro E d; simp [dopK]
  have hrms : ∀ e : ℝ, rmsError realLib coarse y yN (fun _ => 1 * e) = |e| := by
    intro e
    simp [rmsError, realLib, coarse, Real.sqrt_sq_eq_abs]
  have h5 : |(DOP853 : DopCoef ℝ).E5 6| = 4957589496572501915214079952 / 10000000000000000000000000000 := by
    simp [DOP853, dopE5, q, abs_of_pos]
  have hroot : ∀ x : ℝ, 1 ≤ realLib.sqrt (1 + x ^ 2) := fun x => by
    have : realLib.sqrt (1 + x ^ 2) = Real.sqrt (1 + x ^ 2) := rfl
    rw [this, Real.one_le_sqrt]
    nlinarith [sq_nonneg x]
  unfold dopNorm
  simp only [hsum, hrms, h5]
  generalize |(DOP853 : DopCoef ℝ).E3 6| = e3
  have := hroot (e3 / (10 * (4957589496572501915214079952 / 10000000000000000000000000000)))
  rw [if_neg (by
    rintro (h | h)
    · norm_num at h
    · rw [h] at this; norm_num at this)]
  refine ⟨_, rfl, by positivity, ?_⟩
  rw [div_lt_one (by linarith)]
  refine lt_of_lt_of_le ?_ this
  norm_num

theorem dop_step (st : St ℝ 1 0 (FsalAux ℝ 1 11 (DopItp ℝ 1))) (hh : st.h = 1) (ht : st.t = 0)
    (hf : st.f = fun _ => 0) : ∃ st', Takes dop st st' ∧ st'.t = 1 ∧ st'.cache.ts (Buffer.iPrev 0) = 0 := by
  obtain ⟨en, h1, h2, h3⟩ := dopK_norm (proposal (DOP853 : DopCoef ℝ).toTableau 1 st.y dopK) st.y
  have hr : timeRhs pulse st.t st.y = .ok st.f := by rw [hf, ht]; simp [timeRhs, pureRhs, pulse]
  refine ⟨_, (dop853_takes_iff realLib coarse DOP853 DOP853_explicit _ .inf _ _
      hr).mpr ⟨[⟨st.h, en⟩], ⟨st.h, en⟩, _, dopK,
        .accept ?_ ?_ (Or.inr h3) (Or.inr ⟨h2.ne', (realLib_powLaw.pos _ _ h2).ne', rfl⟩), rfl, rfl⟩, ?_, ht⟩
  · rw [hh, ht]; exact dopK_stages _
  · rw [hh]; exact h1
  · refine (push_t _ _ _ _).trans ?_
    rw [hh, ht, zero_add]

/-! ### Cases for C27, C36, C37, C38, C39 -/

/-- RungeKutta23 on `y' = 9000` at `t = 3/4`, `0` elsewhere: the first attempt, of size 1, is rejected with estimate 1000; the
second, of size `1/5`, is accepted. -/
theorem spike_trail : Trail realLib coarse (RungeKutta23 : FsalCoef ℝ 2 3).errorExponent (RungeKutta23 : FsalCoef ℝ 2 3).toTableau
    (rkNorm realLib coarse (RungeKutta23 : FsalCoef ℝ 2 3).E) (timeRhs (spike 9000)) 0 (fun _ => 0) 1
    [⟨1, 1000⟩, ⟨1 / 5, 0⟩] (1 / 5 * 10) (rk23K (spike 9000) 0 (1 / 5)) := by
  have hfac : StepFactor realLib coarse (RungeKutta23 : FsalCoef ℝ 2 3).errorExponent 1000 (1 / 5) := by
    right
    have hp : realLib.pow (1000 : ℝ) (RungeKutta23 : FsalCoef ℝ 2 3).errorExponent = 10 := by
      show (1000 : ℝ) ^ ((1 : ℕ) / (3 : ℕ) : ℝ) = 10
      rw [show (1000 : ℝ) = 10 ^ (3 : ℝ) by norm_num, ← Real.rpow_mul (by norm_num)]
      norm_num
    refine ⟨by norm_num, by rw [hp]; norm_num, ?_⟩
    rw [hp]
    simp only [coarse, VarOptions.default]
    norm_num
  refine .reject (rk23_stages (spike 9000) 0 1 _) ?_ ⟨by norm_num, by norm_num⟩ hfac ?_
  · show rkNorm realLib coarse _ 1 (rk23K (spike 9000) 0 1) _ _ = _
    rw [rk23_norm coarse rfl rfl]
    simp [spike]
    norm_num
  · have e : (1 : ℝ) * (1 / 5) = 1 / 5 := by norm_num
    rw [e]
    refine .accept (rk23_stages (spike 9000) 0 (1 / 5) _) ?_ (Or.inl rfl) (Or.inl ⟨rfl, by simp [coarse, VarOptions.default]⟩)
    show rkNorm realLib coarse _ (1 / 5) (rk23K (spike 9000) 0 (1 / 5)) _ _ = _
    rw [rk23_norm coarse rfl rfl]
    simp [spike]
    norm_num

/-- The solver, and the state after that step. -/
def spiky (b : Bound ℝ) : Solver ℝ 1 0 (FsalAux ℝ 1 2 (RkItp ℝ 1 3)) :=
  ⟨fsal realLib coarse RungeKutta23, timeRhs (spike 9000), b⟩

theorem spiky_step (b : Bound ℝ) : ∃ st, Takes (spiky b) (rk23Start (spike 9000) 1) st ∧ st.t = 1 / 5 ∧ st.h = 2 :=
  ⟨_, (fsal_takes_iff realLib coarse RungeKutta23 RungeKutta23_conditions.explicit _ b _ _ rfl).mpr
    ⟨_, _, _, _, spike_trail, rfl, rfl⟩, (push_t _ _ _ _).trans (zero_add _), by norm_num⟩

-- C27, C36: the accepted step is a Runge-Kutta step with an estimate below 1.
example (b : Bound ℝ) : ∃ st, Takes (spiky b) (rk23Start (spike 9000) 1) st ∧
    (∃ q K f', 0 < q ∧ q ≤ 1 ∧
      RKStages (RungeKutta23 : FsalCoef ℝ 2 3).toTableau (timeRhs (spike 9000)) 0 (1 * q) (fun _ => 0) K ∧
      st.cache = (rk23Start (spike 9000) 1).cache.push (0 + 1 * q)
        (rkNew (RungeKutta23 : FsalCoef ℝ 2 3).toTableau (1 * q) (fun _ => 0) K) f') ∧
    ∃ h0 K, RKStages (withLast (RungeKutta23 : FsalCoef ℝ 2 3).toTableau) (timeRhs (spike 9000)) 0 h0 (fun _ => 0) K ∧
      st.t = 0 + h0 ∧ st.aux.K = K := by
  obtain ⟨st, h, -, -⟩ := spiky_step b
  obtain ⟨q, K, f', h1, h2, h3, -, h4, -⟩ := fsalBody_records realLib coarse realLib_powLaw coarse_sane _
    (by simp [RungeKutta23, Nbkode.q]) _ RungeKutta23_conditions.explicit _ _ _ _ rfl h
  obtain ⟨h0, K', h5, -, h6, -, -, h7⟩ := C36_accepted realLib coarse RungeKutta23 RungeKutta23_conditions.explicit _ b _ _ rfl h
  exact ⟨st, h, ⟨q, K, f', h1, h2, h3, h4⟩, h0, K', h5, h6, h7⟩

-- C37: the sizes of the two attempts and of the next step.
example : List.IsChain (fun a b => ∃ q, coarse.minFactor ≤ q ∧ q ≤ coarse.maxFactor ∧ b = a * q) [1, 1 / 5, 1 / 5 * 10] ∧
    List.IsChain (fun a b : ℝ => b ≤ a) [1, 1 / 5] :=
  ⟨(C37_factors realLib coarse (by norm_num [coarse, VarOptions.default]) _ _ _ _ _ _ _ _ _ _ spike_trail).1,
    (C37_rejections_shrink realLib coarse realLib_powLaw coarse_sane _ (by simp [RungeKutta23, q]) _ _ _ _ _ _ _ one_pos _ _
      spike_trail).1⟩

-- C37: the step begun with size 1 moves the clock by 1/5 and leaves the size 2.
example (b : Bound ℝ) : ∃ st, Takes (spiky b) (rk23Start (spike 9000) 1) st ∧ st.t - (rk23Start (spike 9000) 1).t ≤ 1 ∧
    ∃ q, (1 / 5 : ℝ) ≤ q ∧ q ≤ 10 ∧ 2 = 1 / 5 * q := by
  obtain ⟨st, h, h1, h2⟩ := spiky_step b
  have e0 : (rk23Start (spike 9000) 1).t = 0 := rfl
  obtain ⟨-, h3, q, h4, h5, h6⟩ := C37_step realLib coarse realLib_powLaw coarse_sane (by norm_num [coarse, VarOptions.default])
    RungeKutta23 RungeKutta23_conditions.explicit (by simp [RungeKutta23, Nbkode.q]) _ b _ _ rfl one_pos h
  refine ⟨st, h, h3, q, ?_, ?_, ?_⟩
  · simpa [coarse, VarOptions.default] using h4
  · simpa [coarse, VarOptions.default] using h5
  · rw [h2, h1, e0, sub_zero] at h6; exact h6

-- C37: a session of that solver.
example (bo : BisectOpts ℝ) (argsort : List ℝ → List Nat) : ∃ st, Session (spiky .inf) bo argsort (rk23Start (spike 9000) 1) st ∧
    st.t = 1 / 5 ∧ 0 < st.h := by
  obtain ⟨st, h, h1, -⟩ := spiky_step .inf
  have hs : Session (spiky .inf) bo argsort (rk23Start (spike 9000) 1) st := by
    refine .call (.step none none) (.ok ()) (.start _) ?_
    show (do let _ ← (spiky .inf).step none none : Py _ _).run _ = _
    rw [run_bind, step_none_run, (pstep_true (S := spiky .inf) (b := (spiky .inf).tBound)).mpr ⟨trivial, h⟩]
    rfl
  exact ⟨st, hs, h1, C37_positive _ realLib coarse _ (.fsal _) coarse_sane.minFactor_pos coarse_sane.maxFactor_pos bo argsort _ _
    one_pos hs⟩

-- C39: `first_step = 1` is the first size tried, although it is rejected; C38: `min_step = 1`, `max_step = 1` change nothing.
example (sel : Rhs ℝ 1 → ℝ → Vec ℝ 1 → Vec ℝ 1 → Except Err ℝ) (g : Buffer ℝ 1 0) : ∃ st,
    (∃ en l last h' K', Trail realLib coarse (RungeKutta23 : FsalCoef ℝ 2 3).errorExponent
      (RungeKutta23 : FsalCoef ℝ 2 3).toTableau (rkNorm realLib coarse (RungeKutta23 : FsalCoef ℝ 2 3).E)
      (timeRhs (spike 9000)) 0 (fun _ => 0) 1 (⟨1, en⟩ :: l) h' K' ∧ (⟨1, en⟩ :: l).getLast? = some last ∧
      st.t = 0 + last.size) ∧
    Takes ⟨fsal realLib { coarse with minStep := 1, maxStep := .fin 1 } RungeKutta23, timeRhs (spike 9000), .inf⟩
      (rk23Start (spike 9000) 1) st := by
  obtain ⟨st, h, -, -⟩ := spiky_step .inf
  exact ⟨st, (C39_first_step realLib coarse RungeKutta23 RungeKutta23_conditions.explicit sel g _ _ _ 0 _ none 1 _ st .inf
      (rk23Start_init coarse (Or.inl rfl) rfl sel g (spike 9000) 1) h).2,
    (C38_no_effect realLib coarse 1 (.fin 1) RungeKutta23 RungeKutta23_conditions.explicit _ .inf _ st rfl).mpr h⟩

-- C38: `max_step = 0` is refused.
example (sel : Rhs ℝ 1 → ℝ → Vec ℝ 1 → Vec ℝ 1 → Except Err ℝ) (g : Buffer ℝ 1 0) :
    variableInit { coarse with maxStep := .fin 0 } sel g () (timeRhs fun t => t) 0 (fun _ => 0) none none =
      .error .valueError :=
  C38_max_step_partial _ 0 rfl (le_refl _) sel g () _ _ _ _ rfl _ _

-- C39: fixed-step classes use `h`.
example (g : Buffer ℝ 1 0) (K : ErkAux ℝ 1 3) : ∃ st : St ℝ 1 0 (ErkAux ℝ 1 3),
    erkInit g K (timeRhs fun t => t) 0 (fun _ => 0) (some (1 / 8)) = .ok st ∧ st.h = 1 / 8 :=
  ⟨_, rfl, C39_erk g K (timeRhs fun t => t) 0 (fun _ => 0) (1 / 8) _ rfl⟩

-- C36 for DOP853.
example (sel : Rhs ℝ 1 → ℝ → Vec ℝ 1 → Vec ℝ 1 → Except Err ℝ) (g : Buffer ℝ 1 0) (K : Fin 13 → Vec ℝ 1)
    (itp : DopItp ℝ 1) : ∃ s0 st, Takes dop s0 st ∧ ∃ h0 K, RKStages (withLast (DOP853 : DopCoef ℝ).toTableau) (timeRhs pulse)
      s0.t h0 s0.y K ∧ st.t = s0.t + h0 := by
  obtain ⟨s0, -, hh, ht, -, hf⟩ := dop_init sel g K itp
  obtain ⟨st, h1, -, -⟩ := dop_step s0 hh ht hf
  obtain ⟨h0, K, h2, -, h3, -⟩ := C36_accepted_dop853 realLib coarse DOP853 DOP853_explicit _ .inf _ _
    (by rw [hf, ht]; simp [timeRhs, pureRhs, pulse]) h1
  exact ⟨s0, st, h1, h0, K, h2, h3⟩

end

end Nbkode.Demo
