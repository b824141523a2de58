import Verif.Proofs.Tolerance
import Mathlib.MeasureTheory.Integral.IntervalIntegral.FundThmCalculus
import Mathlib.Analysis.SpecialFunctions.Integrals.Basic

/-!
# The error follows the tolerance: C89
-/

set_option autoImplicit false
set_option linter.unusedSectionVars false

namespace Nbkode
open Py Spec Solver

variable {n s d : ℕ}

/-- C89 (partial) RungeKutta23: the error is proportional to the tolerances, wherever the estimate is sharp. Missing: without that
condition the property is false (`C89_refuted`). -/
theorem C89_RungeKutta23_partial {lib : Lib ℝ} (hl : RealFunctions lib) (b : Bound ℝ) :
    ErrorFollowsTolerance (fun o (rhs : Rhs ℝ n) => ⟨fsal lib o RungeKutta23, rhs, b⟩)
      (SharpEstimate (RungeKutta23 : FsalCoef ℝ 2 3).toTableau (RungeKutta23 : FsalCoef ℝ 2 3).E 3) 3 :=
  follows_tolerance (q := 2) hl RungeKutta23_conditions.explicit RungeKutta23_rows (by norm_num) RungeKutta23_tree
    (by simp [RungeKutta23, q]; norm_num) b

/-- C89 (partial) RungeKutta45: the error is proportional to the tolerances, wherever the estimate is sharp. Missing: without that
condition the property is false (`C89_refuted`). -/
theorem C89_RungeKutta45_partial {lib : Lib ℝ} (hl : RealFunctions lib) (b : Bound ℝ) :
    ErrorFollowsTolerance (fun o (rhs : Rhs ℝ n) => ⟨fsal lib o RungeKutta45, rhs, b⟩)
      (SharpEstimate (RungeKutta45 : FsalCoef ℝ 5 4).toTableau (RungeKutta45 : FsalCoef ℝ 5 4).E 5) 5 :=
  follows_tolerance (q := 4) hl RungeKutta45_conditions.explicit RungeKutta45_rows (by norm_num) RungeKutta45_tree
    (by simp [RungeKutta45, q]; norm_num) b

/-- C89 (partial) RungeKutta23: what `run` returns is within a multiple of the tolerances of the solution, wherever the estimate is sharp.
Missing: without that condition the property is false (`C89_refuted`). -/
theorem C89_RungeKutta23_run_partial {lib : Lib ℝ} (hl : RealFunctions lib) (b : Bound ℝ) :
    RunFollowsTolerance (fun o (rhs : Rhs ℝ n) => ⟨fsal lib o RungeKutta23, rhs, b⟩) (fsalStarts RungeKutta23)
      (SharpEstimate (RungeKutta23 : FsalCoef ℝ 2 3).toTableau (RungeKutta23 : FsalCoef ℝ 2 3).E 3) 3 :=
  run_follows_tolerance (q := 2) hl RungeKutta23_conditions.explicit RungeKutta23_rows (rows_last RungeKutta23_rows (by norm_num) RungeKutta23_tree)
    RungeKutta23_ends RungeKutta23_tree (by norm_num) RungeKutta23_dense (by simp [RungeKutta23, q]; norm_num) b

/-- C89 (partial) RungeKutta45: what `run` returns is within a multiple of the tolerances of the solution, wherever the estimate is sharp.
Missing: without that condition the property is false (`C89_refuted`). -/
theorem C89_RungeKutta45_run_partial {lib : Lib ℝ} (hl : RealFunctions lib) (b : Bound ℝ) :
    RunFollowsTolerance (fun o (rhs : Rhs ℝ n) => ⟨fsal lib o RungeKutta45, rhs, b⟩) (fsalStarts RungeKutta45)
      (SharpEstimate (RungeKutta45 : FsalCoef ℝ 5 4).toTableau (RungeKutta45 : FsalCoef ℝ 5 4).E 5) 5 :=
  run_follows_tolerance (q := 4) hl RungeKutta45_conditions.explicit RungeKutta45_rows (rows_last RungeKutta45_rows (by norm_num) RungeKutta45_tree)
    RungeKutta45_ends RungeKutta45_tree (by norm_num) RungeKutta45_dense (by simp [RungeKutta45, q]; norm_num) b

/-! ### An estimate that sees nothing -/

/-- A right hand side which vanishes at finitely many times and is positive elsewhere, with its solution. -/
theorem invisible {m : ℕ} (c : Fin m → ℝ) (W : ℝ) : ∃ (g y : ℝ → ℝ), ContDiff ℝ ⊤ g ∧ (∀ j, g (c j) = 0) ∧ y 0 = 0 ∧
    (∀ t, HasDerivAt y (g t) t) ∧ W < y 1 := by
  set P : ℝ → ℝ := fun t => ∏ j, (t - c j) ^ 2 with hP
  have hPd : ContDiff ℝ ⊤ P := contDiff_prod fun j _ => (contDiff_id.sub contDiff_const).pow 2
  have hI : 0 < ∫ t in (0 : ℝ)..1, P t := by
    obtain ⟨x, hx, hxc⟩ := ((Set.Ioo_infinite (zero_lt_one' ℝ)).diff (Set.finite_range c)).nonempty
    refine intervalIntegral.integral_pos zero_lt_one hPd.continuous.continuousOn (fun t _ => Finset.prod_nonneg fun _ _ => sq_nonneg _)
      ⟨x, ⟨hx.1.le, hx.2.le⟩, Finset.prod_pos fun j _ => ?_⟩
    have : x - c j ≠ 0 := sub_ne_zero.mpr fun h => hxc ⟨j, h.symm⟩
    positivity
  set I := ∫ t in (0 : ℝ)..1, P t
  set M := (|W| + 1) / I
  have hg : Continuous fun t => M * P t := (hPd.continuous).const_mul M
  refine ⟨fun t => M * P t, fun t => ∫ x in (0 : ℝ)..t, M * P x, contDiff_const.mul hPd, fun j => ?_, by simp, fun t => ?_, ?_⟩
  · have : P (c j) = 0 := Finset.prod_eq_zero (Finset.mem_univ j) (by simp)
    simp [this]
  · exact intervalIntegral.integral_hasDerivAt_right (hg.intervalIntegrable _ _) (hg.stronglyMeasurableAtFilter _ _) hg.continuousAt
  · show W < ∫ x in (0 : ℝ)..1, M * P x
    rw [intervalIntegral.integral_const_mul, div_mul_cancel₀ _ hI.ne']
    exact (le_abs_self W).trans_lt (lt_add_one _)

theorem unseen {lib : Lib ℝ} (hl : RealFunctions lib) {c : FsalCoef ℝ s d} (hT : Explicit c.toTableau) (o : VarOptions ℝ) (b : Bound ℝ) (W : ℝ) :
    ∃ (f : ℝ → Vec ℝ 1 → Vec ℝ 1) (y : ℝ → Vec ℝ 1), ContDiff ℝ ⊤ (joint f) ∧ (∀ t, SolvesAt f y t) ∧
      ∀ st : St ℝ 1 0 (FsalAux ℝ 1 s (RkItp ℝ 1 d)), st.t = 0 → On f y st → st.h = 1 →
        ∃ st', Takes ⟨fsal lib o c, pureRhs f, b⟩ st st' ∧ st'.t = 1 ∧ W < |st'.y 0 - y 1 0| := by
  obtain ⟨g, y, hg, hz, h0, hy, hW⟩ := invisible (fun j => (withLast c.toTableau).C j) (|W|)
  refine ⟨fun t _ _ => g t, fun t _ => y t, ?_, fun t => hasDerivAt_pi.mpr fun _ => hy t, fun st ht hon hh => ?_⟩
  · exact contDiff_pi.mpr fun _ => hg.comp contDiff_fst
  have hK : RKStages (withLast c.toTableau) (pureRhs fun t _ _ => g t) st.t st.h st.y (fun _ _ => 0) := by
    intro j
    refine congrArg Except.ok (funext fun _ => ?_)
    rw [ht, hh]
    simpa using hz j
  have hn : rmsError lib o st.y (proposal c.toTableau st.h st.y fun _ _ => 0) (fun _ => st.h * ∑ j, c.E j * 0) = 0 := by
    simp [rmsError, hl.sqrt]
  refine ⟨_, (fsal_takes_iff lib o c hT _ b st _ (congrArg Except.ok hon.f.symm)).mpr
    ⟨[⟨st.h, 0⟩], ⟨st.h, 0⟩, _, fun _ _ => 0, .accept hK (congrArg Except.ok hn) (Or.inl rfl) (Or.inl ⟨rfl, rfl⟩), rfl, rfl⟩, ?_, ?_⟩
  · rw [St.t, push_t, ht, hh]; norm_num
  · rw [St.y, push_y]
    have e : proposal c.toTableau st.h st.y (fun _ _ => 0) 0 = 0 := by
      simp [proposal, rkNew, hon.y, ht, h0]
    simp only [e, zero_sub, abs_neg]
    exact (le_abs_self W).trans_lt (hW.trans_le (le_abs_self _))

/-- C89 (refuted): without a condition on the estimate the tolerances bound nothing. For all options, however small the tolerances, and for
every `W` there is a smooth problem on which RungeKutta23 and one on which RungeKutta45 accepts a first step of size 1 that ends
more than `W` away from the solution. -/
theorem C89_refuted {lib : Lib ℝ} (hl : RealFunctions lib) (o : VarOptions ℝ) (b : Bound ℝ) (W : ℝ) :
    (∃ (f : ℝ → Vec ℝ 1 → Vec ℝ 1) (y : ℝ → Vec ℝ 1), ContDiff ℝ ⊤ (joint f) ∧ (∀ t, SolvesAt f y t) ∧
      ∀ st : St ℝ 1 0 (FsalAux ℝ 1 2 (RkItp ℝ 1 3)), st.t = 0 → On f y st → st.h = 1 →
        ∃ st', Takes ⟨fsal lib o RungeKutta23, pureRhs f, b⟩ st st' ∧ st'.t = 1 ∧ W < |st'.y 0 - y 1 0|) ∧
    ∃ (f : ℝ → Vec ℝ 1 → Vec ℝ 1) (y : ℝ → Vec ℝ 1), ContDiff ℝ ⊤ (joint f) ∧ (∀ t, SolvesAt f y t) ∧
      ∀ st : St ℝ 1 0 (FsalAux ℝ 1 5 (RkItp ℝ 1 4)), st.t = 0 → On f y st → st.h = 1 →
        ∃ st', Takes ⟨fsal lib o RungeKutta45, pureRhs f, b⟩ st st' ∧ st'.t = 1 ∧ W < |st'.y 0 - y 1 0| :=
  ⟨unseen hl RungeKutta23_conditions.explicit o b W, unseen hl RungeKutta45_conditions.explicit o b W⟩

/-! ### Non-vacuity -/

section concrete
open Demo

/-- Equal tolerances `tol`, the other options as they are by default. -/
noncomputable def tolOptions (tol : ℝ) : VarOptions ℝ := { VarOptions.default with atol := tol, rtol := tol }

theorem tolOptions_shrinking {tol : ℝ} (h : 0 < tol) : ShrinkingOptions (tolOptions tol) := by
  constructor <;> simp only [tolOptions, VarOptions.default] <;> first | exact h | exact h.le | norm_num

/-- The stages of RungeKutta23 for `y' = y`. -/
noncomputable def expK (h y : ℝ) : Fin 4 → Vec ℝ 1 :=
  ![fun _ => y, fun _ => y * (1 + h / 2), fun _ => y * (1 + 3 / 4 * h + 3 / 8 * h ^ 2), fun _ => y * (1 + h + h ^ 2 / 2 + h ^ 3 / 6)]

theorem expK_stages (t h y : ℝ) : RKStages (withLast (RungeKutta23 : FsalCoef ℝ 2 3).toTableau) (pureRhs fun _ v => v) t h (fun _ => y)
    (expK h y) := by
  intro i
  fin_cases i <;> simp only [pureRhs, Except.ok.injEq] <;> funext _ <;>
    simp [withLast, RungeKutta23, q, expK, Fin.sum_univ_succ] <;> ring

/-- The estimate of RungeKutta23 is sharp along `exp`. -/
theorem exp_sharp : SharpEstimate (n := 1) (RungeKutta23 : FsalCoef ℝ 2 3).toTableau (RungeKutta23 : FsalCoef ℝ 2 3).E 3 (fun _ v => v)
    (fun t _ => Real.exp t) 0 1 := by
  refine ⟨1 / 48, 1, by norm_num, one_pos, fun t h K ht hh _ hK => ⟨0, ?_⟩⟩
  have he := withLast_explicit (RungeKutta23_conditions (α := ℝ)).explicit
  have e : K = expK h (Real.exp t) := by
    funext i
    exact (stages_unique he hK i).trans (stages_unique he (expK_stages t h (Real.exp t)) i).symm
  subst e
  have e : h * ∑ j, (RungeKutta23 : FsalCoef ℝ 2 3).E j * expK h (Real.exp t) j 0 = -(Real.exp t * (h ^ 3 * (1 + h) / 48)) := by
    simp [Fin.sum_univ_succ, expK, RungeKutta23, fsalE, q, RungeKutta23B2]
    ring
  have h1 : 1 ≤ Real.exp t := Real.one_le_exp ht.1
  have h3 : 0 ≤ h ^ 3 := by positivity
  rw [e, abs_neg, abs_of_nonneg (by positivity)]
  calc 1 / 48 * h ^ 3 ≤ 1 * (h ^ 3 * (1 + h) / 48) := by nlinarith
    _ ≤ _ := mul_le_mul_of_nonneg_right h1 (by positivity)

/-- `C89_RungeKutta23_partial` for `y' = y` on `[0, 1]`: the error is at most `C` times the tolerance, for every small enough tolerance; and
steps exist. -/
example : ∃ C δ τ : ℝ, 0 < δ ∧ 0 < τ ∧ ∀ tol, 0 < tol → tol ≤ τ →
    (∀ (s s' : St ℝ 1 0 (FsalAux ℝ 1 2 (RkItp ℝ 1 3))) l lim, s.t = 0 → s.y = (fun _ => 1) → s.f = (fun _ => 1) → 0 < s.h → s.h ≤ δ →
      Path ⟨fsal realLib (tolOptions tol) RungeKutta23, pureRhs fun _ v => v, .inf⟩ lim s l s' →
      ∀ u ∈ l, u.t ≤ 1 → |u.y 0 - Real.exp u.t| ≤ C * tol) ∧
    ∀ s : St ℝ 1 0 (FsalAux ℝ 1 2 (RkItp ℝ 1 3)), s.f = s.y → 0 < s.h →
      ∃ v, Takes ⟨fsal realLib (tolOptions tol) RungeKutta23, pureRhs fun _ v => v, .inf⟩ s v := by
  obtain ⟨C, δ, τ, hδ, hτ, h⟩ := C89_RungeKutta23_partial (n := 1) realLib_real .inf (fun _ v => v) (fun t _ => Real.exp t) (-1) 2 0 1 10
    contDiff_snd (by norm_num) (by norm_num) (fun t _ => hasDerivAt_pi.mpr fun _ => Real.hasDerivAt_exp t) exp_sharp
  refine ⟨C * 2, δ, τ, hδ, hτ, fun tol h0 h1 => ⟨fun s s' l lim e1 e2 e3 e4 e5 hp u hu hut => ?_, fun s hs hh => ?_⟩⟩
  · have := h (tolOptions tol) (tolOptions_shrinking h0) (by simp [tolOptions, VarOptions.default]) h1 h1 s s' l lim e1
      ⟨by rw [e1, e2]; simp, by rw [e2, e3]⟩ e4 e5 hp u hu hut 0
    refine this.trans (le_of_eq ?_)
    simp only [tolOptions]; ring
  · obtain ⟨v, hv, -⟩ := fsal_takes (tolOptions_shrinking h0) RungeKutta23 (RungeKutta23_conditions (α := ℝ)).explicit
      (by simp [RungeKutta23, q]) .inf (fun _ v => v) continuous_snd s hs hh
    exact ⟨v, hv⟩

/-- The estimate of RungeKutta45 is sharp along the solution of `y' = t^4`. -/
theorem quartic_sharp : SharpEstimate (n := 1) (RungeKutta45 : FsalCoef ℝ 5 4).toTableau (RungeKutta45 : FsalCoef ℝ 5 4).E 5
    (fun t _ _ => t ^ 4) (fun t _ => t ^ 5 / 5) 0 1 := by
  refine ⟨1 / 10000, 1, by norm_num, one_pos, fun t h K ht hh _ hK => ⟨0, ?_⟩⟩
  have e : ∀ j, K j 0 = (t + (withLast (RungeKutta45 : FsalCoef ℝ 5 4).toTableau).C j * h) ^ 4 := fun j =>
    (congrFun (Except.ok.inj (hK j)) 0).symm
  have e : h * ∑ j, (RungeKutta45 : FsalCoef ℝ 5 4).E j * K j 0 = -(71 / 270000 * h ^ 5) := by
    simp only [e]
    simp [Fin.sum_univ_succ, RungeKutta45, withLast, q]
    ring
  rw [e, abs_neg, abs_of_nonneg (by positivity)]
  have : 0 ≤ h ^ 5 := by positivity
  linarith

/-- `C89_RungeKutta45_partial` for `y' = t^4` on `[0, 1]`. -/
example : ∃ C δ τ : ℝ, 0 < δ ∧ 0 < τ ∧ ∀ tol, 0 < tol → tol ≤ τ →
    (∀ (s s' : St ℝ 1 0 (FsalAux ℝ 1 5 (RkItp ℝ 1 4))) l lim, s.t = 0 → s.y = (fun _ => 0) → s.f = (fun _ => 0) → 0 < s.h → s.h ≤ δ →
      Path ⟨fsal realLib (tolOptions tol) RungeKutta45, pureRhs fun t _ _ => t ^ 4, .inf⟩ lim s l s' →
      ∀ u ∈ l, u.t ≤ 1 → |u.y 0 - u.t ^ 5 / 5| ≤ C * tol) ∧
    ∀ s : St ℝ 1 0 (FsalAux ℝ 1 5 (RkItp ℝ 1 4)), s.f = (fun _ => s.t ^ 4) → 0 < s.h →
      ∃ v, Takes ⟨fsal realLib (tolOptions tol) RungeKutta45, pureRhs fun t _ _ => t ^ 4, .inf⟩ s v := by
  obtain ⟨C, δ, τ, hδ, hτ, h⟩ := C89_RungeKutta45_partial (n := 1) realLib_real .inf (fun t _ _ => t ^ 4) (fun t _ => t ^ 5 / 5)
    (-1) 2 0 1 10 (contDiff_pi.mpr fun _ => contDiff_fst.pow 4) (by norm_num) (by norm_num)
    (fun t _ => hasDerivAt_pi.mpr fun _ => by simpa using (hasDerivAt_pow 5 t).div_const 5) quartic_sharp
  refine ⟨C * 2, δ, τ, hδ, hτ, fun tol h0 h1 => ⟨fun s s' l lim e1 e2 e3 e4 e5 hp u hu hut => ?_, fun s hs hh => ?_⟩⟩
  · have := h (tolOptions tol) (tolOptions_shrinking h0) (by simp [tolOptions, VarOptions.default]) h1 h1 s s' l lim e1
      ⟨by rw [e1, e2]; simp, by rw [e3, e1]; simp⟩ e4 e5 hp u hu hut 0
    refine this.trans (le_of_eq ?_)
    simp only [tolOptions]; ring
  · obtain ⟨v, hv, -⟩ := fsal_takes (tolOptions_shrinking h0) RungeKutta45 (RungeKutta45_conditions (α := ℝ)).explicit
      (by simp [RungeKutta45, q]) .inf (fun t _ _ => t ^ 4) (continuous_pi fun _ => continuous_fst.pow 4) s hs hh
    exact ⟨v, hv⟩

/-- With any tolerance, the constructor and `run` answer on a Lipschitz problem. -/
theorem tol_run (c : FsalCoef ℝ s d) (hT : Explicit c.toTableau) (hex : 0 < c.errorExponent) (f : ℝ → Vec ℝ 1 → Vec ℝ 1)
    (hf : ∀ y, Continuous fun t => f t y) (hL : ∀ t (y z : Vec ℝ 1), ‖f t y - f t z‖ ≤ 1 * ‖y - z‖) (y0 : Vec ℝ 1) {tol h : ℝ} (h0 : 0 < tol)
    (hh : 0 < h) (sel : Rhs ℝ 1 → ℝ → Vec ℝ 1 → Vec ℝ 1 → Except Err ℝ) (bo : BisectOpts ℝ) (argsort : List ℝ → List Nat)
    (hA : ∀ l, IsArgsort l (argsort l)) (ts : List ℝ) (hne : ts ≠ []) (hts : ∀ t ∈ ts, 0 ≤ t) (g) (K) (itp) :
    ∃ s0 out s', fsalInit c.P (tolOptions tol) sel g K itp (pureRhs f) 0 y0 none (some h) = .ok s0 ∧ s0.h = h ∧
      (Solver.run ⟨fsal realLib (tolOptions tol) c, pureRhs f, .inf⟩ bo argsort ts).run s0 = some (.ok out, s') ∧ out.map Prod.fst = ts := by
  have ho := tolOptions_shrinking h0
  have hv : variableInit (tolOptions tol) sel g (⟨K, itp⟩ : FsalAux ℝ 1 s (RkItp ℝ 1 d)) (pureRhs f) 0 y0 none (some h) =
    .ok ⟨Buffer.init g 0 y0 (f 0 y0), h, ⟨K, itp⟩⟩ := by
      simp [variableInit, tolOptions, VarOptions.default, solverInit, pureRhs, h0.le, bind, Except.bind, pure, Except.pure]
  obtain ⟨s0, hi⟩ : ∃ s0, fsalInit c.P (tolOptions tol) sel g K itp (pureRhs f) 0 y0 none (some h) = .ok s0 := by
    unfold fsalInit
    rw [hv]
    exact ⟨_, rfl⟩
  have hst : fsalStarts c (tolOptions tol) (pureRhs f) 0 y0 s0 := ⟨sel, g, K, itp, none, some h, hi⟩
  have hsh : s0.h = h := by
    obtain ⟨s1, h1, -, h2, -⟩ := fsalInit_ok hi
    rw [hv] at h1
    cases h1
    exact h2
  have hS := fsal_startsAt (n := 1) c realLib (tolOptions tol) .inf
  have htimes := hS.times _ _ _ _ hst
  have hf1 : pureRhs f s0.t s0.y = .ok s0.f := by
    rw [← hS.f _ _ _ _ hst, show s0.t = 0 from htimes _, hS.y _ _ _ _ hst]
  obtain ⟨out, s', h1, h2⟩ := C69_answers ⟨fsal realLib (tolOptions tol) c, pureRhs f, .inf⟩
    (Or.inr ⟨_, _, _, .fsal _, realLib_powLaw, sane_of_shrinking ho, hex.le⟩)
    (.fsal _ _ _ realLib_powLaw realLib_sqrtLaw) rfl (fun e ⟨t, y, h⟩ => by cases h) bo argsort hA ts hne s0 (ordered_of_times htimes)
    (hsh ▸ hh) (fun x hx => ⟨by rw [htimes]; exact hts x hx, trivial⟩) (by
      obtain ⟨r, s', h⟩ := C64_calls_growth_partial _ realLib_sqrtLaw realLib_powLaw _ ho c hT hex.le (realLib_powSmall _ hex) _
        (lipschitz_growth f hf 1 hL) .inf bo argsort (.run ts) trivial s0 hf1 (hsh ▸ hh)
      change (do let _ ← Solver.run ⟨fsal realLib (tolOptions tol) c, pureRhs f, .inf⟩ bo argsort ts; pure () : Py _ Unit).run s0 = _ at h
      rw [run_bind] at h
      cases h' : (Solver.run ⟨fsal realLib (tolOptions tol) c, pureRhs f, .inf⟩ bo argsort ts).run s0 with
      | none => rw [h'] at h; cases h
      | some p => exact ⟨p.1, p.2, h'⟩)
  exact ⟨s0, out, s', hi, hsh, h1, h2⟩

/-- `C89_RungeKutta23_run_partial` for `y' = y`, `y(0) = 1`: every run for times in `[0, 1/2]` answers, within a multiple of the tolerance. -/
example (sel : Rhs ℝ 1 → ℝ → Vec ℝ 1 → Vec ℝ 1 → Except Err ℝ) : ∃ C δ τ : ℝ, 0 < δ ∧ 0 < τ ∧ ∀ tol h, 0 < tol → tol ≤ τ → 0 < h → h ≤ δ →
    ∀ (bo : BisectOpts ℝ) (argsort : List ℝ → List Nat) (ts : List ℝ) g K itp, (∀ l, IsArgsort l (argsort l)) → ts ≠ [] →
    (∀ t ∈ ts, 0 ≤ t ∧ t ≤ 1 / 2) →
    ∃ s0 out s', fsalInit (RungeKutta23 : FsalCoef ℝ 2 3).P (tolOptions tol) sel g K itp (pureRhs (n := 1) fun _ v => v) 0 (fun _ => 1) none
        (some h) = .ok s0 ∧
      (Solver.run ⟨fsal realLib (tolOptions tol) RungeKutta23, pureRhs fun _ v => v, .inf⟩ bo argsort ts).run s0 = some (.ok out, s') ∧
      out.map Prod.fst = ts ∧ ∀ r ∈ out, |r.2 0 - Real.exp r.1| ≤ C * tol := by
  obtain ⟨C, δ, τ, hδ, hτ, hC⟩ := C89_RungeKutta23_run_partial (n := 1) realLib_real .inf (fun _ v => v) (fun t _ => Real.exp t) (-1) 2 0
    (1 / 2) 1 10 contDiff_snd (by norm_num) (by norm_num) (by norm_num) (fun t _ => hasDerivAt_pi.mpr fun _ => Real.hasDerivAt_exp t) exp_sharp
  refine ⟨C * 2, δ, τ, hδ, hτ, fun tol h h0 h1 hh hhδ bo argsort ts g K itp hA hne hts => ?_⟩
  obtain ⟨s0, out, s', hi, hsh, hr, ho⟩ := tol_run (RungeKutta23 : FsalCoef ℝ 2 3) RungeKutta23_conditions.explicit (by simp [RungeKutta23, q])
    (fun _ v => v) (fun _ => continuous_const) (fun t y z => by rw [one_mul]) (fun _ => 1) h0 hh sel bo argsort hA ts hne
    (fun t ht => (hts t ht).1) g K itp
  refine ⟨s0, out, s', hi, hr, ho, fun r hr' => ?_⟩
  have hst : fsalStarts RungeKutta23 (tolOptions tol) (pureRhs (n := 1) fun _ v => v) 0 (fun _ => Real.exp 0) s0 :=
    ⟨sel, g, K, itp, none, some h, by rw [Real.exp_zero]; exact hi⟩
  have := hC (tolOptions tol) (tolOptions_shrinking h0) (by simp [tolOptions, VarOptions.default]) h1 h1 bo argsort hA s0 s' ts out hst
    (hsh ▸ hh) (hsh ▸ hhδ) hr r hr' (hts _ (ho ▸ List.mem_map_of_mem hr')).2 0
  refine this.trans (le_of_eq ?_)
  simp only [tolOptions]; ring

/-- `C89_RungeKutta45_run_partial` for `y' = t^4`, `y(0) = 0`. -/
example (sel : Rhs ℝ 1 → ℝ → Vec ℝ 1 → Vec ℝ 1 → Except Err ℝ) : ∃ C δ τ : ℝ, 0 < δ ∧ 0 < τ ∧ ∀ tol h, 0 < tol → tol ≤ τ → 0 < h → h ≤ δ →
    ∀ (bo : BisectOpts ℝ) (argsort : List ℝ → List Nat) (ts : List ℝ) g K itp, (∀ l, IsArgsort l (argsort l)) → ts ≠ [] →
    (∀ t ∈ ts, 0 ≤ t ∧ t ≤ 1 / 2) →
    ∃ s0 out s', fsalInit (RungeKutta45 : FsalCoef ℝ 5 4).P (tolOptions tol) sel g K itp (pureRhs (n := 1) fun t _ _ => t ^ 4) 0 (fun _ => 0)
        none (some h) = .ok s0 ∧
      (Solver.run ⟨fsal realLib (tolOptions tol) RungeKutta45, pureRhs fun t _ _ => t ^ 4, .inf⟩ bo argsort ts).run s0 = some (.ok out, s') ∧
      out.map Prod.fst = ts ∧ ∀ r ∈ out, |r.2 0 - r.1 ^ 5 / 5| ≤ C * tol := by
  obtain ⟨C, δ, τ, hδ, hτ, hC⟩ := C89_RungeKutta45_run_partial (n := 1) realLib_real .inf (fun t _ _ => t ^ 4) (fun t _ => t ^ 5 / 5) (-1) 2 0
    (1 / 2) 1 10 (contDiff_pi.mpr fun _ => contDiff_fst.pow 4) (by norm_num) (by norm_num) (by norm_num)
    (fun t _ => hasDerivAt_pi.mpr fun _ => by simpa using (hasDerivAt_pow 5 t).div_const 5) quartic_sharp
  refine ⟨C * 2, δ, τ, hδ, hτ, fun tol h h0 h1 hh hhδ bo argsort ts g K itp hA hne hts => ?_⟩
  obtain ⟨s0, out, s', hi, hsh, hr, ho⟩ := tol_run (RungeKutta45 : FsalCoef ℝ 5 4) RungeKutta45_conditions.explicit (by simp [RungeKutta45, q])
    (fun t _ _ => t ^ 4) (fun _ => continuous_pi fun _ => continuous_pow 4) (fun t y z => by simp) (fun _ => 0) h0 hh sel bo argsort hA ts hne
    (fun t ht => (hts t ht).1) g K itp
  refine ⟨s0, out, s', hi, hr, ho, fun r hr' => ?_⟩
  have hst : fsalStarts RungeKutta45 (tolOptions tol) (pureRhs (n := 1) fun t _ _ => t ^ 4) 0 (fun _ => 0 ^ 5 / 5) s0 :=
    ⟨sel, g, K, itp, none, some h, by norm_num; exact hi⟩
  have := hC (tolOptions tol) (tolOptions_shrinking h0) (by simp [tolOptions, VarOptions.default]) h1 h1 bo argsort hA s0 s' ts out hst
    (hsh ▸ hh) (hsh ▸ hhδ) hr r hr' (hts _ (ho ▸ List.mem_map_of_mem hr')).2 0
  refine this.trans (le_of_eq ?_)
  simp only [tolOptions]; ring

/-- `C89_refuted`: with tolerances `1e-12` a single accepted step may be wrong by more than a million. -/
example : ∃ (f : ℝ → Vec ℝ 1 → Vec ℝ 1) (y : ℝ → Vec ℝ 1), (∀ t, SolvesAt f y t) ∧
    ∃ st st' : St ℝ 1 0 (FsalAux ℝ 1 5 (RkItp ℝ 1 4)), On f y st ∧
      Takes ⟨fsal realLib (tolOptions (1 / 10 ^ 12)) RungeKutta45, pureRhs f, .inf⟩ st st' ∧ st'.t = 1 ∧ 10 ^ 6 < |st'.y 0 - y 1 0| := by
  obtain ⟨-, f, y, -, hy, h⟩ := C89_refuted realLib_real (tolOptions (1 / 10 ^ 12)) .inf (10 ^ 6)
  have hon : On f y (⟨⟨fun _ => 0, fun _ => y 0, fun _ => f 0 (y 0)⟩, 1, ⟨fun _ _ => 0, ⟨fun _ _ => 0, 0⟩⟩⟩ :
      St ℝ 1 0 (FsalAux ℝ 1 5 (RkItp ℝ 1 4))) := ⟨rfl, rfl⟩
  obtain ⟨st', h1, h2, h3⟩ := h _ rfl hon rfl
  exact ⟨f, y, hy, _, st', hon, h1, h2, h3⟩

end concrete

end Nbkode
