import Verif.Proofs.HaltingGrowth
import Verif.Proofs.Hanging
import Verif.Props.VarDemo
import Verif.Props.EventDemo
import Mathlib.Topology.Instances.Real.Lemmas
import Mathlib.Topology.MetricSpace.Pseudo.Pi
import Mathlib.Analysis.SpecialFunctions.Pow.NNReal

/-!
# C64: calls come back

Fixed-step solvers always come back. A variable-step solver tries smaller and smaller steps until one is accepted:
this ends for every right-hand side which is bounded near the current point (in particular continuous), and calls up
to a time end when it grows at most linearly (in particular if it is Lipschitz). It does not end for every right-hand side: one that returns NaN, or that
grows like `1 / t` at the current time, makes `step()` hang.
-/

set_option autoImplicit false
set_option linter.unusedSectionVars false

namespace Nbkode
open Py Spec Solver

section arithmetic
variable {α : Type}
variable [Add α] [Sub α] [Mul α] [Div α] [Neg α] [Zero α] [One α] [NatCast α] [BEq α]
variable [LT α] [DecidableLT α] [LE α] [DecidableLE α]
variable {n k : Nat} {X : Type}

/-- **C64** Fixed-step solvers, in any arithmetic: `step()`, `step(n)`, `step(n, upto_t)` and the same with `skip` come
back, whatever the right-hand side returns or raises. -/
theorem C64_fixed_counted (S : Solver α n k X) (hM : IsFixed S.method) (m : Option Int) (u : Option (Bound α))
    (hm : m.isSome ∨ u = none) (s : St α n k X) : Halts (S.step m u) s ∧ Halts (S.skip m u) s :=
  counted_returns (hM.body_returns S.rhs) m u hm s

end arithmetic

section field
variable {α : Type} [Field α] [LinearOrder α] [IsStrictOrderedRing α] [Archimedean α] [BEq α] [LawfulBEq α]
variable {n k : Nat} {X : Type}

/-- **C64** Fixed-step solvers with a positive step: every call comes back, except `step(upto_t=inf)` and
`skip(upto_t=inf)`. -/
theorem C64_fixed (S : Solver α n k X) (hM : IsFixed S.method) (bo : BisectOpts α) (argsort : List α → List Nat)
    (c : Call α n) (hc : Finite c) (s : St α n k X) (hh : 0 < s.h) : Halts (c.exec S bo argsort) s :=
  (fixed_advances hM hh).ranked.call_returns (Or.inl hM) bo argsort c hc (fun _ _ => trivial) rfl

/-- **C64** The exception: without a bound, `step(upto_t=inf)` never comes back (as long as steps succeed). -/
theorem C64_forever (S : Solver α n k X) (hb : S.tBound = .inf) (hT : ∀ s, ∃ s', Takes S s s') (s : St α n k X) :
    ¬ Halts (S.step none (some .inf)) s := by
  rintro ⟨r, s', h⟩
  unfold step checkTime at h
  simp only [run_bind, run_get, andThen_ok, inPast, Bound.lt, Bool.false_eq_true, if_false, hb, Bound.gt,
    run_pure, run_ite] at h
  cases hl : (S.stepsLoop .inf).run s with
  | none => rw [hl] at h; cases h
  | some p => exact stepsLoop_hangs hT s ⟨_, _, hl⟩

open Demo in
/-- Non-vacuity: a run of the demo solver with events and times far apart comes back. -/
example (argsort : List ℚ → List Nat) :
    Halts ((Call.runEvents [1, 1000] (some [(⟨fun t _ => t - 7, some true, none⟩ : EventSpec ℚ 1)])).exec (euler .inf)
      BisectOpts.std argsort) s0 := by
  refine C64_fixed (euler .inf) (.explicitMultistep _) _ _ _ ?_ _ (by norm_num [s0, st])
  trivial

open Demo in
/-- Non-vacuity: `step(upto_t=inf)` of the demo solver without a bound hangs. -/
example : ¬ Halts ((euler .inf).step none (some .inf)) s0 := by
  refine C64_forever _ rfl (fun s => ?_) _
  unfold Takes
  change ∃ s', (explicitMultistepBody ForwardEuler growth).run _ = _
  rw [explicitMultistepBody_run]
  exact ⟨_, rfl⟩

variable {s : Nat}

/-- **C64, partial** `step()` of RungeKutta23 and RungeKutta45 (any explicit tableau) comes back if the right-hand side
is bounded near the current point. Missing: right-hand sides that are not (`C64_refuted_nan`,
`C64_refuted_singular`). -/
theorem C64_step_partial {d : Nat} (lib : Lib α) (hs : SqrtLaw lib) (hp : PowLaw lib) (o : VarOptions α)
    (ho : ShrinkingOptions o) (c : FsalCoef α s d) (hT : Explicit c.toTableau) (hex : 0 ≤ c.errorExponent)
    (rhs : Rhs α n) (b : Bound α) (st : St α n 0 (FsalAux α n s (RkItp α n d))) (hf : rhs st.t st.y = .ok st.f)
    (hh : 0 < st.h) (hB : ∃ δ M, 0 < δ ∧ BoundedNear rhs δ M st.t st.y) :
    Halts (Solver.step ⟨fsal lib o c, rhs, b⟩ none none) st := by
  obtain ⟨δ, M, hδ, hB⟩ := hB
  have hB' : BoundedNear rhs δ (max M 0) st.t st.y := fun t' y' ht hy v hv d =>
    (hB t' y' ht hy v hv d).trans (le_max_left _ _)
  have hr := fsalBody_returns hT ho hp hex
    (div_nonneg (Finset.sum_nonneg fun j _ => abs_nonneg _) ho.atol_pos.le)
    (fsalErrNorm_bound hs ho.atol_pos ho.rtol_nonneg c.E) hδ (le_max_right _ _) st hf hB' hh
  unfold Solver.step
  refine Halts.bind (Halts.get _) fun a s1 h1 => ?_
  cases h1
  refine Halts.ite (fun _ => Halts.pure _ _) fun _ => Halts.bind ?_ fun c s1 _ => ?_
  · unfold pstep
    refine Halts.bind (Halts.get _) fun a s1 h1 => ?_
    cases h1
    exact Halts.ite (fun _ => Halts.pure _ _) fun _ => Halts.bind hr fun _ _ _ => Halts.pure _ _
  · returns

/-- **C64, partial** The same for DOP853. -/
theorem C64_step_dop853_partial (lib : Lib α) (hs : SqrtLaw lib) (hp : PowLaw lib) (o : VarOptions α)
    (ho : ShrinkingOptions o) (c : DopCoef α) (hT : Explicit c.toTableau) (hex : 0 ≤ c.errorExponent)
    (rhs : Rhs α n) (b : Bound α) (st : St α n 0 (FsalAux α n 11 (DopItp α n))) (hf : rhs st.t st.y = .ok st.f)
    (hh : 0 < st.h) (hB : ∃ δ M, 0 < δ ∧ BoundedNear rhs δ M st.t st.y) :
    Halts (Solver.step ⟨dop853 lib o c, rhs, b⟩ none none) st := by
  obtain ⟨δ, M, hδ, hB⟩ := hB
  have hB' : BoundedNear rhs δ (max M 0) st.t st.y := fun t' y' ht hy v hv d =>
    (hB t' y' ht hy v hv d).trans (le_max_left _ _)
  have hr := fsalBody_returns hT ho hp hex
    (div_nonneg (Finset.sum_nonneg fun j _ => abs_nonneg _) ho.atol_pos.le)
    (dopErrNorm_bound hs ho.atol_pos ho.rtol_nonneg c.E3 c.E5) hδ (le_max_right _ _) st hf hB' hh
  unfold Solver.step
  refine Halts.bind (Halts.get _) fun a s1 h1 => ?_
  cases h1
  refine Halts.ite (fun _ => Halts.pure _ _) fun _ => Halts.bind ?_ fun c s1 _ => ?_
  · unfold pstep
    refine Halts.bind (Halts.get _) fun a s1 h1 => ?_
    cases h1
    exact Halts.ite (fun _ => Halts.pure _ _) fun _ => Halts.bind hr fun _ _ _ => Halts.pure _ _
  · returns

/-- **C64, partial** Every call on RungeKutta23 and RungeKutta45 comes back if the right-hand side is bounded (except
`step(upto_t=inf)`, `skip(upto_t=inf)`). Missing: right-hand sides that are not bounded. -/
theorem C64_calls_partial {d : Nat} (lib : Lib α) (hs : SqrtLaw lib) (hp : PowLaw lib) (o : VarOptions α)
    (ho : ShrinkingOptions o) (c : FsalCoef α s d) (hT : Explicit c.toTableau) (hex : 0 ≤ c.errorExponent)
    (hps : PowSmall lib c.errorExponent) (rhs : Rhs α n) (M : α) (hB : BoundedBy rhs M) (b : Bound α)
    (bo : BisectOpts α) (argsort : List α → List Nat) (call : Call α n) (hc : Finite call)
    (st : St α n 0 (FsalAux α n s (RkItp α n d))) (hf : rhs st.t st.y = .ok st.f) (hh : 0 < st.h) :
    Halts (call.exec ⟨fsal lib o c, rhs, b⟩ bo argsort) st := by
  have hB' : BoundedBy rhs (max M 0) := fun t y v hv d => (hB t y v hv d).trans (le_max_left _ _)
  obtain ⟨η, _, hle, P⟩ := variable_advances (M := fsal lib o c) (b := b) rfl hT ho hp hps hex
    (div_nonneg (Finset.sum_nonneg fun j _ => abs_nonneg _) ho.atol_pos.le)
    (fsalErrNorm_bound hs ho.atol_pos ho.rtol_nonneg c.E) (le_max_right _ _) hB' hh
  exact P.ranked.call_returns (Or.inr ⟨_, _, _, .fsal c⟩) bo argsort call hc (fun _ _ => trivial) ⟨hle, hf⟩

/-- **C64, partial** The same for DOP853. -/
theorem C64_calls_dop853_partial (lib : Lib α) (hs : SqrtLaw lib) (hp : PowLaw lib) (o : VarOptions α)
    (ho : ShrinkingOptions o) (c : DopCoef α) (hT : Explicit c.toTableau) (hex : 0 ≤ c.errorExponent)
    (hps : PowSmall lib c.errorExponent) (rhs : Rhs α n) (M : α) (hB : BoundedBy rhs M) (b : Bound α)
    (bo : BisectOpts α) (argsort : List α → List Nat) (call : Call α n) (hc : Finite call)
    (st : St α n 0 (FsalAux α n 11 (DopItp α n))) (hf : rhs st.t st.y = .ok st.f) (hh : 0 < st.h) :
    Halts (call.exec ⟨dop853 lib o c, rhs, b⟩ bo argsort) st := by
  have hB' : BoundedBy rhs (max M 0) := fun t y v hv d => (hB t y v hv d).trans (le_max_left _ _)
  obtain ⟨η, _, hle, P⟩ := variable_advances (M := dop853 lib o c) (b := b) rfl hT ho hp hps hex
    (div_nonneg (Finset.sum_nonneg fun j _ => abs_nonneg _) ho.atol_pos.le)
    (dopErrNorm_bound hs ho.atol_pos ho.rtol_nonneg c.E3 c.E5) (le_max_right _ _) hB' hh
  exact P.ranked.call_returns (Or.inr ⟨_, _, _, .dop853 c⟩) bo argsort call hc (fun _ _ => trivial) ⟨hle, hf⟩

end field

/-! ### Over the real numbers -/

section real
open Demo

theorem Demo.realLib_sqrtLaw : SqrtLaw realLib where
  nonneg := fun x => Real.sqrt_nonneg x
  le := fun x r h0 h => (Real.sqrt_le_sqrt h).trans (by rw [Real.sqrt_sq h0])
  one_le := fun x h => by
    show 1 ≤ Real.sqrt x
    rw [show (1 : ℝ) = Real.sqrt 1 by simp]
    exact Real.sqrt_le_sqrt h

theorem Demo.realLib_powSmall (ex : ℝ) (h : 0 < ex) : PowSmall realLib ex := by
  intro c hc
  refine ⟨c ^ (1 / ex), Real.rpow_pos_of_pos hc _, fun x hx hle => ?_⟩
  show x ^ ex ≤ c
  calc x ^ ex ≤ (c ^ (1 / ex)) ^ ex := Real.rpow_le_rpow hx.le hle h.le
    _ = c := by rw [← Real.rpow_mul hc.le, one_div, inv_mul_cancel₀ h.ne', Real.rpow_one]

theorem Demo.default_shrinking : ShrinkingOptions (VarOptions.default : VarOptions ℝ) := by
  constructor <;> simp only [VarOptions.default] <;> norm_num

/-- A continuous right-hand side is bounded near every point. -/
theorem Demo.continuous_bounded {n : Nat} (f : ℝ → Vec ℝ n → Vec ℝ n) (hf : Continuous fun p : ℝ × Vec ℝ n => f p.1 p.2)
    (t : ℝ) (y : Vec ℝ n) : ∃ δ M, 0 < δ ∧ BoundedNear (pureRhs f) δ M t y := by
  obtain ⟨ε, hε, h⟩ := Metric.continuousAt_iff.mp (hf.continuousAt (x := (t, y))) 1 one_pos
  refine ⟨ε / 2, ‖f t y‖ + 1, by linarith, ?_⟩
  intro t' y' ht hy v hv d
  cases hv
  have hd : dist (t', y') (t, y) < ε := by
    rw [Prod.dist_eq]
    refine lt_of_le_of_lt (max_le ?_ ?_) (half_lt_self hε)
    · rw [Real.dist_eq]; exact ht
    · exact (dist_pi_le_iff (by linarith)).mpr fun i => by rw [Real.dist_eq]; exact hy i
  have h1 : ‖f t' y' - f t y‖ < 1 := by rw [← dist_eq_norm]; exact h hd
  have h2 : ‖f t' y' d‖ ≤ ‖f t' y'‖ := norm_le_pi_norm _ d
  have h3 : ‖f t' y'‖ ≤ ‖f t y‖ + ‖f t' y' - f t y‖ := by
    have := norm_add_le (f t y) (f t' y' - f t y)
    rwa [add_sub_cancel] at this
  rw [← Real.norm_eq_abs]
  linarith

/-- **C64** With the default options and exact real arithmetic, `step()` of RungeKutta23, RungeKutta45 and DOP853
comes back for every continuous right-hand side. -/
theorem C64_continuous {n : Nat} (f : ℝ → Vec ℝ n → Vec ℝ n) (hf : Continuous fun p : ℝ × Vec ℝ n => f p.1 p.2)
    (b : Bound ℝ) :
    (∀ st : St ℝ n 0 (FsalAux ℝ n 2 (RkItp ℝ n 3)), 0 < st.h → st.f = f st.t st.y →
      Halts (Solver.step ⟨fsal realLib .default RungeKutta23, pureRhs f, b⟩ none none) st) ∧
    (∀ st : St ℝ n 0 (FsalAux ℝ n 5 (RkItp ℝ n 4)), 0 < st.h → st.f = f st.t st.y →
      Halts (Solver.step ⟨fsal realLib .default RungeKutta45, pureRhs f, b⟩ none none) st) ∧
    (∀ st : St ℝ n 0 (FsalAux ℝ n 11 (DopItp ℝ n)), 0 < st.h → st.f = f st.t st.y →
      Halts (Solver.step ⟨dop853 realLib .default DOP853, pureRhs f, b⟩ none none) st) := by
  refine ⟨fun st hh he => ?_, fun st hh he => ?_, fun st hh he => ?_⟩
  · exact C64_step_partial _ realLib_sqrtLaw realLib_powLaw _ default_shrinking _ RungeKutta23_conditions.explicit
      (by simp [RungeKutta23, q]) _ _ _ (by rw [he]; rfl) hh (continuous_bounded f hf _ _)
  · exact C64_step_partial _ realLib_sqrtLaw realLib_powLaw _ default_shrinking _ RungeKutta45_conditions.explicit
      (by simp [RungeKutta45, q]) _ _ _ (by rw [he]; rfl) hh (continuous_bounded f hf _ _)
  · exact C64_step_dop853_partial _ realLib_sqrtLaw realLib_powLaw _ default_shrinking _ DOP853_explicit
      (by simp [DOP853, q]) _ _ _ (by rw [he]; rfl) hh (continuous_bounded f hf _ _)

/-- Non-vacuity: `y' = y²` (a continuous, unbounded right-hand side). -/
example (st : St ℝ 1 0 (FsalAux ℝ 1 5 (RkItp ℝ 1 4))) (hh : 0 < st.h) (he : st.f = fun i => st.y i ^ 2) :
    Halts (Solver.step ⟨fsal realLib .default RungeKutta45, pureRhs fun _ y i => y i ^ 2, .inf⟩ none none) st :=
  (C64_continuous (fun _ y i => y i ^ 2) (by fun_prop) .inf).2.1 st hh he

/-- Non-vacuity: `run` on `y' = min(1, max(-1, y))` with RungeKutta23 comes back for any times. -/
example (st : St ℝ 1 0 (FsalAux ℝ 1 2 (RkItp ℝ 1 3))) (hh : 0 < st.h)
    (he : st.f = fun i => min 1 (max (-1) (st.y i))) (ts : List ℝ) (bo : BisectOpts ℝ) (argsort : List ℝ → List Nat) :
    Halts ((Call.run ts).exec ⟨fsal realLib .default RungeKutta23,
      pureRhs fun _ y i => min 1 (max (-1) (y i)), .inf⟩ bo argsort) st := by
  refine C64_calls_partial _ realLib_sqrtLaw realLib_powLaw _ default_shrinking _ RungeKutta23_conditions.explicit
    (by simp [RungeKutta23, q]) (realLib_powSmall _ (by simp [RungeKutta23, q])) _ 1 ?_ _ _ _ _
    (show Finite (Call.run ts) from trivial) _ (by rw [he]; rfl) hh
  intro t y v hv d
  cases hv
  rw [abs_le]
  exact ⟨le_min (by norm_num) (le_max_left _ _), min_le_left _ _⟩

/-- **C64, partial** Every call on RungeKutta23 and RungeKutta45 comes back if the right-hand side grows at most linearly with `y`
(except `step(upto_t=inf)`, `skip(upto_t=inf)`). Missing: right-hand sides that grow faster. -/
theorem C64_calls_growth_partial {n s d : Nat} (lib : Lib ℝ) (hs : SqrtLaw lib) (hp : PowLaw lib) (o : VarOptions ℝ)
    (ho : ShrinkingOptions o) (c : FsalCoef ℝ s d) (hT : Explicit c.toTableau) (hex : 0 ≤ c.errorExponent)
    (hps : PowSmall lib c.errorExponent) (rhs : Rhs ℝ n) (hg : LinearGrowth rhs) (b : Bound ℝ)
    (bo : BisectOpts ℝ) (argsort : List ℝ → List Nat) (call : Call ℝ n) (hc : Finite call)
    (st : St ℝ n 0 (FsalAux ℝ n s (RkItp ℝ n d))) (hf : rhs st.t st.y = .ok st.f) (hh : 0 < st.h) :
    Halts (call.exec ⟨fsal lib o c, rhs, b⟩ bo argsort) st := by
  obtain ⟨J, hJ, P⟩ := growth_advances (Me := fsal lib o c) (b := b) rfl hT ho hp hps hex
    (div_nonneg (Finset.sum_nonneg fun j _ => abs_nonneg _) ho.atol_pos.le)
    (fsalErrNorm_bound hs ho.atol_pos ho.rtol_nonneg c.E) hg st hf hh
  exact P.ranked.call_returns (Or.inr ⟨_, _, _, .fsal c⟩) bo argsort call hc (fun _ _ => trivial) hJ

/-- **C64, partial** The same for DOP853. -/
theorem C64_calls_growth_dop853_partial {n : Nat} (lib : Lib ℝ) (hs : SqrtLaw lib) (hp : PowLaw lib) (o : VarOptions ℝ)
    (ho : ShrinkingOptions o) (c : DopCoef ℝ) (hT : Explicit c.toTableau) (hex : 0 ≤ c.errorExponent)
    (hps : PowSmall lib c.errorExponent) (rhs : Rhs ℝ n) (hg : LinearGrowth rhs) (b : Bound ℝ)
    (bo : BisectOpts ℝ) (argsort : List ℝ → List Nat) (call : Call ℝ n) (hc : Finite call)
    (st : St ℝ n 0 (FsalAux ℝ n 11 (DopItp ℝ n))) (hf : rhs st.t st.y = .ok st.f) (hh : 0 < st.h) :
    Halts (call.exec ⟨dop853 lib o c, rhs, b⟩ bo argsort) st := by
  obtain ⟨J, hJ, P⟩ := growth_advances (Me := dop853 lib o c) (b := b) rfl hT ho hp hps hex
    (div_nonneg (Finset.sum_nonneg fun j _ => abs_nonneg _) ho.atol_pos.le)
    (dopErrNorm_bound hs ho.atol_pos ho.rtol_nonneg c.E3 c.E5) hg st hf hh
  exact P.ranked.call_returns (Or.inr ⟨_, _, _, .dop853 c⟩) bo argsort call hc (fun _ _ => trivial) hJ

theorem Demo.lipschitz_growth {n : Nat} (f : ℝ → Vec ℝ n → Vec ℝ n) (hf : ∀ y, Continuous fun t => f t y) (L : ℝ)
    (hL : ∀ t (y z : Vec ℝ n), ‖f t y - f t z‖ ≤ L * ‖y - z‖) : LinearGrowth (pureRhs f) := by
  intro R
  obtain ⟨B, hB⟩ := (isCompact_Icc (a := -R) (b := R)).exists_bound_of_continuousOn (f := fun t => f t 0) (hf 0).continuousOn
  refine ⟨max B 0 + |L|, by positivity, fun t y v M ht hy hv d => ?_⟩
  cases hv
  have hM : 0 ≤ M := (abs_nonneg _).trans (hy d)
  have h1 := hB t (abs_le.mp ht)
  have h2 := hL t y 0
  have h3 : ‖y‖ ≤ M := (pi_norm_le_iff_of_nonneg hM).mpr fun d => by rw [Real.norm_eq_abs]; exact hy d
  have h4 : ‖f t y d‖ ≤ ‖f t y‖ := norm_le_pi_norm _ d
  have h5 : ‖f t y‖ ≤ ‖f t y - f t 0‖ + ‖f t 0‖ := by
    have := norm_add_le (f t y - f t 0) (f t 0); rwa [sub_add_cancel] at this
  rw [sub_zero] at h2
  have h6 : L * ‖y‖ ≤ |L| * M := mul_le_mul (le_abs_self L) h3 (norm_nonneg _) (abs_nonneg _)
  rw [Real.norm_eq_abs] at h4
  have := le_max_left B 0; have := le_max_right B 0; have := abs_nonneg L
  nlinarith

/-- **C64** With the default options and exact real arithmetic, every call on RungeKutta23, RungeKutta45 and DOP853 (except
`step(upto_t=inf)`, `skip(upto_t=inf)`) comes back if the right-hand side is continuous in `t` and Lipschitz in `y`. -/
theorem C64_lipschitz {n : Nat} (f : ℝ → Vec ℝ n → Vec ℝ n) (hf : ∀ y, Continuous fun t => f t y) (L : ℝ)
    (hL : ∀ t (y z : Vec ℝ n), ‖f t y - f t z‖ ≤ L * ‖y - z‖) (b : Bound ℝ) (bo : BisectOpts ℝ) (argsort : List ℝ → List Nat)
    (call : Call ℝ n) (hc : Finite call) :
    (∀ st : St ℝ n 0 (FsalAux ℝ n 2 (RkItp ℝ n 3)), 0 < st.h → st.f = f st.t st.y →
      Halts (call.exec ⟨fsal realLib .default RungeKutta23, pureRhs f, b⟩ bo argsort) st) ∧
    (∀ st : St ℝ n 0 (FsalAux ℝ n 5 (RkItp ℝ n 4)), 0 < st.h → st.f = f st.t st.y →
      Halts (call.exec ⟨fsal realLib .default RungeKutta45, pureRhs f, b⟩ bo argsort) st) ∧
    (∀ st : St ℝ n 0 (FsalAux ℝ n 11 (DopItp ℝ n)), 0 < st.h → st.f = f st.t st.y →
      Halts (call.exec ⟨dop853 realLib .default DOP853, pureRhs f, b⟩ bo argsort) st) := by
  have hg := lipschitz_growth f hf L hL
  refine ⟨fun st hh he => ?_, fun st hh he => ?_, fun st hh he => ?_⟩
  · exact C64_calls_growth_partial _ realLib_sqrtLaw realLib_powLaw _ default_shrinking _ RungeKutta23_conditions.explicit
      (by simp [RungeKutta23, q]) (realLib_powSmall _ (by simp [RungeKutta23, q])) _ hg _ _ _ _ hc _ (by rw [he]; rfl) hh
  · exact C64_calls_growth_partial _ realLib_sqrtLaw realLib_powLaw _ default_shrinking _ RungeKutta45_conditions.explicit
      (by simp [RungeKutta45, q]) (realLib_powSmall _ (by simp [RungeKutta45, q])) _ hg _ _ _ _ hc _ (by rw [he]; rfl) hh
  · exact C64_calls_growth_dop853_partial _ realLib_sqrtLaw realLib_powLaw _ default_shrinking _ DOP853_explicit
      (by simp [DOP853, q]) (realLib_powSmall _ (by simp [DOP853, q])) _ hg _ _ _ _ hc _ (by rw [he]; rfl) hh

/-- Non-vacuity: `run` with an event on the forced oscillator `y'' = -y + cos(t)`. -/
example (st : St ℝ 2 0 (FsalAux ℝ 2 5 (RkItp ℝ 2 4))) (hh : 0 < st.h)
    (he : st.f = ![st.y 1, -st.y 0 + Real.cos st.t]) (ts : List ℝ) (bo : BisectOpts ℝ) (argsort : List ℝ → List Nat) :
    Halts ((Call.runEvents ts (some [(⟨fun _ y => y 0, some true, none⟩ : EventSpec ℝ 2)])).exec
      ⟨fsal realLib .default RungeKutta45, pureRhs fun t y => ![y 1, -y 0 + Real.cos t], .inf⟩ bo argsort) st := by
  refine (C64_lipschitz (fun t y => ![y 1, -y 0 + Real.cos t]) (fun y => ?_) 1 (fun t y z => ?_) .inf bo argsort _
    (show Finite (Call.runEvents ts _) from trivial)).2.1 st hh he
  · refine continuous_pi fun i => ?_
    fin_cases i
    · exact continuous_const
    · exact continuous_const.add Real.continuous_cos
  · rw [one_mul]
    refine (pi_norm_le_iff_of_nonneg (norm_nonneg _)).mpr fun i => ?_
    fin_cases i
    · exact norm_le_pi_norm (y - z) 1
    · have : (![y 1, -y 0 + Real.cos t] - ![z 1, -z 0 + Real.cos t]) 1 = -((y - z) 0) := by
        simp; ring
      exact (congrArg norm this).le.trans (by rw [norm_neg]; exact norm_le_pi_norm (y - z) 0)

/-- **C64, refuted** `y' = 6/t` for `t > 0` (and `0` at `t = 0`): the first step of RungeKutta23 from `t = 0` never
ends, whatever the initial step. -/
theorem C64_refuted_singular (h : ℝ) (hh : 0 < h) :
    ¬ Halts (Solver.step ⟨fsal realLib coarse RungeKutta23, timeRhs fun t => 6 / t, .inf⟩ none none)
      (rk23Start (fun t => 6 / t) h) := by
  refine step_hangs trivial ?_
  refine fsalBody_hangs (fun st : St ℝ 1 0 (FsalAux ℝ 1 2 (RkItp ℝ 1 3)) =>
    st.t = 0 ∧ 0 < st.h ∧ timeRhs (fun t => 6 / t) st.t st.y = .ok st.f) ?_ _ ⟨rfl, hh, ?_⟩
  · rintro st ⟨ht, hpos, hf⟩
    have h1 := (fsalFixedStep_ok (I := RkItp ℝ 1 3) _ RungeKutta23_conditions.explicit _ st hf _ _).mpr
      ⟨_, rk23_stages (fun t => 6 / t) st.t st.h st.y, rfl, rfl⟩
    have hn := rk23_norm coarse rfl rfl (fun t => 6 / t) st.t st.h
      (proposal (RungeKutta23 : FsalCoef ℝ 2 3).toTableau st.h st.y (rk23K (fun t => 6 / t) st.t st.h)) st.y
    have e : |st.h * (-5 / 72 * (6 / st.t) + 1 / 12 * (6 / (st.t + st.h / 2)) + 1 / 9 * (6 / (st.t + 3 / 4 * st.h)) -
        1 / 8 * (6 / (st.t + st.h)))| = 41 / 36 := by
      rw [ht]
      have hne := hpos.ne'
      simp only [div_zero, mul_zero, zero_add]
      rw [show st.h * (1 / 12 * (6 / (st.h / 2)) + 1 / 9 * (6 / (3 / 4 * st.h)) - 1 / 8 * (6 / st.h)) = 41 / 36 by
        field_simp; norm_num]
      norm_num
    simp only [e] at hn
    have e2 : (fsalErrNorm realLib coarse (RungeKutta23 : FsalCoef ℝ 2 3).E : ErrNorm ℝ 1 2) =
        rkNorm realLib coarse (RungeKutta23 : FsalCoef ℝ 2 3).E := by
      funext h K y yPrev
      simp only [fsalErrNorm, rkNorm, scaledErrorNorm_eq, stepError_eq]
    have hp : 0 < realLib.pow (41 / 36) (RungeKutta23 : FsalCoef ℝ 2 3).errorExponent :=
      realLib_powLaw.pos _ _ (by norm_num)
    have hu := (stepUpdate_iff realLib coarse (RungeKutta23 : FsalCoef ℝ 2 3).errorExponent (41 / 36) st.h _ false).mpr
      ⟨_, Or.inr ⟨by norm_num, hp.ne', rfl⟩, rfl, by norm_num⟩
    refine ⟨_, _, _, _, h1, ?_, hu, ht, ?_, hf⟩
    · rw [e2]; exact hn
    · refine mul_pos hpos (lt_min ?_ (lt_max_of_lt_left ?_)) <;> simp [coarse, VarOptions.default]
  · rfl

end real

/-! ### NaN -/

section nan
variable {α : Type}
variable [Add α] [Sub α] [Mul α] [Div α] [Neg α] [Zero α] [One α] [NatCast α] [BEq α]
variable [LT α] [DecidableLT α] [LE α] [DecidableLE α]
variable {n s d : Nat}

theorem stageLoop_value {m : Nat} (hm : s + 1 ≤ m) (T : Tableau α s) (g : α → Vec α n → Vec α n) (t h : α)
    (y : Vec α n) (l : List (Fin (s + 1))) (K : Fin m → Vec α n) :
    ∃ K', (stageLoop hm T (fun t y => .ok (g t y)) t h y l).run K = some (.ok (), K') := by
  induction l generalizing K with
  | nil => exact ⟨_, rfl⟩
  | cons i l ih =>
    rw [stageLoop]
    simp only [run_bind, run_get, andThen_ok, run_ofExcept, run_modify]
    exact ih _

theorem foldl_absorbs {nan : α} (h1 : ∀ x : α, nan + x = nan) (h2 : ∀ x : α, x + nan = nan) :
    ∀ (m : Nat) (g : Fin (m + 1) → α), g (Fin.last m) = nan → ∀ a, Fin.foldl (m + 1) (fun acc j => acc + g j) a = nan := by
  intro m g hg a
  rw [Fin.foldl_succ_last, hg, h2]

/-- **C64, refuted** If the right-hand side returns NaN, `step()` of RungeKutta23 and RungeKutta45 (any tableau) hangs:
the error norm is NaN, `NaN < 1` is false, and every attempt is rejected. -/
theorem C64_refuted_nan (lib : Lib α) (o : VarOptions α) (c : FsalCoef α s d) (nan : α)
    (hN : IsNaN lib c.errorExponent nan) (b : Bound α) (st : St α (n + 1) 0 (FsalAux α (n + 1) s (RkItp α (n + 1) d)))
    (hb : Fits b st) :
    ¬ Halts (Solver.step ⟨fsal lib o c, fun _ _ => .ok fun _ => nan, b⟩ none none) st := by
  refine step_hangs hb (fsalBody_hangs (fun _ => True) ?_ st trivial)
  rintro st -
  obtain ⟨K', hK⟩ : ∃ K', (stages (m := s + 2) (by omega) c.toTableau (fun _ _ => .ok fun _ => nan) st.t st.h st.y
      st.f).run st.aux.K = some (.ok (), K') := by
    unfold stages
    simp only [run_bind, run_modify, andThen_ok]
    exact stageLoop_value (by omega) c.toTableau (fun _ _ _ => nan) st.t st.h st.y _ _
  have h1 := fsalFixedStep_run c.toTableau _ st hK
  have hn : ∀ K : Fin (s + 2) → Vec α (n + 1), K (Fin.last _) = (fun _ => nan) → ∀ y yp,
      fsalErrNorm lib o c.E st.h K y yp = .ok nan := by
    intro K hKl y yp
    have e1 : ∀ i, stepError st.h K c.E i = nan := by
      intro i
      simp only [stepError, scale, vdot]
      rw [foldl_absorbs hN.add_left hN.add_right (s + 1) _ (by rw [hKl, hN.mul_right]), hN.mul_right]
    simp only [fsalErrNorm, scaledErrorNorm, e1, hN.div_left, hN.mul_left]
    rw [foldl_absorbs hN.add_left hN.add_right n _ rfl, hN.div_left, hN.sqrt]
  have hu : stepUpdate lib o c.errorExponent nan st.h =
      .ok (st.h * pyMin o.maxFactor (pyMax o.minFactor (o.safetyFactor / nan)), false) := by
    simp only [stepUpdate, hN.ne_zero, hN.pow, pyDiv, hN.not_lt_one]
    rfl
  refine ⟨_, _, nan, _, h1, hn _ ?_ _ _, hu, trivial⟩
  simp

/-- The rational numbers with a NaN, which absorbs every operation and every comparison with it is false. -/
inductive Demo.Fl where
  | num (x : ℚ)
  | nan

namespace Demo.Fl

def lift (f : ℚ → ℚ → ℚ) : Fl → Fl → Fl
  | .num x, .num y => .num (f x y)
  | _, _ => .nan

def rel (r : ℚ → ℚ → Bool) : Fl → Fl → Bool
  | .num x, .num y => r x y
  | _, _ => false

instance : Add Fl := ⟨lift (· + ·)⟩
instance : Sub Fl := ⟨lift (· - ·)⟩
instance : Mul Fl := ⟨lift (· * ·)⟩
instance : Div Fl := ⟨fun x y => if rel (· == ·) y (.num 0) then .nan else lift (· / ·) x y⟩
instance : Neg Fl := ⟨fun x => lift (· - ·) (.num 0) x⟩
instance : Zero Fl := ⟨.num 0⟩
instance : One Fl := ⟨.num 1⟩
instance : NatCast Fl := ⟨fun i => .num i⟩
instance : BEq Fl := ⟨rel (· == ·)⟩
instance : LT Fl := ⟨fun x y => rel (fun a b => decide (a < b)) x y = true⟩
instance : LE Fl := ⟨fun x y => rel (fun a b => decide (a ≤ b)) x y = true⟩
instance : DecidableLT Fl := fun x y => inferInstanceAs (Decidable (rel _ x y = true))
instance : DecidableLE Fl := fun x y => inferInstanceAs (Decidable (rel _ x y = true))

/-- `np.sqrt` and powers that keep NaN. -/
def lib : Lib Fl where
  sqrt := fun x => x
  pow := fun x _ => x
  solve := fun _ v => .ok v

end Demo.Fl

open Demo in
/-- Non-vacuity: there is such an arithmetic, and RungeKutta45 over it hangs on its first step when the right-hand side
returns NaN. -/
example (st : St Fl 1 0 (FsalAux Fl 1 5 (RkItp Fl 1 4))) :
    ¬ Halts (Solver.step ⟨fsal Fl.lib .default RungeKutta45, fun _ _ => .ok fun _ => Fl.nan, .inf⟩ none none) st := by
  refine C64_refuted_nan Fl.lib .default RungeKutta45 Fl.nan ?_ .inf st trivial
  constructor
  · intro x; cases x <;> rfl
  · intro x; cases x <;> rfl
  · intro x; cases x <;> rfl
  · intro x; cases x <;> rfl
  · intro x; show (if _ then _ else _) = _; split <;> rfl
  · rfl
  · rfl
  · rfl
  · show ¬ (false = true); simp

end nan
end Nbkode
