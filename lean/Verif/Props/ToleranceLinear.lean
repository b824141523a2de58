import Verif.Proofs.SharpLinear
import Verif.Props.Tolerance
import Verif.Props.ImplicitSuccess

/-!
# The error follows the tolerance: where the estimate is sharp, and linear systems (C89)
-/

set_option autoImplicit false
set_option linter.unusedSectionVars false

namespace Nbkode
open Py Spec Solver

variable {n s d : ℕ}

/-- C89: when the estimate of RungeKutta23 is sharp. It is enough that the first term of its expansion, a sum over the trees with 3
vertices, does not vanish along the solution. -/
theorem C89_RungeKutta23_sharp (f : ℝ → Vec ℝ n → Vec ℝ n) (y : ℝ → Vec ℝ n) (a b t₀ t₁ : ℝ) (hf : ContDiff ℝ 3 (joint f)) (ha : a < t₀)
    (hb : t₁ < b) (hy : ∀ t ∈ Set.Ioo a b, SolvesAt f y t)
    (hD : PrincipalNonzero (withLast (RungeKutta23 : FsalCoef ℝ 2 3).toTableau) (RungeKutta23 : FsalCoef ℝ 2 3).E 3 f y t₀ t₁) :
    SharpEstimate (RungeKutta23 : FsalCoef ℝ 2 3).toTableau (RungeKutta23 : FsalCoef ℝ 2 3).E 3 f y t₀ t₁ :=
  sharp_of_principal RungeKutta23_conditions.explicit (rows_last RungeKutta23_rows (by norm_num) RungeKutta23_tree) (by norm_num)
    (fun τ hτ => RungeKutta23_tree_estimate τ (Nat.lt_succ_iff.mp hτ)) (fun t _ => hf.contDiffAt)
    (fun t ht => (hy t ⟨ha.trans_le ht.1, ht.2.trans_lt hb⟩).continuousAt) hD

/-- C89: when the estimate of RungeKutta45 is sharp. It is enough that the first term of its expansion, a sum over the trees with 5
vertices, does not vanish along the solution. -/
theorem C89_RungeKutta45_sharp (f : ℝ → Vec ℝ n → Vec ℝ n) (y : ℝ → Vec ℝ n) (a b t₀ t₁ : ℝ) (hf : ContDiff ℝ 5 (joint f)) (ha : a < t₀)
    (hb : t₁ < b) (hy : ∀ t ∈ Set.Ioo a b, SolvesAt f y t)
    (hD : PrincipalNonzero (withLast (RungeKutta45 : FsalCoef ℝ 5 4).toTableau) (RungeKutta45 : FsalCoef ℝ 5 4).E 5 f y t₀ t₁) :
    SharpEstimate (RungeKutta45 : FsalCoef ℝ 5 4).toTableau (RungeKutta45 : FsalCoef ℝ 5 4).E 5 f y t₀ t₁ :=
  sharp_of_principal RungeKutta45_conditions.explicit (rows_last RungeKutta45_rows (by norm_num) RungeKutta45_tree) (by norm_num)
    (fun τ hτ => RungeKutta45_tree_estimate τ (Nat.lt_succ_iff.mp hτ)) (fun t _ => hf.contDiffAt)
    (fun t ht => (hy t ⟨ha.trans_le ht.1, ht.2.trans_lt hb⟩).continuousAt) hD

theorem RungeKutta23_tall : ∑ i, (RungeKutta23 : FsalCoef ℝ 2 3).E i * powOnes (withLast (RungeKutta23 : FsalCoef ℝ 2 3).toTableau).A 2 i ≠ 0 := by
  simp [Fin.sum_univ_succ, powOnes, withLast, RungeKutta23, RungeKutta23B2, fsalE, q]
  norm_num

theorem RungeKutta45_tall : ∑ i, (RungeKutta45 : FsalCoef ℝ 5 4).E i * powOnes (withLast (RungeKutta45 : FsalCoef ℝ 5 4).toTableau).A 4 i ≠ 0 := by
  have h : ∑ i, (RungeKutta45 : FsalCoef ℚ 5 4).E i * powOnes (withLast (RungeKutta45 : FsalCoef ℚ 5 4).toTableau).A 4 i ≠ 0 := by
    decide +kernel
  have hA : ∀ i j, (withLast (RungeKutta45 : FsalCoef ℝ 5 4).toTableau).A i j = (((withLast (RungeKutta45 : FsalCoef ℚ 5 4).toTableau).A i j : ℚ) : ℝ) := by
    intro i j; fin_cases i <;> fin_cases j <;> simp [RungeKutta45, withLast, q]
  have hE : ∀ i, (RungeKutta45 : FsalCoef ℝ 5 4).E i = (((RungeKutta45 : FsalCoef ℚ 5 4).E i : ℚ) : ℝ) := by
    intro i; fin_cases i <;> simp [RungeKutta45, q]
  have hp : ∀ l i, powOnes (withLast (RungeKutta45 : FsalCoef ℝ 5 4).toTableau).A l i =
      ((powOnes (withLast (RungeKutta45 : FsalCoef ℚ 5 4).toTableau).A l i : ℚ) : ℝ) := by
    intro l
    induction l with
    | zero => intro i; simp [powOnes]
    | succ l ih =>
      intro i
      simp only [powOnes]
      push_cast
      exact Finset.sum_congr rfl fun j _ => by rw [hA, ih]
  intro h0
  apply h
  have : ((∑ i, (RungeKutta45 : FsalCoef ℚ 5 4).E i * powOnes (withLast (RungeKutta45 : FsalCoef ℚ 5 4).toTableau).A 4 i : ℚ) : ℝ) = 0 := by
    push_cast
    rw [← h0]
    exact Finset.sum_congr rfl fun i _ => by rw [hE, hp]
  exact_mod_cast this

/-- C89 for linear systems with constant coefficients, RungeKutta23: the error is proportional to the tolerances, without any condition
on the estimate. -/
theorem C89_RungeKutta23_linear {lib : Lib ℝ} (hl : RealFunctions lib) (b : Bound ℝ) :
    ErrorFollowsTolerance (fun o (rhs : Rhs ℝ n) => ⟨fsal lib o RungeKutta23, rhs, b⟩) (fun f _ _ _ => LinearSystem f) 3 :=
  linear_follows (q := 2) (r := 2) hl RungeKutta23_conditions.explicit RungeKutta23_rows
    (rows_last RungeKutta23_rows (by norm_num) RungeKutta23_tree) (by norm_num) RungeKutta23_tree (by simp [RungeKutta23, q]; norm_num)
    RungeKutta23_tree_estimate RungeKutta23_tall b

/-- C89 for linear systems with constant coefficients, RungeKutta45: the error is proportional to the tolerances, without any condition
on the estimate. -/
theorem C89_RungeKutta45_linear {lib : Lib ℝ} (hl : RealFunctions lib) (b : Bound ℝ) :
    ErrorFollowsTolerance (fun o (rhs : Rhs ℝ n) => ⟨fsal lib o RungeKutta45, rhs, b⟩) (fun f _ _ _ => LinearSystem f) 5 :=
  linear_follows (q := 4) (r := 4) hl RungeKutta45_conditions.explicit RungeKutta45_rows
    (rows_last RungeKutta45_rows (by norm_num) RungeKutta45_tree) (by norm_num) RungeKutta45_tree (by simp [RungeKutta45, q]; norm_num)
    RungeKutta45_tree_estimate RungeKutta45_tall b

/-- C89 for linear systems with constant coefficients, RungeKutta23: what `run` returns is within a multiple of the tolerances of the
solution. -/
theorem C89_RungeKutta23_run_linear {lib : Lib ℝ} (hl : RealFunctions lib) (b : Bound ℝ) :
    RunFollowsTolerance (fun o (rhs : Rhs ℝ n) => ⟨fsal lib o RungeKutta23, rhs, b⟩) (fsalStarts RungeKutta23)
      (fun f _ _ _ => LinearSystem f) 3 :=
  linear_run_follows (q := 2) (r := 2) hl RungeKutta23_conditions.explicit RungeKutta23_rows
    (rows_last RungeKutta23_rows (by norm_num) RungeKutta23_tree) RungeKutta23_ends (by norm_num) RungeKutta23_tree (by norm_num)
    RungeKutta23_dense (by simp [RungeKutta23, q]; norm_num) RungeKutta23_tree_estimate RungeKutta23_tall b

/-- C89 for linear systems with constant coefficients, RungeKutta45: what `run` returns is within a multiple of the tolerances of the
solution. -/
theorem C89_RungeKutta45_run_linear {lib : Lib ℝ} (hl : RealFunctions lib) (b : Bound ℝ) :
    RunFollowsTolerance (fun o (rhs : Rhs ℝ n) => ⟨fsal lib o RungeKutta45, rhs, b⟩) (fsalStarts RungeKutta45)
      (fun f _ _ _ => LinearSystem f) 5 :=
  linear_run_follows (q := 4) (r := 4) hl RungeKutta45_conditions.explicit RungeKutta45_rows
    (rows_last RungeKutta45_rows (by norm_num) RungeKutta45_tree) RungeKutta45_ends (by norm_num) RungeKutta45_tree (by norm_num)
    RungeKutta45_dense (by simp [RungeKutta45, q]; norm_num) RungeKutta45_tree_estimate RungeKutta45_tall b

/-! ### Non-vacuity -/

section concrete
open Demo

theorem relaxation_linear : LinearSystem (n := 1) fun _ v i => 1 - v i :=
  ⟨fun _ _ => -1, fun _ => 1, by funext t v i; fin_cases i; simp; ring⟩

theorem relaxation_solves (t : ℝ) : SolvesAt (n := 1) (fun _ v i => 1 - v i) (fun t _ => 1 - Real.exp (-t)) t := by
  refine hasDerivAt_pi.mpr fun _ => ?_
  have h := ((Real.hasDerivAt_exp (-t)).comp t (hasDerivAt_neg t)).const_sub 1
  refine h.congr_deriv ?_
  simp

theorem relaxation_smooth (k : ℕ) : ContDiff ℝ k (joint (n := 1) fun _ v i => 1 - v i) :=
  contDiff_pi.mpr fun i => contDiff_const.sub ((contDiff_apply ℝ ℝ i).comp contDiff_snd)

/-- `C89_RungeKutta23_sharp` and `C89_RungeKutta45_sharp` for `y' = 1 - y`. -/
example : SharpEstimate (n := 1) (RungeKutta23 : FsalCoef ℝ 2 3).toTableau (RungeKutta23 : FsalCoef ℝ 2 3).E 3 (fun _ v i => 1 - v i)
      (fun t _ => 1 - Real.exp (-t)) 0 1 ∧
    SharpEstimate (n := 1) (RungeKutta45 : FsalCoef ℝ 5 4).toTableau (RungeKutta45 : FsalCoef ℝ 5 4).E 5 (fun _ v i => 1 - v i)
      (fun t _ => 1 - Real.exp (-t)) 0 1 := by
  have e : (fun (_ : ℝ) (v : Vec ℝ 1) (i : Fin 1) => 1 - v i) = affineRhs (fun _ _ => -1) (fun _ => 1) := by
    funext t v i; fin_cases i; simp [affineRhs]; ring
  have hL : ∀ v : Fin 1 → ℝ, matMap (fun _ _ : Fin 1 => (-1 : ℝ)) v = -v := by
    intro v; funext i; fin_cases i; simp [matMap_apply]
  have hp : ∀ (r : ℕ) (v : Fin 1 → ℝ), v ≠ 0 → (matMap (fun _ _ : Fin 1 => (-1 : ℝ)) ^ r) v ≠ 0 := by
    intro r
    induction r with
    | zero => intro v hv; simpa using hv
    | succ r ih =>
      intro v hv
      rw [pow_succ, ContinuousLinearMap.mul_apply, hL]
      exact ih _ (neg_ne_zero.mpr hv)
  have h0 : ∀ (r : ℕ) (t : ℝ), (matMap (fun _ _ : Fin 1 => (-1 : ℝ)) ^ r)
      (matMap (fun _ _ : Fin 1 => (-1 : ℝ)) (fun _ => 1 - Real.exp (-t)) + fun _ => 1) ≠ 0 := by
    intro r t
    refine hp r _ ?_
    rw [hL]
    intro h
    have := congrFun h 0
    simp at this
  refine ⟨C89_RungeKutta23_sharp _ _ (-1) 2 0 1 (relaxation_smooth 3) (by norm_num) (by norm_num) (fun t _ => relaxation_solves t) ?_,
    C89_RungeKutta45_sharp _ _ (-1) 2 0 1 (relaxation_smooth 5) (by norm_num) (by norm_num) (fun t _ => relaxation_solves t) ?_⟩
  · rw [e]
    exact affine_principal _ _ RungeKutta23_tall fun t _ => h0 2 t
  · rw [e]
    exact affine_principal _ _ RungeKutta45_tall fun t _ => h0 4 t

theorem oscillator_linear : LinearSystem (n := 2) fun _ v => ![v 1, -v 0] :=
  ⟨![![0, 1], ![-1, 0]], ![0, 0], by funext t v i; fin_cases i <;> simp [Fin.sum_univ_two]⟩

/-- `C89_RungeKutta23_linear` and `C89_RungeKutta45_linear` for the oscillator `y'' = -y`, and steps exist. -/
example : ∃ C δ τ : ℝ, 0 < δ ∧ 0 < τ ∧ ∀ tol, 0 < tol → tol ≤ τ →
    (∀ (s s' : St ℝ 2 0 (FsalAux ℝ 2 2 (RkItp ℝ 2 3))) l lim, s.t = 0 → s.y = ![0, 1] → s.f = ![1, 0] → 0 < s.h → s.h ≤ δ →
      Path ⟨fsal realLib (tolOptions tol) RungeKutta23, pureRhs fun _ v => ![v 1, -v 0], .inf⟩ lim s l s' →
      ∀ u ∈ l, u.t ≤ 100 → |u.y 0 - Real.sin u.t| ≤ C * tol) ∧
    (∀ (s s' : St ℝ 2 0 (FsalAux ℝ 2 5 (RkItp ℝ 2 4))) l lim, s.t = 0 → s.y = ![0, 1] → s.f = ![1, 0] → 0 < s.h → s.h ≤ δ →
      Path ⟨fsal realLib (tolOptions tol) RungeKutta45, pureRhs fun _ v => ![v 1, -v 0], .inf⟩ lim s l s' →
      ∀ u ∈ l, u.t ≤ 100 → |u.y 0 - Real.sin u.t| ≤ C * tol) ∧
    ∀ s : St ℝ 2 0 (FsalAux ℝ 2 5 (RkItp ℝ 2 4)), s.f = ![s.y 1, -s.y 0] → 0 < s.h →
      ∃ v, Takes ⟨fsal realLib (tolOptions tol) RungeKutta45, pureRhs fun _ v => ![v 1, -v 0], .inf⟩ s v := by
  obtain ⟨C, δ, τ, hδ, hτ, h⟩ := C89_RungeKutta23_linear (n := 2) realLib_real .inf (fun _ v => ![v 1, -v 0])
    (fun t => ![Real.sin t, Real.cos t]) (-1) 101 0 100 10 (oscillator_smooth 3) (by norm_num) (by norm_num)
    (fun t _ => oscillator_solves t) oscillator_linear
  obtain ⟨C', δ', τ', hδ', hτ', h'⟩ := C89_RungeKutta45_linear (n := 2) realLib_real .inf (fun _ v => ![v 1, -v 0])
    (fun t => ![Real.sin t, Real.cos t]) (-1) 101 0 100 10 (oscillator_smooth 5) (by norm_num) (by norm_num)
    (fun t _ => oscillator_solves t) oscillator_linear
  refine ⟨max (C * 2) (C' * 2), min δ δ', min τ τ', lt_min hδ hδ', lt_min hτ hτ', fun tol h0 h1 =>
    ⟨fun s s' l lim e1 e2 e3 e4 e5 hp u hu hut => ?_, fun s s' l lim e1 e2 e3 e4 e5 hp u hu hut => ?_, fun s hs hh => ?_⟩⟩
  · have := h (tolOptions tol) (tolOptions_shrinking h0) (by simp [tolOptions, VarOptions.default]) (h1.trans (min_le_left _ _))
      (h1.trans (min_le_left _ _)) s s' l lim e1 ⟨by rw [e1, e2]; simp, by rw [e2, e3]; simp⟩ e4 (e5.trans (min_le_left _ _)) hp u hu hut 0
    refine le_trans (le_trans this (le_of_eq ?_)) (mul_le_mul_of_nonneg_right (le_max_left (C * 2) (C' * 2)) h0.le)
    simp only [tolOptions]; ring
  · have := h' (tolOptions tol) (tolOptions_shrinking h0) (by simp [tolOptions, VarOptions.default]) (h1.trans (min_le_right _ _))
      (h1.trans (min_le_right _ _)) s s' l lim e1 ⟨by rw [e1, e2]; simp, by rw [e2, e3]; simp⟩ e4 (e5.trans (min_le_right _ _)) hp u hu hut 0
    refine le_trans (le_trans this (le_of_eq ?_)) (mul_le_mul_of_nonneg_right (le_max_right (C * 2) (C' * 2)) h0.le)
    simp only [tolOptions]; ring
  · obtain ⟨v, hv, -⟩ := fsal_takes (tolOptions_shrinking h0) RungeKutta45 (RungeKutta45_conditions (α := ℝ)).explicit
      (by simp [RungeKutta45, q]) .inf (fun _ v => ![v 1, -v 0]) (oscillator_smooth 0).continuous s hs hh
    exact ⟨v, hv⟩

/-- `C89_RungeKutta23_run_linear` for `y' = 1 - y`, `y(0) = 0`: every run for times in `[0, 10]` answers, within a multiple of the tolerance. -/
example (sel : Rhs ℝ 1 → ℝ → Vec ℝ 1 → Vec ℝ 1 → Except Err ℝ) : ∃ C δ τ : ℝ, 0 < δ ∧ 0 < τ ∧ ∀ tol h, 0 < tol → tol ≤ τ → 0 < h → h ≤ δ →
    ∀ (bo : BisectOpts ℝ) (argsort : List ℝ → List Nat) (ts : List ℝ) g K itp, (∀ l, IsArgsort l (argsort l)) → ts ≠ [] →
    (∀ t ∈ ts, 0 ≤ t ∧ t ≤ 10) →
    ∃ s0 out s', fsalInit (RungeKutta23 : FsalCoef ℝ 2 3).P (tolOptions tol) sel g K itp (pureRhs (n := 1) fun _ v i => 1 - v i) 0 (fun _ => 0)
        none (some h) = .ok s0 ∧
      (Solver.run ⟨fsal realLib (tolOptions tol) RungeKutta23, pureRhs fun _ v i => 1 - v i, .inf⟩ bo argsort ts).run s0 = some (.ok out, s') ∧
      out.map Prod.fst = ts ∧ ∀ r ∈ out, |r.2 0 - (1 - Real.exp (-r.1))| ≤ C * tol := by
  obtain ⟨C, δ, τ, hδ, hτ, hC⟩ := C89_RungeKutta23_run_linear (n := 1) realLib_real .inf (fun _ v i => 1 - v i)
    (fun t _ => 1 - Real.exp (-t)) (-1) 12 0 10 11 10 (relaxation_smooth 3) (by norm_num) (by norm_num) (by norm_num)
    (fun t _ => relaxation_solves t) relaxation_linear
  refine ⟨C * 2, δ, τ, hδ, hτ, fun tol h h0 h1 hh hhδ bo argsort ts g K itp hA hne hts => ?_⟩
  obtain ⟨s0, out, s', hi, hsh, hr, ho⟩ := tol_run (RungeKutta23 : FsalCoef ℝ 2 3) RungeKutta23_conditions.explicit (by simp [RungeKutta23, q])
    (fun _ v i => 1 - v i) (fun _ => continuous_const) (fun t y z => by
      rw [one_mul, ← norm_neg]
      apply le_of_eq
      congr 1
      funext i
      show -((1 - y i) - (1 - z i)) = y i - z i
      ring) (fun _ => 0) h0 hh sel bo argsort hA ts hne (fun t ht => (hts t ht).1) g K itp
  refine ⟨s0, out, s', hi, hr, ho, fun r hr' => ?_⟩
  have hst : fsalStarts RungeKutta23 (tolOptions tol) (pureRhs (n := 1) fun _ v i => 1 - v i) 0 (fun _ => 1 - Real.exp (-0)) s0 :=
    ⟨sel, g, K, itp, none, some h, by simpa using hi⟩
  have := hC (tolOptions tol) (tolOptions_shrinking h0) (by simp [tolOptions, VarOptions.default]) h1 h1 bo argsort hA s0 s' ts out hst
    (hsh ▸ hh) (hsh ▸ hhδ) hr r hr' (hts _ (ho ▸ List.mem_map_of_mem hr')).2 0
  refine this.trans (le_of_eq ?_)
  simp only [tolOptions]; ring

/-- `C89_RungeKutta45_run_linear` for `y' = 1 - y`, `y(0) = 0`. -/
example (sel : Rhs ℝ 1 → ℝ → Vec ℝ 1 → Vec ℝ 1 → Except Err ℝ) : ∃ C δ τ : ℝ, 0 < δ ∧ 0 < τ ∧ ∀ tol h, 0 < tol → tol ≤ τ → 0 < h → h ≤ δ →
    ∀ (bo : BisectOpts ℝ) (argsort : List ℝ → List Nat) (ts : List ℝ) g K itp, (∀ l, IsArgsort l (argsort l)) → ts ≠ [] →
    (∀ t ∈ ts, 0 ≤ t ∧ t ≤ 10) →
    ∃ s0 out s', fsalInit (RungeKutta45 : FsalCoef ℝ 5 4).P (tolOptions tol) sel g K itp (pureRhs (n := 1) fun _ v i => 1 - v i) 0 (fun _ => 0)
        none (some h) = .ok s0 ∧
      (Solver.run ⟨fsal realLib (tolOptions tol) RungeKutta45, pureRhs fun _ v i => 1 - v i, .inf⟩ bo argsort ts).run s0 = some (.ok out, s') ∧
      out.map Prod.fst = ts ∧ ∀ r ∈ out, |r.2 0 - (1 - Real.exp (-r.1))| ≤ C * tol := by
  obtain ⟨C, δ, τ, hδ, hτ, hC⟩ := C89_RungeKutta45_run_linear (n := 1) realLib_real .inf (fun _ v i => 1 - v i)
    (fun t _ => 1 - Real.exp (-t)) (-1) 12 0 10 11 10 (relaxation_smooth 5) (by norm_num) (by norm_num) (by norm_num)
    (fun t _ => relaxation_solves t) relaxation_linear
  refine ⟨C * 2, δ, τ, hδ, hτ, fun tol h h0 h1 hh hhδ bo argsort ts g K itp hA hne hts => ?_⟩
  obtain ⟨s0, out, s', hi, hsh, hr, ho⟩ := tol_run (RungeKutta45 : FsalCoef ℝ 5 4) RungeKutta45_conditions.explicit (by simp [RungeKutta45, q])
    (fun _ v i => 1 - v i) (fun _ => continuous_const) (fun t y z => by
      rw [one_mul, ← norm_neg]
      apply le_of_eq
      congr 1
      funext i
      show -((1 - y i) - (1 - z i)) = y i - z i
      ring) (fun _ => 0) h0 hh sel bo argsort hA ts hne (fun t ht => (hts t ht).1) g K itp
  refine ⟨s0, out, s', hi, hr, ho, fun r hr' => ?_⟩
  have hst : fsalStarts RungeKutta45 (tolOptions tol) (pureRhs (n := 1) fun _ v i => 1 - v i) 0 (fun _ => 1 - Real.exp (-0)) s0 :=
    ⟨sel, g, K, itp, none, some h, by simpa using hi⟩
  have := hC (tolOptions tol) (tolOptions_shrinking h0) (by simp [tolOptions, VarOptions.default]) h1 h1 bo argsort hA s0 s' ts out hst
    (hsh ▸ hh) (hsh ▸ hhδ) hr r hr' (hts _ (ho ▸ List.mem_map_of_mem hr')).2 0
  refine this.trans (le_of_eq ?_)
  simp only [tolOptions]; ring

end concrete

end Nbkode
