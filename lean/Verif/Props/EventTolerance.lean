import Verif.Proofs.EventTolerance
import Verif.Props.ToleranceLinear
import Verif.Props.EventError
import Mathlib.Analysis.Complex.ExponentialBounds

/-!
# Event times and tolerance: C92
-/

set_option autoImplicit false
set_option linter.unusedSectionVars false

namespace Nbkode
open Py Spec Solver Topology

variable {n s d : ℕ}

/-- **C92** for `RungeKutta23`: what it records are zeros along the solution, up to the tolerances. -/
theorem C92_RungeKutta23_zeros {lib : Lib ℝ} (hl : RealFunctions lib) (b : Bound ℝ) :
    ZerosFollowTolerance (fun o (rhs : Rhs ℝ n) => ⟨fsal lib o RungeKutta23, rhs, b⟩) (fsalStarts RungeKutta23)
      (SharpEstimate (RungeKutta23 : FsalCoef ℝ 2 3).toTableau (RungeKutta23 : FsalCoef ℝ 2 3).E 3) 3 :=
  zeros_follow_tolerance (q := 2) hl RungeKutta23_conditions.explicit RungeKutta23_rows
    (rows_last RungeKutta23_rows (by norm_num) RungeKutta23_tree) RungeKutta23_ends RungeKutta23_tree (by norm_num) RungeKutta23_dense
    (by simp [RungeKutta23, q]; norm_num) b

/-- **C92** for `RungeKutta23`: it finds the crossings along the solution, up to the tolerances. -/
theorem C92_RungeKutta23_crossings {lib : Lib ℝ} (hl : RealFunctions lib) (b : Bound ℝ) :
    CrossingsFollowTolerance (fun o (rhs : Rhs ℝ n) => ⟨fsal lib o RungeKutta23, rhs, b⟩) (fsalStarts RungeKutta23)
      (SharpEstimate (RungeKutta23 : FsalCoef ℝ 2 3).toTableau (RungeKutta23 : FsalCoef ℝ 2 3).E 3) 3 :=
  crossings_follow_tolerance (q := 2) hl RungeKutta23_conditions.explicit RungeKutta23_rows
    (rows_last RungeKutta23_rows (by norm_num) RungeKutta23_tree) RungeKutta23_ends RungeKutta23_tree (by norm_num) RungeKutta23_dense
    (by simp [RungeKutta23, q]; norm_num) b

/-- **C92** for `RungeKutta45`: what it records are zeros along the solution, up to the tolerances. -/
theorem C92_RungeKutta45_zeros {lib : Lib ℝ} (hl : RealFunctions lib) (b : Bound ℝ) :
    ZerosFollowTolerance (fun o (rhs : Rhs ℝ n) => ⟨fsal lib o RungeKutta45, rhs, b⟩) (fsalStarts RungeKutta45)
      (SharpEstimate (RungeKutta45 : FsalCoef ℝ 5 4).toTableau (RungeKutta45 : FsalCoef ℝ 5 4).E 5) 5 :=
  zeros_follow_tolerance (q := 4) hl RungeKutta45_conditions.explicit RungeKutta45_rows
    (rows_last RungeKutta45_rows (by norm_num) RungeKutta45_tree) RungeKutta45_ends RungeKutta45_tree (by norm_num) RungeKutta45_dense
    (by simp [RungeKutta45, q]; norm_num) b

/-- **C92** for `RungeKutta45`: it finds the crossings along the solution, up to the tolerances. -/
theorem C92_RungeKutta45_crossings {lib : Lib ℝ} (hl : RealFunctions lib) (b : Bound ℝ) :
    CrossingsFollowTolerance (fun o (rhs : Rhs ℝ n) => ⟨fsal lib o RungeKutta45, rhs, b⟩) (fsalStarts RungeKutta45)
      (SharpEstimate (RungeKutta45 : FsalCoef ℝ 5 4).toTableau (RungeKutta45 : FsalCoef ℝ 5 4).E 5) 5 :=
  crossings_follow_tolerance (q := 4) hl RungeKutta45_conditions.explicit RungeKutta45_rows
    (rows_last RungeKutta45_rows (by norm_num) RungeKutta45_tree) RungeKutta45_ends RungeKutta45_tree (by norm_num) RungeKutta45_dense
    (by simp [RungeKutta45, q]; norm_num) b

/-- **C92** for regular linear systems with constant coefficients, `RungeKutta23`: nothing about the estimate need be known. -/
theorem C92_RungeKutta23_linear {lib : Lib ℝ} (hl : RealFunctions lib) (b : Bound ℝ) :
    ZerosFollowTolerance (fun o (rhs : Rhs ℝ n) => ⟨fsal lib o RungeKutta23, rhs, b⟩) (fsalStarts RungeKutta23) MovingLinear 3 ∧
    CrossingsFollowTolerance (fun o (rhs : Rhs ℝ n) => ⟨fsal lib o RungeKutta23, rhs, b⟩) (fsalStarts RungeKutta23) MovingLinear 3 :=
  have h := moving_sharp (n := n) (r := 2) (c := (RungeKutta23 : FsalCoef ℝ 2 3)) RungeKutta23_conditions.explicit
    (rows_last RungeKutta23_rows (by norm_num) RungeKutta23_tree) (by norm_num) RungeKutta23_tree_estimate RungeKutta23_tall
  ⟨zeros_mono h (C92_RungeKutta23_zeros hl b), crossings_mono h (C92_RungeKutta23_crossings hl b)⟩

/-- **C92** for regular linear systems with constant coefficients, `RungeKutta45`: nothing about the estimate need be known. -/
theorem C92_RungeKutta45_linear {lib : Lib ℝ} (hl : RealFunctions lib) (b : Bound ℝ) :
    ZerosFollowTolerance (fun o (rhs : Rhs ℝ n) => ⟨fsal lib o RungeKutta45, rhs, b⟩) (fsalStarts RungeKutta45) MovingLinear 5 ∧
    CrossingsFollowTolerance (fun o (rhs : Rhs ℝ n) => ⟨fsal lib o RungeKutta45, rhs, b⟩) (fsalStarts RungeKutta45) MovingLinear 5 :=
  have h := moving_sharp (n := n) (r := 4) (c := (RungeKutta45 : FsalCoef ℝ 5 4)) RungeKutta45_conditions.explicit
    (rows_last RungeKutta45_rows (by norm_num) RungeKutta45_tree) (by norm_num) RungeKutta45_tree_estimate RungeKutta45_tall
  ⟨zeros_mono h (C92_RungeKutta45_zeros hl b), crossings_mono h (C92_RungeKutta45_crossings hl b)⟩

/-! ### Non-vacuity: `y' = 1 - y`, `y(0) = 0` passes `1/2` at `log 2` -/

section concrete
open Demo

theorem relaxation_moving : MovingLinear (n := 1) (fun _ v i => 1 - v i) (fun t _ => 1 - Real.exp (-t)) 0 2 :=
  ⟨fun _ _ => -1, fun _ => 1, by funext t v i; fin_cases i; simp; ring, fun v hv => by
    funext i; fin_cases i; have := hv 0; simpa using this, fun h => by have := congrFun h 0; simp at this⟩

theorem relaxation_half_slope (t : ℝ) : 0 < (1 : ℝ) * deriv (fun t : ℝ => (1 - Real.exp (-t)) - 1 / 2) t := by
  have h := (((Real.hasDerivAt_exp (-t)).comp t (hasDerivAt_neg t)).const_sub 1).sub_const (1 / 2)
  have h' : HasDerivAt (fun t : ℝ => (1 - Real.exp (-t)) - 1 / 2) (Real.exp (-t)) t := by
    refine h.congr_deriv ?_
    simp
  rw [h'.deriv, one_mul]
  exact Real.exp_pos _

theorem relaxation_half_smooth : ContDiff ℝ 1 (jointEvent (n := 1) fun _ v => v 0 - 1 / 2) := by
  unfold jointEvent
  fun_prop

/-- A run for the time 1, watching `y = 1/2`, from the two halves of C92. -/
theorem relaxation_half_found (c : FsalCoef ℝ s (d + 1)) (hT : Explicit c.toTableau) (hex : 0 < c.errorExponent) {p : ℕ}
    (hz : ZerosFollowTolerance (fun o (rhs : Rhs ℝ 1) => ⟨fsal realLib o c, rhs, .inf⟩) (fsalStarts c) MovingLinear p)
    (hc : CrossingsFollowTolerance (fun o (rhs : Rhs ℝ 1) => ⟨fsal realLib o c, rhs, .inf⟩) (fsalStarts c) MovingLinear p)
    (sel : Rhs ℝ 1 → ℝ → Vec ℝ 1 → Vec ℝ 1 → Except Err ℝ) : ∃ C δ ε : ℝ, 0 < δ ∧ 0 < ε ∧ ∀ tol h, 0 < tol → tol ≤ ε → 0 < h → h ≤ δ →
    ∀ (argsort : List ℝ → List Nat) g K itp, (∀ l, IsArgsort l (argsort l)) →
    ∃ s0 out s' tl, fsalInit c.P (tolOptions tol) sel g K itp (pureRhs (n := 1) fun _ v i => 1 - v i) 0 (fun _ => 0) none (some h) = .ok s0 ∧
      (Solver.runEvents ⟨fsal realLib (tolOptions tol) c, pureRhs fun _ v i => 1 - v i, .inf⟩ .std argsort [1]
        (some [⟨fun _ v => v 0 - 1 / 2, none, some 1⟩])).run s0 = some (.ok out, s') ∧ out.tEvents[0]? = some tl ∧
      (∃ τ ∈ tl, 1 / 2 ≤ τ ∧ τ ≤ 4 / 5) ∧ (∀ τ ∈ tl, 1 / 2 ≤ τ → τ ≤ 4 / 5 → |τ - Real.log 2| ≤ C * (148 / 10 ^ 10 + 2 * tol + 1 / 2 ^ 50)) ∧
      ∀ τ ∈ tl, τ < 1 → |(1 - Real.exp (-τ)) - 1 / 2| ≤ 148 / 10 ^ 10 + C * (2 * tol + 1 / 2 ^ 50) := by
  have hl2 := Real.log_two_gt_d9
  have hl3 := Real.log_two_lt_d9
  obtain ⟨C1, δ1, ε1, hδ1, hε1, h1⟩ := hc (fun _ v i => 1 - v i) (fun t _ => 1 - Real.exp (-t)) (-1) 3 0 1 2 10 (fun _ v => v 0 - 1 / 2)
    (1 / 2) (Real.log 2) (4 / 5) 1 (relaxation_smooth p) (by norm_num) (by norm_num) (by norm_num) (fun t _ => relaxation_solves t)
    relaxation_moving relaxation_half_smooth (by norm_num) (by linarith) (by linarith) (by norm_num)
    (by simp only [Real.exp_neg, Real.exp_log (by norm_num : (0 : ℝ) < 2)]; norm_num) (Or.inl rfl) fun t _ => relaxation_half_slope t
  obtain ⟨C2, δ2, ε2, hδ2, hε2, h2⟩ := hz (fun _ v i => 1 - v i) (fun t _ => 1 - Real.exp (-t)) (-1) 3 0 1 2 10 (fun _ v => v 0 - 1 / 2)
    (relaxation_smooth p) (by norm_num) (by norm_num) (by norm_num) (fun t _ => relaxation_solves t) relaxation_moving relaxation_half_smooth
  refine ⟨max C1 C2, min δ1 δ2, min ε1 ε2, lt_min hδ1 hδ2, lt_min hε1 hε2, fun tol h h0 hε hh hδ argsort g K itp hA => ?_⟩
  obtain ⟨s0, out, s1, hi, hsh, hr, ho⟩ := tol_run c hT hex (fun _ v i => 1 - v i) (fun _ => continuous_const) (fun t y z => by
      rw [one_mul, ← norm_neg]
      apply le_of_eq
      congr 1
      funext i
      show -((1 - y i) - (1 - z i)) = y i - z i
      ring) (fun _ => 0) h0 hh sel .std argsort hA [1] (by simp) (by simp) g K itp
  have hst : fsalStarts c (tolOptions tol) (pureRhs (n := 1) fun _ v i => 1 - v i) 0 (fun _ => 1 - Real.exp (-0)) s0 :=
    ⟨sel, g, K, itp, none, some h, by simpa using hi⟩
  have hsa := fsal_startsAt (n := 1) c realLib (tolOptions tol) .inf
  have htimes := hsa.times _ _ _ _ hst
  have hcon := hsa.constructed _ _ _ _ hst
  have ht0 : s0.t = 0 := htimes _
  set S : Solver ℝ 1 0 (FsalAux ℝ 1 s (RkItp ℝ 1 (d + 1))) := ⟨fsal realLib (tolOptions tol) c, pureRhs fun _ v i => 1 - v i, .inf⟩ with hS
  have hM : WellConfigured S.method := Or.inr ⟨_, _, _, .fsal _, realLib_powLaw, sane_of_shrinking (tolOptions_shrinking h0), hex.le⟩
  have htol : (0 : ℝ) ≤ (BisectOpts.std : BisectOpts ℝ).tol := by
    show (0 : ℝ) ≤ ((148 : Nat) : ℝ) / ((10 ^ 10 : Nat) : ℝ)
    positivity
  have etol : (BisectOpts.std : BisectOpts ℝ).tol = 148 / 10 ^ 10 := by
    show ((148 : Nat) : ℝ) / ((10 ^ 10 : Nat) : ℝ) = _
    norm_num
  have emax : (BisectOpts.std : BisectOpts ℝ).maxiter = 50 := rfl
  have hh' : 0 < s0.h := hsh ▸ hh
  obtain ⟨o, s', g3, g4, g5⟩ := C46_returns_partial S hM .std htol (by decide) argsort hA (fun _ _ => ⟨_, rfl⟩) s0 s0 hcon
    (ordered_of_times htimes) hh' (.start _) [1] (by simp [ht0]) [⟨fun _ v => v 0 - 1 / 2, none, some 1⟩] (by simp) out s1 hr
  have hlen : out.length = 1 := by rw [← List.length_map (f := Prod.fst), ho]; rfl
  have hend : 1 ≤ s1.t := (C79_time S hM .std argsort hA s0 s0 hcon (ordered_of_times htimes) hh' (.start _) [1] 1
    (by simp) (by simp) out s1 hr).mpr hlen
  have e : s'.t = s1.t := by unfold St.t; rw [g5.1]
  obtain ⟨_, -, -, -, -, hlen', -⟩ := C41_records S hM .std htol argsort hA s0 s0 hcon (ordered_of_times htimes) hh' (.start _) [1]
    [⟨fun _ v => v 0 - 1 / 2, none, some 1⟩] (by simp) o s' g3
  have hpos : 0 < o.tEvents.length := by rw [hlen']; simp
  have hmf : (tolOptions tol).maxFactor ≤ 10 := by simp [tolOptions, VarOptions.default]
  have hx1 := h1 (tolOptions tol) (tolOptions_shrinking h0) hmf (hε.trans (min_le_left _ _)) (hε.trans (min_le_left _ _)) .std argsort htol hA
    s0 s' [1] _ o hst hh' (hsh ▸ hδ.trans (min_le_left _ _)) g3 0 _ _ rfl rfl (List.getElem?_eq_getElem hpos)
  have hx2 := h2 (tolOptions tol) (tolOptions_shrinking h0) hmf (hε.trans (min_le_right _ _)) (hε.trans (min_le_right _ _)) .std argsort htol hA
    s0 s' [1] _ o hst hh' (hsh ▸ hδ.trans (min_le_right _ _)) g3 0 _ _ rfl rfl (List.getElem?_eq_getElem hpos)
  rw [etol, emax] at hx1 hx2
  have ea : (tolOptions tol).atol = tol := rfl
  have er : (tolOptions tol).rtol = tol := rfl
  rw [ea, er] at hx1 hx2
  refine ⟨s0, o, s', _, hi, g3, List.getElem?_eq_getElem hpos, hx1.1 (by rw [e]; linarith) (by simp), fun τ hτ k1 k2 => ?_, fun τ hτ k1 => ?_⟩
  · refine (hx1.2 τ hτ k1 k2).trans ((mul_le_mul_of_nonneg_right (le_max_left C1 C2) (by positivity)).trans (le_of_eq ?_))
    ring
  · have k2 := mul_le_mul_of_nonneg_right (le_max_right C1 C2) (by positivity : 0 ≤ tol + tol + 1 / 2 ^ 50)
    have := hx2 τ hτ k1
    rw [two_mul]
    linarith

/-- `C92_RungeKutta23_linear`, and with it `C92_RungeKutta23_zeros` and `C92_RungeKutta23_crossings`. -/
example := relaxation_half_found (RungeKutta23 : FsalCoef ℝ 2 3) RungeKutta23_conditions.explicit (by simp [RungeKutta23, q])
  (C92_RungeKutta23_linear realLib_real .inf).1 (C92_RungeKutta23_linear realLib_real .inf).2

/-- `C92_RungeKutta45_linear`, and with it `C92_RungeKutta45_zeros` and `C92_RungeKutta45_crossings`. -/
example := relaxation_half_found (RungeKutta45 : FsalCoef ℝ 5 4) RungeKutta45_conditions.explicit (by simp [RungeKutta45, q])
  (C92_RungeKutta45_linear realLib_real .inf).1 (C92_RungeKutta45_linear realLib_real .inf).2

end concrete

end Nbkode
