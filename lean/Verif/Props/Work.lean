import Verif.Proofs.Work
import Verif.Props.Tolerance
import Verif.Props.RunLeaves

/-!
# The work follows the tolerance: C90
-/

set_option autoImplicit false
set_option linter.unusedSectionVars false

namespace Nbkode
open Py Spec Solver

variable {n s d : ℕ}

/-- C90 RungeKutta23: the number of steps is at most proportional to `atol^(-1/3)`, and the rejected attempts are at most
proportional to the steps, as long as the computed states stay bounded. -/
theorem C90_RungeKutta23_bounded {lib : Lib ℝ} (hl : RealFunctions lib) (b : Bound ℝ) :
    WorkWhileBounded (n := n) (Attempts lib RungeKutta23 b) 2 :=
  work_while_bounded hl RungeKutta23_conditions.explicit (rows_last RungeKutta23_rows (by norm_num) RungeKutta23_tree)
    (by simp [RungeKutta23, q]; norm_num) RungeKutta23_tree_estimate b

/-- C90 RungeKutta45: the number of steps is at most proportional to `atol^(-1/5)`, and the rejected attempts are at most
proportional to the steps, as long as the computed states stay bounded. -/
theorem C90_RungeKutta45_bounded {lib : Lib ℝ} (hl : RealFunctions lib) (b : Bound ℝ) :
    WorkWhileBounded (n := n) (Attempts lib RungeKutta45 b) 4 :=
  work_while_bounded hl RungeKutta45_conditions.explicit (rows_last RungeKutta45_rows (by norm_num) RungeKutta45_tree)
    (by simp [RungeKutta45, q]; norm_num) RungeKutta45_tree_estimate b

/-- C90 RungeKutta23 for right-hand sides of at most linear growth, without a condition on the computed states. -/
theorem C90_RungeKutta23 {lib : Lib ℝ} (hl : RealFunctions lib) (b : Bound ℝ) :
    WorkFollowsTolerance (n := n) (Attempts lib RungeKutta23 b) 2 :=
  work_follows_tolerance hl RungeKutta23_conditions.explicit (rows_last RungeKutta23_rows (by norm_num) RungeKutta23_tree)
    (by simp [RungeKutta23, q]; norm_num) RungeKutta23_tree_estimate b

/-- C90 RungeKutta45 for right-hand sides of at most linear growth, without a condition on the computed states. -/
theorem C90_RungeKutta45 {lib : Lib ℝ} (hl : RealFunctions lib) (b : Bound ℝ) :
    WorkFollowsTolerance (n := n) (Attempts lib RungeKutta45 b) 4 :=
  work_follows_tolerance hl RungeKutta45_conditions.explicit (rows_last RungeKutta45_rows (by norm_num) RungeKutta45_tree)
    (by simp [RungeKutta45, q]; norm_num) RungeKutta45_tree_estimate b

/-! ### The steps of a run -/

/-- A step makes attempts. -/
theorem takes_attempts {lib : Lib ℝ} {o : VarOptions ℝ} {c : FsalCoef ℝ s d} (hT : Explicit c.toTableau) {b : Bound ℝ}
    {f : ℝ → Vec ℝ n → Vec ℝ n} {u v : St ℝ n 0 (FsalAux ℝ n s (RkItp ℝ n d))} (huf : u.f = f u.t u.y)
    (h : Takes ⟨fsal lib o c, pureRhs f, b⟩ u v) : (∃ l, Attempts lib c b o f u l v) ∧ v.f = f v.t v.y := by
  obtain ⟨l, last, h', K, hTr, hl, rfl⟩ := (fsal_takes_iff lib o c hT (pureRhs f) b u v (congrArg Except.ok huf.symm)).mp h
  refine ⟨⟨l, h, hTr⟩, ?_⟩
  obtain ⟨last', hlast, hK, -⟩ := trail_last hTr
  rw [hl] at hlast
  cases hlast
  simp only [St.f, push_f, St.t, push_t, St.y, push_y]
  have := ((withLast_stages _ _ _ _ _ _).mp hK).2
  exact (Except.ok.inj this).symm

theorem stepsTo_cons {k : ℕ} {X : Type} {att : St ℝ n k X → List (Tried ℝ) → St ℝ n k X → Prop} {T : ℝ} {s v u : St ℝ n k X} {l : List (Tried ℝ)}
    (hlt : s.t < T) (ha : att s l v) {N a : ℕ} (h : StepsTo att T v N a u) : StepsTo att T s (N + 1) (a + l.length) u := by
  induction h with
  | nil =>
    have := StepsTo.step (.nil s) hlt ha
    rwa [Nat.zero_add] at this ⊢
  | @step w z N a l' _ h1 h2 ih =>
    have := StepsTo.step ih h1 h2
    rwa [Nat.add_right_comm a l.length l'.length] at this

theorem stepsTo_mono {k : ℕ} {X : Type} {att : St ℝ n k X → List (Tried ℝ) → St ℝ n k X → Prop} {T T' : ℝ} (hT : T ≤ T') {s u : St ℝ n k X}
    {N a : ℕ} (h : StepsTo att T s N a u) : StepsTo att T' s N a u := by
  induction h with
  | nil => exact .nil _
  | step _ h1 h2 ih => exact .step ih (h1.trans_le hT) h2

theorem reach_stepsTo {lib : Lib ℝ} {o : VarOptions ℝ} {c : FsalCoef ℝ s d} (hT : Explicit c.toTableau) {b : Bound ℝ}
    {f : ℝ → Vec ℝ n → Vec ℝ n} {m : ℝ} {u v : St ℝ n 0 (FsalAux ℝ n s (RkItp ℝ n d))} (huf : u.f = f u.t u.y)
    (h : Reach ⟨fsal lib o c, pureRhs f, b⟩ b m u v) : ∃ N a, StepsTo (Attempts lib c b o f) m u N a v := by
  induction h with
  | here _ => exact ⟨0, 0, .nil _⟩
  | step h1 _ h2 _ ih =>
    obtain ⟨⟨l, hl⟩, hf⟩ := takes_attempts hT huf h2
    obtain ⟨N, a, h3⟩ := ih hf
    exact ⟨_, _, stepsTo_cons h1 hl h3⟩

theorem stuck_stepsTo {lib : Lib ℝ} {o : VarOptions ℝ} {c : FsalCoef ℝ s d} (hT : Explicit c.toTableau) {b : Bound ℝ}
    {f : ℝ → Vec ℝ n → Vec ℝ n} {m : ℝ} {u v : St ℝ n 0 (FsalAux ℝ n s (RkItp ℝ n d))} (huf : u.f = f u.t u.y)
    (h : Stuck ⟨fsal lib o c, pureRhs f, b⟩ b m u v) : ∃ N a, StepsTo (Attempts lib c b o f) m u N a v := by
  induction h with
  | here _ _ => exact ⟨0, 0, .nil _⟩
  | step h1 _ h2 _ ih =>
    obtain ⟨⟨l, hl⟩, hf⟩ := takes_attempts hT huf h2
    obtain ⟨N, a, h3⟩ := ih hf
    exact ⟨_, _, stepsTo_cons h1 hl h3⟩

theorem run_work {lib : Lib ℝ} (hl : RealFunctions lib) {c : FsalCoef ℝ s d} (hT : Explicit c.toTableau) (hex : 0 ≤ c.errorExponent)
    {b : Bound ℝ} {q : ℕ} (hw : WorkFollowsTolerance (n := n) (Attempts lib c b) q) :
    RunWorkFollowsTolerance (fun o (rhs : Rhs ℝ n) => ⟨fsal lib o c, rhs, b⟩) (fsalStarts c) (Attempts lib c b) q := by
  intro f hf hg t₀ T R
  obtain ⟨C, δ, hC, hδ, hw⟩ := hw f hf hg t₀ T R
  refine ⟨C, δ, hC, hδ, fun o ho bo argsort hA y₀ s s' ts m out hs hR hh hm hmax hmT hrun => ?_⟩
  have hS := fsal_startsAt (n := n) c lib o b
  have htimes := hS.times _ _ _ _ hs
  have ht : s.t = t₀ := htimes _
  have hy : s.y = y₀ := hS.y _ _ _ _ hs
  have hsf : s.f = f s.t s.y := by rw [ht, hy]; exact (Except.ok.inj (hS.f _ _ _ _ hs)).symm
  obtain ⟨u, h1, h2, h3⟩ := C79_run ⟨fsal lib o c, pureRhs f, b⟩ (Or.inr ⟨lib, o, _, .fsal _, real_powLaw hl, sane_of_shrinking ho, hex⟩)
    bo argsort hA s s (hS.constructed _ _ _ _ hs) (ordered_of_times htimes) hh (.start s) ts m hm hmax out s' hrun
  obtain ⟨N, a, h4⟩ : ∃ N a, StepsTo (Attempts lib c b o f) m s N a u := by
    rcases h3 with ⟨-, h3⟩ | ⟨-, h3⟩
    · exact reach_stepsTo hT hsf h3
    · exact stuck_stepsTo hT hsf h3
  exact ⟨N, a, u, h4, h1.1, h2, hw o ho s ht hsf (fun d => by rw [hy]; exact hR d) hh N a u (stepsTo_mono hmT h4)⟩

/-- C90 RungeKutta23: the steps and attempts of `run`. -/
theorem C90_RungeKutta23_run {lib : Lib ℝ} (hl : RealFunctions lib) (b : Bound ℝ) :
    RunWorkFollowsTolerance (fun o (rhs : Rhs ℝ n) => ⟨fsal lib o RungeKutta23, rhs, b⟩) (fsalStarts RungeKutta23)
      (Attempts lib RungeKutta23 b) 2 :=
  run_work hl RungeKutta23_conditions.explicit (by simp [RungeKutta23, q]) (C90_RungeKutta23 hl b)

/-- C90 RungeKutta45: the steps and attempts of `run`. -/
theorem C90_RungeKutta45_run {lib : Lib ℝ} (hl : RealFunctions lib) (b : Bound ℝ) :
    RunWorkFollowsTolerance (fun o (rhs : Rhs ℝ n) => ⟨fsal lib o RungeKutta45, rhs, b⟩) (fsalStarts RungeKutta45)
      (Attempts lib RungeKutta45 b) 4 :=
  run_work hl RungeKutta45_conditions.explicit (by simp [RungeKutta45, q]) (C90_RungeKutta45 hl b)

/-! ### Non-vacuity -/

section concrete
open Demo

/-- With positive steps, attempts and steps exist for as long as wanted: `N` steps of RungeKutta23 or 45 on a continuous problem. -/
theorem stepsTo_exists {tol : ℝ} (h0 : 0 < tol) (c : FsalCoef ℝ s d) (hT : Explicit c.toTableau) (hex : 0 ≤ c.errorExponent)
    (f : ℝ → Vec ℝ n → Vec ℝ n) (hf : Continuous fun p : ℝ × Vec ℝ n => f p.1 p.2) (st : St ℝ n 0 (FsalAux ℝ n s (RkItp ℝ n d)))
    (hst : st.f = f st.t st.y) (hh : 0 < st.h) (T : ℝ) (ht : st.t < T) :
    ∃ a u, StepsTo (Attempts realLib c .inf (tolOptions tol) f) T st 1 a u := by
  obtain ⟨v, hv, -⟩ := fsal_takes (tolOptions_shrinking h0) c hT hex .inf f hf st hst hh
  obtain ⟨⟨l, hl⟩, -⟩ := takes_attempts hT hst hv
  exact ⟨_, _, .step (.nil st) ht hl⟩

/-- `C90_RungeKutta23_run` and `C90_RungeKutta45_run` for `y' = y`, `y(0) = 1`: every run for times in `[0, 1]` answers, after at most
`1 + C * tol^(-1/3)` steps (`1 + C * tol^(-1/5)` for RungeKutta45) when the first step is `1`. -/
theorem exp_work {c : FsalCoef ℝ s d} {q : ℕ} (hT : Explicit c.toTableau) (hex : 0 < c.errorExponent)
    (hw : RunWorkFollowsTolerance (n := 1) (fun o rhs => ⟨fsal realLib o c, rhs, .inf⟩) (fsalStarts c) (Attempts realLib c .inf) q)
    (sel : Rhs ℝ 1 → ℝ → Vec ℝ 1 → Vec ℝ 1 → Except Err ℝ) : ∃ A τ : ℝ, 0 < τ ∧ ∀ tol, 0 < tol → tol ≤ τ →
    ∀ (bo : BisectOpts ℝ) (argsort : List ℝ → List Nat) g K itp, (∀ l, IsArgsort l (argsort l)) →
    ∃ s0 out s' N a u, fsalInit c.P (tolOptions tol) sel g K itp (pureRhs (n := 1) fun _ v => v) 0 (fun _ => 1) none
        (some 1) = .ok s0 ∧
      (Solver.run ⟨fsal realLib (tolOptions tol) c, pureRhs fun _ v => v, .inf⟩ bo argsort [1]).run s0 = some (.ok out, s') ∧
      StepsTo (Attempts realLib c .inf (tolOptions tol) fun _ v => v) 1 s0 N a u ∧ s'.cache = u.cache ∧
      (N : ℝ) ≤ 1 + A * (1 / tol) ^ (1 / ((q : ℝ) + 1)) := by
  obtain ⟨C, δ, hC, hδ, h⟩ := hw (fun _ v => v) contDiff_snd (lipschitz_growth _ (fun _ => continuous_const) 1 fun t y z => by rw [one_mul]) 0 1 1
  set ex : ℝ := 1 / ((q : ℝ) + 1) with hexd
  have hex0 : 0 < ex := by positivity
  set w := min 1 (VarOptions.default (α := ℝ).minFactor * δ) with hwd
  have hw0 : 0 < w := lt_min one_pos (mul_pos (tolOptions_shrinking one_pos).minFactor_pos hδ)
  set κ := VarOptions.default (α := ℝ).safetyFactor with hκ
  have hκ0 : 0 < κ := (tolOptions_shrinking one_pos).safety_pos
  -- for small tolerances the third term is the least
  refine ⟨1 / (κ * (1 / C) ^ ex), C * (w / κ) ^ (1 / ex), by positivity, fun tol h0 h1 bo argsort g K itp hA => ?_⟩
  obtain ⟨s0, out, s', hi, hsh, hr, -⟩ := tol_run c hT hex (fun _ v => v) (fun _ => continuous_const) (fun t y z => by rw [one_mul]) (fun _ => 1)
    h0 one_pos sel bo argsort hA [1] (by simp) (by simp) g K itp
  obtain ⟨N, a, u, h2, h3, -, h4, -⟩ := h (tolOptions tol) (tolOptions_shrinking h0) bo argsort hA (fun _ => 1) s0 s' [1] 1 out
    ⟨sel, g, K, itp, none, some 1, hi⟩ (by simp) (by rw [hsh]; exact one_pos) (by simp) (by simp) le_rfl hr
  refine ⟨s0, out, s', N, a, u, hi, hr, h2, h3, h4.trans ?_⟩
  have e1 : κ * (tol / C) ^ ex ≤ w := by
    have : (tol / C) ^ ex ≤ w / κ := by
      calc (tol / C) ^ ex ≤ ((w / κ) ^ (1 / ex)) ^ ex :=
            Real.rpow_le_rpow (by positivity) (by rw [div_le_iff₀ hC, mul_comm]; exact h1) hex0.le
        _ = w / κ := by rw [← Real.rpow_mul (by positivity), one_div_mul_cancel hex0.ne', Real.rpow_one]
    calc κ * (tol / C) ^ ex ≤ κ * (w / κ) := mul_le_mul_of_nonneg_left this hκ0.le
      _ = w := by field_simp
  have e2 : smallest (tolOptions tol) q C δ s0.h = κ * (tol / C) ^ ex := by
    unfold smallest
    rw [hsh]
    change min 1 (min (VarOptions.default (α := ℝ).minFactor * δ) (κ * (tol / C) ^ ex)) = _
    rw [← min_assoc]
    exact min_eq_right e1
  rw [e2, sub_zero, max_eq_right zero_le_one, add_le_add_iff_left, div_eq_mul_inv 1 tol, one_mul,
    Real.inv_rpow h0.le, Real.div_rpow h0.le hC.le, Real.div_rpow zero_le_one hC.le, Real.one_rpow]
  refine le_of_eq ?_
  have := (Real.rpow_pos_of_pos h0 ex).ne'
  have := (Real.rpow_pos_of_pos hC ex).ne'
  field_simp

/-- RungeKutta45 on `y' = y`, `y(0) = 1`, with first step 1: the number of steps to `t = 1` is at most `1 + A * tol^(-1/5)`. -/
example (sel : Rhs ℝ 1 → ℝ → Vec ℝ 1 → Vec ℝ 1 → Except Err ℝ) : ∃ A τ : ℝ, 0 < τ ∧ ∀ tol, 0 < tol → tol ≤ τ →
    ∀ (bo : BisectOpts ℝ) (argsort : List ℝ → List Nat) g K itp, (∀ l, IsArgsort l (argsort l)) →
    ∃ s0 out s' N a u, fsalInit (RungeKutta45 : FsalCoef ℝ 5 4).P (tolOptions tol) sel g K itp (pureRhs (n := 1) fun _ v => v) 0 (fun _ => 1)
        none (some 1) = .ok s0 ∧
      (Solver.run ⟨fsal realLib (tolOptions tol) RungeKutta45, pureRhs fun _ v => v, .inf⟩ bo argsort [1]).run s0 = some (.ok out, s') ∧
      StepsTo (Attempts realLib RungeKutta45 .inf (tolOptions tol) fun _ v => v) 1 s0 N a u ∧ s'.cache = u.cache ∧
      (N : ℝ) ≤ 1 + A * (1 / tol) ^ (1 / 5 : ℝ) := by
  obtain ⟨A, τ, hτ, h⟩ := exp_work (RungeKutta45_conditions (α := ℝ)).explicit (by simp [RungeKutta45, q]) (C90_RungeKutta45_run realLib_real .inf) sel
  rw [show (1 / (((4 : ℕ) : ℝ) + 1)) = 1 / 5 by norm_num] at h
  exact ⟨A, τ, hτ, h⟩

/-- RungeKutta23 on the same problem: at most `1 + A * tol^(-1/3)` steps. -/
example (sel : Rhs ℝ 1 → ℝ → Vec ℝ 1 → Vec ℝ 1 → Except Err ℝ) : ∃ A τ : ℝ, 0 < τ ∧ ∀ tol, 0 < tol → tol ≤ τ →
    ∀ (bo : BisectOpts ℝ) (argsort : List ℝ → List Nat) g K itp, (∀ l, IsArgsort l (argsort l)) →
    ∃ s0 out s' N a u, fsalInit (RungeKutta23 : FsalCoef ℝ 2 3).P (tolOptions tol) sel g K itp (pureRhs (n := 1) fun _ v => v) 0 (fun _ => 1)
        none (some 1) = .ok s0 ∧
      (Solver.run ⟨fsal realLib (tolOptions tol) RungeKutta23, pureRhs fun _ v => v, .inf⟩ bo argsort [1]).run s0 = some (.ok out, s') ∧
      StepsTo (Attempts realLib RungeKutta23 .inf (tolOptions tol) fun _ v => v) 1 s0 N a u ∧ s'.cache = u.cache ∧
      (N : ℝ) ≤ 1 + A * (1 / tol) ^ (1 / 3 : ℝ) := by
  obtain ⟨A, τ, hτ, h⟩ := exp_work (RungeKutta23_conditions (α := ℝ)).explicit (by simp [RungeKutta23, q]) (C90_RungeKutta23_run realLib_real .inf) sel
  rw [show (1 / (((2 : ℕ) : ℝ) + 1)) = 1 / 3 by norm_num] at h
  exact ⟨A, τ, hτ, h⟩

/-- `C90_RungeKutta23_bounded` and `C90_RungeKutta45_bounded` on `y' = y²`, whose solutions may blow up: as long as `|y| ≤ 5` the steps are
affordable; and there are such steps. -/
example : ∃ C δ : ℝ, 0 < C ∧ 0 < δ ∧ ∀ (st : St ℝ 1 0 (FsalAux ℝ 1 5 (RkItp ℝ 1 4))), st.t = 0 → st.y = (fun _ => 1) → st.f = (fun _ => 1) →
    st.h = 1 → (∀ N a u, StepsTo (fun u l v => (∀ i, |u.y i| ≤ 5) ∧ Attempts realLib RungeKutta45 .inf (tolOptions (1 / 10 ^ 6)) (fun _ v i => v i ^ 2)
        u l v) 2 st N a u → Affordable (tolOptions (1 / 10 ^ 6)) 4 C δ 1 0 2 N a) ∧
      ∃ a u, StepsTo (fun u l v => (∀ i, |u.y i| ≤ 5) ∧ Attempts realLib RungeKutta45 .inf (tolOptions (1 / 10 ^ 6)) (fun _ v i => v i ^ 2)
        u l v) 2 st 1 a u := by
  have hf : ContDiff ℝ ⊤ (joint (n := 1) fun _ v i => v i ^ 2) := contDiff_pi.mpr fun i => ((contDiff_apply ℝ ℝ i).comp contDiff_snd).pow 2
  obtain ⟨C, δ, hC, hδ, h⟩ := C90_RungeKutta45_bounded (n := 1) realLib_real .inf (fun _ v i => v i ^ 2) (hf.of_le le_top) 0 2 5
  refine ⟨C, δ, hC, hδ, fun st e1 e2 e3 e4 => ?_⟩
  have e5 : st.f = fun i => st.y i ^ 2 := by rw [e2, e3]; simp
  have h0 : (0 : ℝ) < 1 / 10 ^ 6 := by norm_num
  refine ⟨fun N a u hu => ?_, ?_⟩
  · have := h (tolOptions (1 / 10 ^ 6)) (tolOptions_shrinking h0) st e1 e5 (by rw [e4]; exact one_pos) N a u hu
    rwa [e4] at this
  · obtain ⟨v, hv, -⟩ := fsal_takes (tolOptions_shrinking h0) RungeKutta45 (RungeKutta45_conditions (α := ℝ)).explicit
      (by simp [RungeKutta45, q]) .inf (fun _ v i => v i ^ 2) hf.continuous st e5 (by rw [e4]; exact one_pos)
    obtain ⟨⟨l, hl⟩, -⟩ := takes_attempts (RungeKutta45_conditions (α := ℝ)).explicit e5 hv
    exact ⟨_, _, .step (.nil st) (by rw [e1]; norm_num) ⟨fun i => by rw [e2]; norm_num, hl⟩⟩

example : ∃ C δ : ℝ, 0 < C ∧ 0 < δ ∧ ∀ (st : St ℝ 1 0 (FsalAux ℝ 1 2 (RkItp ℝ 1 3))), st.t = 0 → st.y = (fun _ => 1) → st.f = (fun _ => 1) →
    st.h = 1 → (∀ N a u, StepsTo (fun u l v => (∀ i, |u.y i| ≤ 5) ∧ Attempts realLib RungeKutta23 .inf (tolOptions (1 / 10 ^ 6)) (fun _ v i => v i ^ 2)
        u l v) 2 st N a u → Affordable (tolOptions (1 / 10 ^ 6)) 2 C δ 1 0 2 N a) := by
  have hf : ContDiff ℝ ⊤ (joint (n := 1) fun _ v i => v i ^ 2) := contDiff_pi.mpr fun i => ((contDiff_apply ℝ ℝ i).comp contDiff_snd).pow 2
  obtain ⟨C, δ, hC, hδ, h⟩ := C90_RungeKutta23_bounded (n := 1) realLib_real .inf (fun _ v i => v i ^ 2) (hf.of_le le_top) 0 2 5
  refine ⟨C, δ, hC, hδ, fun st e1 e2 e3 e4 N a u hu => ?_⟩
  have := h (tolOptions (1 / 10 ^ 6)) (tolOptions_shrinking (by norm_num)) st e1 (by rw [e2, e3]; simp) (by rw [e4]; exact one_pos) N a u hu
  rwa [e4] at this

/-- `C90_RungeKutta23` and `C90_RungeKutta45` for `y' = y`, from any state of the solution curve; and there are steps. -/
example : (∃ C δ : ℝ, 0 < C ∧ 0 < δ ∧ ∀ (st : St ℝ 1 0 (FsalAux ℝ 1 2 (RkItp ℝ 1 3))), st.t = 0 → st.y = (fun _ => 1) → st.f = (fun _ => 1) →
      0 < st.h → (∀ N a u, StepsTo (Attempts realLib RungeKutta23 .inf (tolOptions (1 / 10 ^ 6)) fun _ v => v) 1 st N a u →
        Affordable (tolOptions (1 / 10 ^ 6)) 2 C δ st.h 0 1 N a) ∧
      ∃ a u, StepsTo (Attempts realLib RungeKutta23 .inf (tolOptions (1 / 10 ^ 6)) fun _ v => v) 1 st 1 a u) ∧
    ∃ C δ : ℝ, 0 < C ∧ 0 < δ ∧ ∀ (st : St ℝ 1 0 (FsalAux ℝ 1 5 (RkItp ℝ 1 4))), st.t = 0 → st.y = (fun _ => 1) → st.f = (fun _ => 1) →
      0 < st.h → (∀ N a u, StepsTo (Attempts realLib RungeKutta45 .inf (tolOptions (1 / 10 ^ 6)) fun _ v => v) 1 st N a u →
        Affordable (tolOptions (1 / 10 ^ 6)) 4 C δ st.h 0 1 N a) ∧
      ∃ a u, StepsTo (Attempts realLib RungeKutta45 .inf (tolOptions (1 / 10 ^ 6)) fun _ v => v) 1 st 1 a u := by
  have hg : LinearGrowth (pureRhs (n := 1) fun _ v => v) := lipschitz_growth _ (fun _ => continuous_const) 1 fun t y z => by rw [one_mul]
  have h0 : (0 : ℝ) < 1 / 10 ^ 6 := by norm_num
  refine ⟨?_, ?_⟩
  · obtain ⟨C, δ, hC, hδ, h⟩ := C90_RungeKutta23 (n := 1) realLib_real .inf (fun _ v => v) contDiff_snd hg 0 1 1
    refine ⟨C, δ, hC, hδ, fun st e1 e2 e3 e4 => ⟨fun N a u hu => ?_, ?_⟩⟩
    · exact h _ (tolOptions_shrinking h0) st e1 (by rw [e2, e3]) (by rw [e2]; simp) e4 N a u hu
    · exact stepsTo_exists h0 RungeKutta23 (RungeKutta23_conditions (α := ℝ)).explicit (by simp [RungeKutta23, q]) (fun _ v => v) continuous_snd
        st (by rw [e2, e3]) e4 1 (by rw [e1]; norm_num)
  · obtain ⟨C, δ, hC, hδ, h⟩ := C90_RungeKutta45 (n := 1) realLib_real .inf (fun _ v => v) contDiff_snd hg 0 1 1
    refine ⟨C, δ, hC, hδ, fun st e1 e2 e3 e4 => ⟨fun N a u hu => ?_, ?_⟩⟩
    · exact h _ (tolOptions_shrinking h0) st e1 (by rw [e2, e3]) (by rw [e2]; simp) e4 N a u hu
    · exact stepsTo_exists h0 RungeKutta45 (RungeKutta45_conditions (α := ℝ)).explicit (by simp [RungeKutta45, q]) (fun _ v => v) continuous_snd
        st (by rw [e2, e3]) e4 1 (by rw [e1]; norm_num)

end concrete

end Nbkode
