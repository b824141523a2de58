import Verif.Props.Failures

/-!
# C64: a run past the blow-up of the solution never ends
-/

set_option autoImplicit false
set_option linter.unusedSectionVars false

namespace Nbkode
open Py Spec Solver Demo

/-- `y' = y²` in one dimension. -/
def Demo.square : ℝ → Vec ℝ 1 → Vec ℝ 1 := fun _ y i => y i ^ 2

/-- A step of RungeKutta23 on `y' = y²` from `y ≥ 1`: it ends at most at `6 / y` after its start, at least at `y (1 + h y)`. -/
theorem square_step (b : Bound ℝ) (st st' : St ℝ 1 0 (FsalAux ℝ 1 2 (RkItp ℝ 1 3))) (hf : st.f = square st.t st.y)
    (hy : 1 ≤ st.y 0) (hh : 0 < st.h) (h : Takes ⟨fsal realLib .default RungeKutta23, pureRhs square, b⟩ st st') :
    st'.f = square st'.t st'.y ∧ 0 < st'.h ∧ st.t < st'.t ∧ (st'.t - st.t) * st.y 0 ≤ 6 ∧
      st.y 0 * (1 + (st'.t - st.t) * st.y 0) ≤ st'.y 0 := by
  obtain ⟨l, last, h', K, hTr, hl1, rfl⟩ :=
    (fsal_takes_iff realLib .default RungeKutta23 RungeKutta23_conditions.explicit _ b st st' (by rw [hf]; rfl)).mp h
  obtain ⟨last', hl', hK, hn, ha⟩ := trail_last hTr
  rw [hl1] at hl'; cases hl'
  obtain ⟨-, hpos, hh'⟩ := C37_rejections_shrink _ _ realLib_powLaw default_sane _ (by simp [RungeKutta23, q]) _ _ _ _ _ _ _ hh _ _ hTr
  have hx := hpos last (List.mem_of_getLast? hl1)
  obtain ⟨x, en⟩ := last
  simp only at hx hK hn ha ⊢
  simp only [St.t, St.y, St.f, push_t, push_y, push_f]
  change 1 ≤ st.cache.y 0 at hy
  have hn := Except.ok.inj hn
  unfold rmsError at hn
  change Real.sqrt _ = en at hn
  simp only [Finset.univ_unique, Finset.sum_singleton, Nat.cast_one, div_one, Real.sqrt_sq_eq_abs, Fin.default_eq_zero] at hn
  have k0 := congrFun (Except.ok.inj (hK 0)) 0
  have k1 := congrFun (Except.ok.inj (hK 1)) 0
  have k2 := congrFun (Except.ok.inj (hK 2)) 0
  have k3 := congrFun (Except.ok.inj (hK 3)) 0
  have hfin := hK (Fin.last _)
  have hp : proposal (RungeKutta23 : FsalCoef ℝ 2 3).toTableau x st.y K 0 =
      st.y 0 + x * (2 / 9 * K 0 0 + 1 / 3 * K 1 0 + 4 / 9 * K 2 0) := by
    unfold proposal rkNew
    simp [RungeKutta23, q, Fin.sum_univ_succ]
    left; ring
  simp [square, withLast, RungeKutta23, q, Fin.sum_univ_succ] at k0 k1 k2 k3
  have hE : ∑ j, (RungeKutta23 : FsalCoef ℝ 2 3).E j * K j 0 =
      -5 / 72 * K 0 0 + 1 / 12 * K 1 0 + 1 / 9 * K 2 0 - 1 / 8 * K 3 0 := by
    simp [RungeKutta23, fsalE, q, RungeKutta23B2, Fin.sum_univ_succ]; ring
  rw [hE, hp] at hn
  have ek : K (Fin.last (2 + 1)) = square (st.cache.t + x) (proposal (RungeKutta23 : FsalCoef ℝ 2 3).toTableau x st.cache.y K) := by
    funext i
    have hi : i = 0 := Subsingleton.elim _ _
    subst hi
    show K 3 0 = proposal (RungeKutta23 : FsalCoef ℝ 2 3).toTableau x st.y K 0 ^ 2
    rw [hp, ← k3]
    ring
  refine ⟨ek, hh', by linarith, ?_⟩
  have e1 : proposal (RungeKutta23 : FsalCoef ℝ 2 3).toTableau x st.cache.y K 0 =
      proposal (RungeKutta23 : FsalCoef ℝ 2 3).toTableau x st.y K 0 := rfl
  rw [e1, hp, add_sub_cancel_left]
  have e2 : st.cache.y 0 = st.y 0 := rfl
  rw [e2] at hy ⊢
  have hd : (VarOptions.default : VarOptions ℝ).atol = 1 / 1000000 ∧ (VarOptions.default : VarOptions ℝ).rtol = 1 / 1000 := by
    constructor <;> simp [VarOptions.default] <;> norm_num
  rw [hd.1, hd.2] at hn
  clear ek e1 e2 hp hE hfin hK hTr hl1 h hpos hf hh
  generalize K 0 0 = a at *
  generalize K 1 0 = c at *
  generalize K 2 0 = d at *
  generalize K 3 0 = e at *
  generalize st.y 0 = y at *
  subst k0
  have hc : y ^ 2 ≤ c := by rw [← k1]; exact pow_le_pow_left₀ (by linarith) (by nlinarith [mul_pos hx (pow_pos (by linarith : 0 < y) 2)]) 2
  have hd' : y ^ 2 ≤ d := by
    rw [← k2]; exact pow_le_pow_left₀ (by linarith) (by nlinarith [mul_pos hx (lt_of_lt_of_le (pow_pos (by linarith : 0 < y) 2) hc)]) 2
  obtain ⟨yN, hN⟩ : ∃ yN, yN = y + x * (2 / 9 * y ^ 2 + 1 / 3 * c + 4 / 9 * d) := ⟨_, rfl⟩
  have hNe : yN ^ 2 = e := by rw [hN, ← k3]; ring
  rw [← hN] at hn ⊢
  have hgrow : y * (1 + x * y) ≤ yN := by
    rw [hN]
    have := mul_le_mul_of_nonneg_left (by linarith : y ^ 2 ≤ 2 / 9 * y ^ 2 + 1 / 3 * c + 4 / 9 * d) hx.le
    nlinarith
  refine ⟨?_, hgrow⟩
  have hNy : y ≤ yN := by nlinarith [mul_pos hx (pow_pos (by linarith : 0 < y) 2)]
  rw [abs_of_pos (by linarith : 0 < yN), abs_of_pos (by linarith : 0 < y), max_eq_left hNy] at hn
  by_contra hz
  push Not at hz
  have hen : |(x * (-5 / 72 * y ^ 2 + 1 / 12 * c + 1 / 9 * d - 1 / 8 * e)) / (1 / 1000000 + 1 / 1000 * yN)| < 1 := by
    rw [hn]; rcases ha with ha | ha <;> linarith
  have hyN : 0 < yN := by linarith
  rw [abs_div, abs_of_pos (a := 1 / 1000000 + 1 / 1000 * yN) (by linarith), div_lt_one (by positivity)] at hen
  have h1 := neg_abs_le (x * (-5 / 72 * y ^ 2 + 1 / 12 * c + 1 / 9 * d - 1 / 8 * e))
  have h2 : x * (1 / 12 * c + 1 / 9 * d) ≤ yN / 4 := by
    rw [hN]
    nlinarith [mul_pos hx (pow_pos (by linarith : 0 < y) 2)]
  have h3 : 6 * yN ≤ x * yN ^ 2 := by
    have : 6 ≤ x * yN := by nlinarith
    nlinarith
  rw [← hNe] at h1 hen
  nlinarith [mul_pos hx (pow_pos (by linarith : 0 < y) 2)]

theorem Demo.square_continuous : Continuous fun p : ℝ × Vec ℝ 1 => square p.1 p.2 := by
  unfold square; fun_prop

/-- **C64, refuted** Not even smooth right-hand sides are safe: on `y' = y²`, whose solution from `(t, y)` with `y ≥ 1` ceases to exist
at `t + 1/y`, a run of RungeKutta23 (default options) to any time from `t + 7/y` on never ends. -/
theorem C64_refuted_blowup (st : St ℝ 1 0 (FsalAux ℝ 1 2 (RkItp ℝ 1 3))) (hf : st.f = square st.t st.y) (hy : 1 ≤ st.y 0)
    (hh : 0 < st.h) (ho : Ordered st) (tEnd : ℝ) (ht : st.t + 7 / st.y 0 ≤ tEnd) (bo : BisectOpts ℝ) (argsort : List ℝ → List Nat)
    (hA : ∀ l, IsArgsort l (argsort l)) :
    ¬ Halts (Solver.run ⟨fsal realLib .default RungeKutta23, pureRhs square, .inf⟩ bo argsort [tEnd]) st := by
  intro hH
  have hy0 : 0 < 7 / st.y 0 := by positivity
  have hW : WellConfigured (fsal realLib .default (RungeKutta23 : FsalCoef ℝ 2 3) : Method ℝ 1 0 _) :=
    Or.inr ⟨realLib, .default, _, .fsal _, realLib_powLaw, default_sane, by simp [RungeKutta23, q]⟩
  obtain ⟨out, s', hr, hout⟩ := C69_answers ⟨fsal realLib .default RungeKutta23, pureRhs square, .inf⟩ hW
    (.fsal _ _ _ realLib_powLaw realLib_sqrtLaw) rfl (fun e ⟨t, y, h⟩ => by cases h) bo argsort hA [tEnd] (by simp) st ho hh
    (by
      intro x hx
      rw [List.mem_singleton] at hx
      subst hx
      exact ⟨le_trans (ho 0 _ (Fin.zero_le _)) (by show st.t ≤ x; linarith), trivial⟩) hH
  obtain ⟨-, -, out1, h1, hcase⟩ := run_ok hW.library.shaped bo hA hr
  have hsort : isSorted [tEnd] = true := (isSorted_iff _).mpr (List.pairwise_singleton _ _)
  have e : sortedTimes argsort [tEnd] = [tEnd] := by unfold sortedTimes; rw [if_pos hsort]
  rcases hcase with ⟨-, rfl⟩ | ⟨h2, -⟩
  · rw [e, runEval_cons, andThen_eq_ok] at h1
    obtain ⟨c, s1, h2, h3⟩ := h1
    cases c with
    | false => simp at h3; obtain ⟨⟨⟩, -⟩ := h3; simp at hout
    | true =>
      have hR := advance_true.mp h2
      clear h2 h3 hH hr
      clear ho hy0
      induction hR with
      | @here s hge =>
        apply hge
        have : 0 < 7 / s.y 0 := by positivity
        linarith
      | @step s s1 s2 hlt hfit htk hR ih =>
        obtain ⟨g1, g2, g3, g4, g5⟩ := square_step .inf s s1 hf hy hh htk
        have hz : 0 < (s1.t - s.t) * s.y 0 := mul_pos (by linarith) (by linarith)
        refine ih g1 (by nlinarith) g2 ?_
        refine le_trans ?_ ht
        obtain ⟨z, hzd⟩ : ∃ z, z = (s1.t - s.t) * s.y 0 := ⟨_, rfl⟩
        rw [← hzd] at hz g4 g5
        have hs0 : 0 < s.y 0 := by linarith
        have e1 : s1.t = s.t + z / s.y 0 := by rw [hzd]; field_simp; ring
        have e2 : 7 / s1.y 0 ≤ 7 / (s.y 0 * (1 + z)) := div_le_div_of_nonneg_left (by norm_num) (by positivity) g5
        have e3 : z / s.y 0 + 7 / (s.y 0 * (1 + z)) ≤ 7 / s.y 0 := by
          rw [div_add_div _ _ hs0.ne' (by positivity), div_le_div_iff₀ (by positivity) hs0]
          nlinarith [mul_nonneg hz.le (sub_nonneg.mpr g4), mul_pos hs0 hs0]
        linarith
  · rw [hsort] at h2; cases h2

/-- Non-vacuity: `run([7])` from `y(0) = 1`. -/
example (bo : BisectOpts ℝ) (argsort : List ℝ → List Nat) (hA : ∀ l, IsArgsort l (argsort l)) :
    ¬ Halts (Solver.run ⟨fsal realLib .default RungeKutta23, pureRhs square, .inf⟩ bo argsort [7])
      (⟨⟨fun _ => 0, fun _ _ => 1, fun _ _ => 1⟩, 1 / 10, ⟨fun _ _ => 0, ⟨fun _ _ => 0, 0⟩⟩⟩ :
        St ℝ 1 0 (FsalAux ℝ 1 2 (RkItp ℝ 1 3))) := by
  refine C64_refuted_blowup _ ?_ ?_ ?_ ?_ 7 ?_ bo argsort hA
  · funext i; simp [square, St.f, St.y, Buffer.f, Buffer.y]
  · simp [St.y, Buffer.y]
  · norm_num
  · simp [Ordered, St.t, Buffer.t]
  · simp [St.t, St.y, Buffer.t, Buffer.y]

end Nbkode
