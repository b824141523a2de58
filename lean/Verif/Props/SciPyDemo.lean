import Verif.Props.SciPy
import Verif.Props.VarDemo

/-!
# C99: after a rejected attempt the steps are not SciPy's, and a concrete case where they are
-/

set_option autoImplicit false
set_option linter.unusedSectionVars false

namespace Nbkode
open Py Spec Solver Demo

namespace Demo

theorem coarse_factors : ScipyFactors coarse :=
  ⟨by norm_num [coarse, VarOptions.default], by norm_num [coarse, VarOptions.default], by norm_num [coarse, VarOptions.default]⟩

/-- A step of RungeKutta23 on `y' = g(t)` when `g` vanishes where it is evaluated. -/
theorem idle_step (g : ℝ → ℝ) (st : St ℝ 1 0 (FsalAux ℝ 1 2 (RkItp ℝ 1 3))) (hf : st.f = fun _ => g st.t) (h0 : g st.t = 0)
    (h1 : g (st.t + st.h / 2) = 0) (h2 : g (st.t + 3 / 4 * st.h) = 0) (h3 : g (st.t + st.h) = 0) :
    ∃ st', Takes ⟨fsal realLib coarse RungeKutta23, timeRhs g, .inf⟩ st st' ∧ st'.t = st.t + st.h ∧ st'.h = st.h * 10 ∧ st'.f = fun _ => 0 := by
  refine ⟨_, (fsal_takes_iff realLib coarse RungeKutta23 RungeKutta23_conditions.explicit _ .inf st _
    (by rw [hf]; rfl)).mpr ⟨[⟨st.h, 0⟩], ⟨st.h, 0⟩, _, rk23K g st.t st.h,
      .accept (rk23_stages _ _ _ _) ?_ (Or.inl rfl) (Or.inl ⟨rfl, rfl⟩), rfl, rfl⟩, ?_, ?_, ?_⟩
  · rw [rk23_norm coarse rfl rfl, h0, h1, h2, h3]; simp
  · exact push_t _ _ _ _
  · simp [coarse, VarOptions.default]
  · refine (push_f _ _ _ _).trans ?_
    show (fun _ => g (st.t + st.h)) = _
    rw [h3]

/-- SciPy's step for a step made here. -/
theorem scipy_of_takes {g : ℝ → ℝ} {st st' : St ℝ 1 0 (FsalAux ℝ 1 2 (RkItp ℝ 1 3))} (hf : timeRhs g st.t st.y = .ok st.f) (hh : 0 < st.h)
    (h : Takes ⟨fsal realLib coarse RungeKutta23, timeRhs g, .inf⟩ st st') {size : ℝ} (hs : st'.t = st.t + size) :
    ∃ K, SciPy.Step SciPy.RK23 (SciPy.errorNorm 0 1 SciPy.RK23E) 2 (timeRhs g) .inf st.t st.y false st.h size K
      (if size = st.h then st'.h else min size st'.h) := by
  obtain ⟨e1, e2, e3, -⟩ := C99_registered (n := 1) coarse
  obtain ⟨h0, K, -, -, q2, q3, q4, q5⟩ := C36_accepted realLib coarse RungeKutta23 RungeKutta23_conditions.explicit _ .inf st st' hf h
  have : h0 = size := by linarith
  subst this
  have := (C99_fsal coarse coarse_factors (timeRhs g) .inf RungeKutta23 RungeKutta23_conditions.explicit 2 e3 st hf hh trivial h0 _ K).2
    ⟨st', h, q2, q3, q4, q5, rfl⟩
  rw [e1, e2] at this
  exact ⟨K, this⟩

end Demo

/-- **C99 refuted** after a rejection: on the `y'` of `spiky_step`, with `atol = 1`, `rtol = 0` and `first_step = 1`, the first attempt is
rejected and a step of `1/5` is made. RungeKutta23 then goes on with a step of 2, to `11/5`; SciPy's `RK23` goes on with a step of `1/5`. -/
theorem C99_refuted (sel : Rhs ℝ 1 → ℝ → Vec ℝ 1 → Vec ℝ 1 → Except Err ℝ) (gb : Buffer ℝ 1 0) :
    ∃ st0 st1 st2 : St ℝ 1 0 (FsalAux ℝ 1 2 (RkItp ℝ 1 3)),
      fsalInit (RungeKutta23 : FsalCoef ℝ 2 3).P coarse sel gb (fun _ _ => 0) ⟨fun _ _ => 0, 0⟩ (timeRhs (spike 9000)) 0 (fun _ => 0) none (some 1) =
        .ok st0 ∧
      Path ⟨fsal realLib coarse RungeKutta23, timeRhs (spike 9000), .inf⟩ .inf st0 [st1, st2] st2 ∧ st1.t = 1 / 5 ∧ st2.t = 11 / 5 ∧
      (∃ p1 p2, SciPy.Visits SciPy.RK23 (SciPy.errorNorm 0 1 SciPy.RK23E) 2 (timeRhs (spike 9000)) .inf 0 (fun _ => 0) 1 [p1, p2]) ∧
      ∀ p1 p2, SciPy.Visits SciPy.RK23 (SciPy.errorNorm 0 1 SciPy.RK23E) 2 (timeRhs (spike 9000)) .inf 0 (fun _ => 0) 1 [p1, p2] →
        p1.1 = 1 / 5 ∧ p2.1 = 2 / 5 := by
  obtain ⟨st1, h1, t1, z1⟩ := spiky_step .inf
  have f1 : timeRhs (spike 9000) st1.t st1.y = .ok st1.f := by
    obtain ⟨h0, K, q1, -, q2, q3, q4, -⟩ := C36_accepted realLib coarse RungeKutta23 RungeKutta23_conditions.explicit _ .inf _ _ rfl h1
    rw [q4, ← q1 (Fin.last _), q2]
    show Except.ok _ = Except.ok _
    congr 1
    funext _
    simp [withLast]
  have g1 : st1.f = fun _ => spike 9000 st1.t := (Except.ok.inj f1).symm
  have v1 : spike 9000 st1.t = 0 := by rw [t1]; norm_num [spike]
  obtain ⟨st2, h2, t2, -, -⟩ := idle_step (spike 9000) st1 g1 v1 (by rw [t1, z1]; norm_num [spike]) (by rw [t1, z1]; norm_num [spike])
    (by rw [t1, z1]; norm_num [spike])
  have T23 : Explicit SciPy.RK23 := by
    rw [← (C99_registered (n := 1) coarse).1]
    exact RungeKutta23_conditions.explicit
  obtain ⟨K1, s1⟩ := scipy_of_takes (g := spike 9000) (st := rk23Start (spike 9000) 1) (st' := st1) rfl one_pos h1 (size := 1 / 5)
    (by rw [t1]; exact (zero_add _).symm)
  have n1 : (if (1 / 5 : ℝ) = (rk23Start (spike 9000) 1).h then st1.h else min (1 / 5) st1.h) = 1 / 5 := by
    rw [if_neg (show ¬ (1 / 5 : ℝ) = (rk23Start (spike 9000) 1).h from (by norm_num : ¬ (1 / 5 : ℝ) = 1)), z1]
    norm_num
  rw [n1] at s1
  have s1 : SciPy.Step SciPy.RK23 (SciPy.errorNorm 0 1 SciPy.RK23E) 2 (timeRhs (spike 9000)) .inf 0 (fun _ => 0) false 1 (1 / 5) K1 (1 / 5) := s1
  -- a solver with SciPy's size
  have step2 : ∀ y : Vec ℝ 1, ∃ K next, SciPy.Step SciPy.RK23 (SciPy.errorNorm 0 1 SciPy.RK23E) 2 (timeRhs (spike 9000)) .inf (0 + 1 / 5) y false
      (1 / 5) (1 / 5) K next := by
    intro y
    let u : St ℝ 1 0 (FsalAux ℝ 1 2 (RkItp ℝ 1 3)) :=
      ⟨⟨fun _ => 0 + 1 / 5, fun _ => y, fun _ _ => 0⟩, 1 / 5, ⟨fun _ _ => 0, ⟨fun _ _ => 0, 0⟩⟩⟩
    have hu : u.f = fun _ => spike 9000 u.t := by
      show (fun _ => (0 : ℝ)) = fun _ => spike 9000 (0 + 1 / 5)
      norm_num [spike]
    have e1 : u.t = 0 + 1 / 5 := rfl
    have e2 : u.h = 1 / 5 := rfl
    obtain ⟨u', k1, k2, -, -⟩ := idle_step (spike 9000) u hu (by rw [e1]; norm_num [spike]) (by rw [e1, e2]; norm_num [spike])
      (by rw [e1, e2]; norm_num [spike]) (by rw [e1, e2]; norm_num [spike])
    obtain ⟨K, h⟩ := scipy_of_takes (g := spike 9000) (congrArg Except.ok hu.symm) (by rw [e2]; norm_num) k1 (size := 1 / 5) (by rw [k2, e2])
    exact ⟨K, _, h⟩
  refine ⟨_, st1, st2, rk23Start_init coarse (Or.inl rfl) rfl sel gb _ 1, .cons trivial h1 (.cons trivial h2 (.nil _)), t1, ?_, ?_, ?_⟩
  · rw [t2, t1, z1]; norm_num
  · obtain ⟨K2, next, s2⟩ := step2 (proposal SciPy.RK23 (1 / 5) (fun _ => 0) K1)
    exact ⟨_, _, .step s1 (.step s2 .done)⟩
  · rintro p1 p2 hv
    cases hv with
    | step a1 hv =>
      obtain ⟨rfl, rfl, rfl⟩ := C99_scipy_unique T23 a1 s1
      cases hv with
      | step a2 hv =>
        obtain ⟨K2, next, s2⟩ := step2 (proposal SciPy.RK23 (1 / 5) (fun _ => 0) _)
        obtain ⟨rfl, -, -⟩ := C99_scipy_unique T23 a2 s2
        norm_num

/-- C99: with `y' = 0` no attempt is rejected, and the first two steps, of 1 and 10, are SciPy's. -/
example : ∃ st1 st2, Path ⟨fsal realLib coarse RungeKutta23, timeRhs fun _ => 0, .inf⟩ .inf (rk23Start (fun _ => 0) 1) [st1, st2] st2 ∧
    st2.t = 11 ∧ SciPy.Visits SciPy.RK23 (SciPy.errorNorm 0 1 SciPy.RK23E) 2 (timeRhs fun _ => 0) .inf 0 (fun _ => 0) 1 [(1, st1.y), (11, st2.y)] := by
  obtain ⟨st1, h1, t1, z1, f1⟩ := idle_step (fun _ => 0) (rk23Start (fun _ => 0) 1) rfl rfl rfl rfl rfl
  obtain ⟨st2, h2, t2, -, -⟩ := idle_step (fun _ => 0) st1 f1 rfl rfl rfl rfl
  obtain ⟨e1, e2, e3, -⟩ := C99_registered (n := 1) coarse
  have p := Path.cons (S := ⟨fsal realLib coarse RungeKutta23, timeRhs fun _ => 0, .inf⟩) (b := .inf) trivial h1 (.cons trivial h2 (.nil _))
  have v := C99_session coarse coarse_factors (timeRhs fun _ => 0) .inf RungeKutta23 RungeKutta23_conditions.explicit 2 e3 _ _ rfl one_pos _ p
    (.cons_cons t1 (.cons_cons t2 (.singleton _)))
  have a1 : st1.t = 1 := t1.trans (by show (0 : ℝ) + 1 = 1; norm_num)
  have a2 : st2.t = 11 := by rw [t2, a1, z1]; show (1 : ℝ) + 1 * 10 = 11; norm_num
  rw [e1, e2] at v
  refine ⟨st1, st2, p, a2, ?_⟩
  have e : List.map record [st1, st2] = [(1, st1.y), (11, st2.y)] := by simp [record, a1, a2]
  rw [e] at v
  exact v

/-- C99: between the points. RungeKutta23 on `y' = t` after one step to `t = 1`; the answer at `t = 1/2` is that of SciPy's dense output. -/
example (sel : Rhs ℝ 1 → ℝ → Vec ℝ 1 → Vec ℝ 1 → Except Err ℝ) (g : Buffer ℝ 1 0) : ∃ st K r st',
    LastStages (RungeKutta23 : FsalCoef ℝ 2 3).toTableau (timeRhs fun t => t) st.cache K ∧
    (Solver.interpolate Demo.rk23 (1 / 2)).run st = some (.ok r, st') ∧
    r.deref st.cache = SciPy.dense SciPy.RK23P 0 1 (st.cache.ys (Buffer.iPrev 0)) K (1 / 2) := by
  obtain ⟨st, h1, h2, h3⟩ := Demo.rk23_step
  have hs := Demo.clean_step (bo := ⟨1, 1, 1⟩) (argsort := fun _ => []) (.start _) (by trivial) h1
  obtain ⟨K, h4, h5⟩ := C99_dense coarse coarse_factors _ .inf RungeKutta23 RungeKutta23_conditions.explicit (by simp [RungeKutta23, q]) _ _ sel g _ _ 0 _
    none (some 1) _ st (rk23Start_init coarse (Or.inl rfl) rfl sel g (fun t => t) 1) (one_pos (α := ℝ)) hs (by rw [h3, h2]; exact one_pos)
  obtain ⟨r, st', h6, h7⟩ := h5 (1 / 2) (by rw [h3]; norm_num) (by rw [h2]; norm_num)
  rw [h3, h2, C99_registered_dense.1] at h7
  exact ⟨st, K, r, st', h4, h6, h7⟩

/-- C99: DOP853 on a pulse. -/
example (sel : Rhs ℝ 1 → ℝ → Vec ℝ 1 → Vec ℝ 1 → Except Err ℝ) (g : Buffer ℝ 1 0) (K : Fin 13 → Vec ℝ 1) (itp : DopItp ℝ 1) :
    ∃ s0 st size next, Takes Demo.dop s0 st ∧ SciPy.Step (DOP853 : DopCoef ℝ).toTableau (SciPy.errorNorm853 0 1 (DOP853 : DopCoef ℝ).E3 (DOP853 : DopCoef ℝ).E5)
      7 (timeRhs Demo.pulse) .inf s0.t s0.y false s0.h size st.aux.K next := by
  obtain ⟨s0, hi, hh, ht, -, hf⟩ := Demo.dop_init sel g K itp
  obtain ⟨st, h1, h2, h3⟩ := Demo.dop_step s0 hh ht hf
  have hf' : timeRhs Demo.pulse s0.t s0.y = .ok s0.f := by rw [hf, ht]; simp [timeRhs, pureRhs, Demo.pulse]
  obtain ⟨size, next, h4, -⟩ := C99_dop853 coarse coarse_factors _ .inf DOP853 DOP853_explicit 7 (C99_registered (n := 1) coarse).2.2.2.2.2.2.1 s0 st hf'
    (by rw [hh]; exact one_pos) trivial h1
  exact ⟨s0, st, size, next, h1, h4⟩

end Nbkode
