import Verif.Spec.Equilibria
import Verif.Props.Adaptive
import Verif.Props.MultistepOrders
import Verif.Props.Orders
import Verif.Proofs.Construct

/-!
# Equilibria stay put: C40
-/

set_option autoImplicit false
set_option linter.unusedSectionVars false

namespace Nbkode
open Py Spec Solver

variable {α : Type} [Field α] [LinearOrder α] [IsStrictOrderedRing α] [BEq α] [LawfulBEq α]
variable {n k p s : Nat} {X : Type}

theorem resting_push {y : Vec α n} {st : St α n k X} (h : Resting y st) (t h' : α) (x : X) :
    Resting y (⟨st.cache.push t y (fun _ => 0), h', x⟩ : St α n k X) := by
  intro i
  by_cases hi : i.val + 1 < k + 2
  · simp only [Buffer.push, shiftIn, hi, dif_pos]
    exact h _
  · simp only [Buffer.push, shiftIn, hi, dif_neg, not_false_eq_true]
    simp

theorem resting_f {y : Vec α n} {st : St α n k X} (h : Resting y st) :
    (zeroRhs : Rhs α n) st.t st.y = .ok st.f := by
  have : st.f = fun _ => 0 := (h _).2
  rw [this]; rfl

/-- A formula that is exact on constants keeps rest. -/
theorem defect_rest {c : MultistepCoef α p} (hc : ExactOnPolynomials c 0) {y : Vec α n}
    {st : St α n (histExtra p) Unit} (h : Resting y st) (y' : Vec α n) :
    defect c st.cache st.h y' (fun _ => 0) = 0 ↔ y' = y := by
  have h0 := conditions_of_exact hc 0 (le_refl _)
  simp only [OrderCondition, pow_zero, mul_one, Nat.cast_zero, zero_mul] at h0
  have e : ∀ d, defect c st.cache st.h y' (fun _ => 0) d = y' d - y d := by
    intro d
    simp only [defect]
    have e1 : ∀ i : Fin (p + 1), ago st.cache.ys i d = y d := fun i => congrFun (h _).1 d
    have e2 : ∀ i : Fin (p + 1), ago st.cache.fs i d = 0 := fun i => congrFun (h _).2 d
    simp only [e1, e2, mul_zero, Finset.sum_const_zero, add_zero, ← Finset.sum_mul, sub_zero]
    linear_combination y d * h0
  constructor
  · intro hz
    funext d
    have := e d
    rw [hz] at this
    exact (sub_eq_zero.mp this.symm)
  · rintro rfl
    funext d
    rw [e d]; simp

/-- **C40**, explicit multistep methods. -/
theorem C40_explicit (c : MultistepCoef α p) (hb : c.Bn = 0) (hc : ExactOnPolynomials c 0) :
    KeepsRest (explicitMultistep c : Method α n _ _) := by
  intro b y st h
  refine ⟨_, (explicit_takes_iff c hb zeroRhs b st _).mpr
    ⟨y, fun _ => 0, (defect_rest hc h y).mpr rfl, rfl, rfl⟩, resting_push h _ _ _⟩

/-- **C40**, implicit multistep methods, scalar problems and systems. -/
theorem C40_implicit (lib : Lib α) (hq : lib.sqrt 0 = 0) (zo : ZeroOpts α) (he : 0 < zo.secantEps)
    (ht : 0 ≤ zo.tol) (hr : 0 ≤ zo.rtol) (c : MultistepCoef α p) (hc : ExactOnPolynomials c 0) :
    KeepsRest (implicitMultistep lib zo c : Method α n _ _) := by
  intro b y st h
  by_cases hn : n = 1
  · subst hn
    obtain ⟨y', f', rfl, h1, h2⟩ := linear_exact lib zo he ht hr c 0 (fun _ => 0) b st (by simp)
    simp only [zero_mul, add_zero] at h1 h2
    rw [defect_rest hc h] at h2
    subst h2
    exact ⟨_, h1, resting_push h _ _ _⟩
  · have hy : st.y = y := (h _).1
    have hd := (defect_rest hc h y).mpr rfl
    rw [residual_eq] at hd
    have hroot : implicitRoot zeroRhs (st.t + st.h) (st.h * c.Bn) (multistepK c st.cache st.h) y =
        .ok 0 := by
      simp only [implicitRoot, zeroRhs, pureRhs, bind, Except.bind, pure, Except.pure]
      rw [← hd]
    refine ⟨⟨st.cache.push (st.t + st.h) y (fun _ => 0), st.h, ()⟩, ?_, resting_push h _ _ _⟩
    unfold Takes
    change (implicitMultistepBody lib zo c zeroRhs).run st = _
    rw [implicitMultistepBody_run, implicitSolve, dif_neg hn, hy]
    have : newtonHd lib zo.jacEps (implicitRoot zeroRhs (st.t + st.h) (st.h * c.Bn)
        (multistepK c st.cache st.h)) y zo.tol zo.rtol 50 = .ok y := by
      unfold newtonHd newtonHdImpl
      simp only [hroot, bind, Except.bind]
      rw [newtonHdLoop.eq_1, norm2_eq, if_pos]
      · rfl
      · have : euclid lib (0 : Vec α n) = 0 := by simp [euclid, hq]
        rw [isclose_iff, this]; simpa using ht
    rw [this]
    rfl

theorem stages_rest (T : Tableau α s) (t h : α) (y : Vec α n) :
    RKStages T zeroRhs t h y (fun _ _ => 0) := fun _ => rfl

theorem rkNew_rest (T : Tableau α s) (h : α) (y : Vec α n) : rkNew T h y (fun _ _ => 0) = y := by
  funext d; simp [rkNew]

/-- **C40**, fixed-step Runge-Kutta methods. -/
theorem C40_erk (T : Tableau α s) (hT : Explicit T) : KeepsRest (erk T : Method α n _ _) := by
  intro b y st h
  have hy : st.y = y := (h _).1
  refine ⟨_, (erk_takes_iff T hT zeroRhs b st _ (resting_f h)).mpr
    ⟨fun _ _ => 0, fun _ => 0, stages_rest T _ _ _, rfl, rfl⟩, ?_⟩
  rw [rkNew_rest, hy]
  exact resting_push h _ _ _

/-- **C40**, RungeKutta23/45-like methods. The hypotheses on the tolerances exclude `0 / 0` in the error norm, which
is NaN in the code (and `0` in the model). -/
theorem C40_fsal {d : Nat} (lib : Lib α) (hq : lib.sqrt 0 = 0) (o : VarOptions α) (_ha : 0 < o.atol)
    (_hr : 0 ≤ o.rtol) (c : FsalCoef α s d) (hT : Explicit c.toTableau) :
    KeepsRest (fsal lib o c : Method α n _ _) := by
  intro b y st h
  have hy : st.y = y := (h _).1
  have hp : proposal c.toTableau st.h st.y (fun _ _ => 0) = y := by
    unfold proposal; rw [rkNew_rest, hy]
  refine ⟨_, (fsal_takes_iff lib o c hT zeroRhs b st _ (resting_f h)).mpr
    ⟨[⟨st.h, 0⟩], ⟨st.h, 0⟩, st.h * o.maxFactor, fun _ _ => 0,
      .accept (stages_rest _ _ _ _) ?_ (Or.inl rfl) (Or.inl ⟨rfl, rfl⟩), rfl, rfl⟩, ?_⟩
  · simp [rkNorm, rmsError, hq]
  · simp only [hp]
    exact resting_push h _ _ _

/-- The coefficient table of DOP853 is explicit. -/
theorem DOP853_explicit : Explicit (DOP853 : DopCoef α).toTableau where
  upper := by
    intro i j h
    fin_cases i <;> fin_cases j <;> first | rfl | exact absurd h (by decide)
  first := rfl

/-- **C40 refuted** for `DOP853`: on `y' = 0`, from any state, the step does not succeed: it raises
`ZeroDivisionError` and the history stays as it is. -/
theorem C40_dop853_refuted (lib : Lib α) (hq : lib.sqrt 0 = 0) (o : VarOptions α) (c : DopCoef α)
    (hT : Explicit c.toTableau) (y : Vec α n) (st : St α n 0 (FsalAux α n 11 (DopItp α n)))
    (h : Resting y st) :
    ∃ st', ((dop853 lib o c).body zeroRhs).run st = some (.error .zeroDivisionError, st') ∧
      st'.cache = st.cache := by
  obtain ⟨K, hK⟩ : ∃ K : Fin 13 → Vec α n, K = fun _ _ => 0 := ⟨_, rfl⟩
  have h1 := (fsalFixedStep_ok (I := DopItp α n) c.toTableau hT zeroRhs st (resting_f h) _ _).mpr
    ⟨fun _ _ => 0, stages_rest _ _ _ _, rfl, rfl⟩
  refine ⟨{ st with aux := { st.aux with K := fun _ _ => 0 } }, ?_, rfl⟩
  show (fsalBody lib o c.errorExponent c.toTableau (dopErrNorm lib o c.E3 c.E5) zeroRhs).run st = _
  rw [fsalBody.eq_1]
  simp only [run_bind, h1, andThen_ok, run_get, run_ofExcept, dopErrNorm_eq]
  have : (dopNorm lib o c.E3 c.E5 : ErrNorm α n 11) st.h (fun _ _ => 0)
      (proposal c.toTableau st.h st.y fun _ _ => 0) st.cache.y = .error .zeroDivisionError := by
    simp [dopNorm, rmsError, hq]
  rw [this]
  rfl

/-- **C40**, all the registered methods but `DOP853`. -/
theorem C40_registered_partial (lib : Lib α) (hq : lib.sqrt 0 = 0) (zo : ZeroOpts α)
    (he : 0 < zo.secantEps) (ht : 0 ≤ zo.tol) (hr : 0 ≤ zo.rtol) (o : VarOptions α)
    (ha : 0 < o.atol) (hro : 0 ≤ o.rtol) :
    KeepsRest (explicitMultistep ForwardEuler : Method α n _ _) ∧
    KeepsRest (explicitMultistep AdamsBashforth1 : Method α n _ _) ∧
    KeepsRest (explicitMultistep AdamsBashforth2 : Method α n _ _) ∧
    KeepsRest (explicitMultistep AdamsBashforth3 : Method α n _ _) ∧
    KeepsRest (explicitMultistep AdamsBashforth4 : Method α n _ _) ∧
    KeepsRest (explicitMultistep AdamsBashforth5 : Method α n _ _) ∧
    KeepsRest (implicitMultistep lib zo BackwardEuler : Method α n _ _) ∧
    KeepsRest (implicitMultistep lib zo AdamsMoulton1 : Method α n _ _) ∧
    KeepsRest (implicitMultistep lib zo AdamsMoulton2 : Method α n _ _) ∧
    KeepsRest (implicitMultistep lib zo AdamsMoulton3 : Method α n _ _) ∧
    KeepsRest (implicitMultistep lib zo AdamsMoulton4 : Method α n _ _) ∧
    KeepsRest (implicitMultistep lib zo AdamsMoulton5 : Method α n _ _) ∧
    KeepsRest (implicitMultistep lib zo BDF1 : Method α n _ _) ∧
    KeepsRest (implicitMultistep lib zo BDF2 : Method α n _ _) ∧
    KeepsRest (implicitMultistep lib zo BDF3 : Method α n _ _) ∧
    KeepsRest (implicitMultistep lib zo BDF4 : Method α n _ _) ∧
    KeepsRest (implicitMultistep lib zo BDF5 : Method α n _ _) ∧
    KeepsRest (implicitMultistep lib zo BDF6 : Method α n _ _) ∧
    KeepsRest (erk Runge2 : Method α n _ _) ∧
    KeepsRest (erk Runge3 : Method α n _ _) ∧
    KeepsRest (erk Heun3 : Method α n _ _) ∧
    KeepsRest (erk RungeKutta4 : Method α n _ _) ∧
    KeepsRest (erk RungeKutta3_8 : Method α n _ _) ∧
    KeepsRest (fsal lib o RungeKutta23 : Method α n _ _) ∧
    KeepsRest (fsal lib o RungeKutta45 : Method α n _ _) := by
  have weaken : ∀ {p m : Nat} {c : MultistepCoef α p}, ExactOnPolynomials c m → ExactOnPolynomials c 0 :=
    fun h y hy => h y (hy.trans (Nat.zero_le _))
  have E : ∀ {p m : Nat} {c : MultistepCoef α p}, c.Bn = 0 → ExactOnPolynomials c m →
      KeepsRest (explicitMultistep c : Method α n _ _) := fun hb h => C40_explicit _ hb (weaken h)
  have I : ∀ {p m : Nat} {c : MultistepCoef α p}, ExactOnPolynomials c m →
      KeepsRest (implicitMultistep lib zo c : Method α n _ _) :=
    fun h => C40_implicit lib hq zo he ht hr _ (weaken h)
  exact ⟨E rfl C29_AB1, E rfl C29_AB1, E rfl C29_AB2_partial, E rfl C29_AB3_partial,
    E rfl C29_AB4_partial, E rfl C29_AB5_partial, I C30_AM1, I C30_AM1, I C30_AM2, I C30_AM3,
    I C30_AM4_partial, I C30_AM5_partial, I C31_BDF1, I C31_BDF2, I C31_BDF3, I C31_BDF4, I C31_BDF5,
    I C31_BDF6, C40_erk _ Runge2_conditions.explicit, C40_erk _ Runge3_conditions.explicit,
    C40_erk _ Heun3_conditions.explicit, C40_erk _ RungeKutta4_conditions.explicit,
    C40_erk _ RungeKutta3_8_conditions.explicit,
    C40_fsal lib hq o ha hro _ RungeKutta23_conditions.explicit,
    C40_fsal lib hq o ha hro _ RungeKutta45_conditions.explicit⟩

/-- A newly built solver rests. -/
theorem C40_initial (g : Buffer α n k) (aux : X) (t0 : α) (y0 : Vec α n) (h : Option α) :
    ∃ st, solverInit g aux zeroRhs t0 y0 h = .ok st ∧ Resting y0 st :=
  ⟨_, rfl, fun i => ⟨init_ys _ _ _ _ i, init_fs _ _ _ _ i⟩⟩

/-- From rest, `step(n=m)` without bound succeeds and returns the resting state `m` times. -/
theorem C40_steps (M : Method α n k X) (hM : KeepsRest M) (y : Vec α n) (st : St α n k X)
    (h : Resting y st) (m : Nat) :
    ∃ out st', (Solver.step ⟨M, zeroRhs, .inf⟩ (some (m : Int)) none).run st =
        some (.ok (.arrays out), st') ∧ Resting y st' ∧ out.length = m ∧ ∀ q ∈ out, q.2 = y := by
  have key : ∀ (m : Nat) (st : St α n k X), Resting y st → ∃ l st',
      Path ⟨M, zeroRhs, .inf⟩ .inf st l st' ∧ Resting y st' ∧ l.length = m ∧
      ∀ q ∈ l.map record, q.2 = y := by
    intro m
    induction m with
    | zero => intro st h; exact ⟨[], st, .nil _, h, rfl, by simp⟩
    | succ m ih =>
      intro st h
      obtain ⟨s1, h1, h2⟩ := hM .inf y st h
      obtain ⟨l, s2, h3, h4, h5, h6⟩ := ih s1 h2
      refine ⟨s1 :: l, s2, .cons trivial h1 h3, h4, by simp [h5], ?_⟩
      intro q hq
      rcases List.mem_cons.mp hq with rfl | hq
      · exact (h2 _).1
      · exact h6 q hq
  obtain ⟨l, s', h1, h2, h3, h4⟩ := key m st h
  refine ⟨l.map record, s', ?_, h2, by simpa using h3, h4⟩
  rw [step_n_run, nstepsLoop_ok.mpr ⟨l, h1, rfl, Or.inl ⟨rfl, h3⟩⟩]
  rfl

-- C40: `RungeKutta4` and `BackwardEuler`, newly built at `y0 = 7` with `h = 1/2`, answer `step(n=3)` with `7, 7, 7`.
example (g : Buffer ℝ 1 0) : ∃ (s0 s1 : St ℝ 1 0 (ErkAux ℝ 1 3)) (out : List (ℝ × Vec ℝ 1)),
    solverInit g (fun _ _ => 0) zeroRhs 0 (fun _ => 7) (some (1 / 2)) = .ok s0 ∧
    (Solver.step ⟨erk RungeKutta4, zeroRhs, .inf⟩ (some 3) none).run s0 = some (.ok (.arrays out), s1) ∧
    out.length = 3 ∧ ∀ q ∈ out, q.2 = fun _ => 7 := by
  obtain ⟨s0, h1, h2⟩ := C40_initial g (fun _ _ => 0 : ErkAux ℝ 1 3) 0 (fun _ => 7) (some (1 / 2))
  obtain ⟨out, s1, h3, -, h4, h5⟩ := C40_steps _ (C40_erk RungeKutta4 RungeKutta4_conditions.explicit) _ s0 h2 3
  exact ⟨s0, s1, out, h1, h3, h4, h5⟩

example (g : Buffer ℝ 1 0) : ∃ (s0 s1 : St ℝ 1 (histExtra 0) Unit) (out : List (ℝ × Vec ℝ 1)),
    solverInit g () zeroRhs 0 (fun _ => 7) (some (1 / 2)) = .ok s0 ∧
    (Solver.step ⟨implicitMultistep Demo.realLib Demo.realZeros BackwardEuler, zeroRhs, .inf⟩ (some 3) none).run s0 =
      some (.ok (.arrays out), s1) ∧ out.length = 3 ∧ ∀ q ∈ out, q.2 = fun _ => 7 := by
  obtain ⟨s0, h1, h2⟩ := C40_initial g () 0 (fun _ => 7) (some (1 / 2))
  obtain ⟨out, s1, h3, -, h4, h5⟩ := C40_steps _ (C40_implicit Demo.realLib Demo.realLib_sqrt_zero Demo.realZeros
    (by norm_num [Demo.realZeros]) (by norm_num [Demo.realZeros]) (by norm_num [Demo.realZeros]) BackwardEuler
    (fun y hy => C30_AM1 y (hy.trans (Nat.zero_le _)))) _ s0 h2 3
  exact ⟨s0, s1, out, h1, h3, h4, h5⟩

end Nbkode
