import Verif.Proofs.SciPy
import Verif.Props.Options
import Verif.Props.DenseOutput

/-!
# C99: the steps are those of SciPy's solvers
-/

set_option autoImplicit false
set_option linter.unusedSectionVars false

namespace Nbkode
open Py Spec Solver Demo

variable {n s d : Nat}

theorem stages_determined {T : Tableau ℝ s} (hT : Explicit T) {f : Rhs ℝ n} {t h : ℝ} {y : Vec ℝ n} {K K' : Fin (s + 2) → Vec ℝ n}
    (hK : RKStages (withLast T) f t h y K) (hK' : RKStages (withLast T) f t h y K') : K = K' := by
  have up : ∀ i j, i ≤ j → (withLast T).A i j = 0 := by
    intro i j hij
    simp only [withLast]
    split
    next hj =>
      rw [dif_pos (show i.val < s + 1 from lt_of_le_of_lt hij hj)]
      exact hT.upper _ _ hij
    · rfl
  have key : ∀ m, ∀ i : Fin (s + 2), i.val = m → K i = K' i := by
    intro m
    induction m using Nat.strong_induction_on with
    | _ m ih =>
      intro i hi
      have e := hK i
      have e' := hK' i
      have : (fun d => y d + h * ∑ j, (withLast T).A i j * K j d) = fun d => y d + h * ∑ j, (withLast T).A i j * K' j d := by
        funext d
        congr 2
        refine Finset.sum_congr rfl fun j _ => ?_
        by_cases hj : i ≤ j
        · rw [up i j hj]; simp
        · rw [ih j.val (hi ▸ not_le.1 hj) j rfl]
      rw [this] at e
      exact Except.ok.inj (e.symm.trans e')
  funext i
  exact key _ i rfl

/-- SciPy's steps are determined: two steps from the same point with the same size are the same. -/
theorem C99_scipy_unique {T : Tableau ℝ s} (hT : Explicit T) {nrm : SciPy.Norm n s} {order : ℕ} {f : Rhs ℝ n} {b : Bound ℝ} {t : ℝ} {y : Vec ℝ n}
    {rejected : Bool} {h size next size' next' : ℝ} {K K' : Fin (s + 2) → Vec ℝ n} (h1 : SciPy.Step T nrm order f b t y rejected h size K next)
    (h2 : SciPy.Step T nrm order f b t y rejected h size' K' next') : size = size' ∧ K = K' ∧ next = next' := by
  induction h1 with
  | accept hs hK he hlt hq =>
    cases h2 with
    | accept hs' hK' he' hlt' hq' =>
      cases hs.trans hs'.symm
      cases stages_determined hT hK hK'
      cases he.trans he'.symm
      cases hq.trans hq'.symm
      exact ⟨rfl, rfl, rfl⟩
    | reject hs' hK' he' hge' h' =>
      cases hs.trans hs'.symm
      cases stages_determined hT hK hK'
      cases he.trans he'.symm
      exact absurd hlt hge'
  | reject hs hK he hge h ih =>
    cases h2 with
    | accept hs' hK' he' hlt' hq' =>
      cases hs.trans hs'.symm
      cases stages_determined hT hK hK'
      cases he.trans he'.symm
      exact absurd hlt' hge
    | reject hs' hK' he' hge' h' =>
      cases hs.trans hs'.symm
      cases stages_determined hT hK hK'
      cases he.trans he'.symm
      exact ih h'

/-- The step-size control of SciPy, which has no options: `MIN_FACTOR`, `MAX_FACTOR`, `SAFETY`. These are the defaults here. -/
structure ScipyFactors (o : VarOptions ℝ) : Prop where
  min : o.minFactor = 1 / 5
  max : o.maxFactor = 10
  safety : o.safetyFactor = 9 / 10

variable (o : VarOptions ℝ) (ho : ScipyFactors o) (rhs : Rhs ℝ n) (b : Bound ℝ)

include ho

/-- **C99**, one step of RungeKutta23/45-like solvers with a positive size that fits below `t_bound`: it succeeds exactly when SciPy's does,
after the same attempts, with the same stages and the same new point. The size kept for the next step is the same too if no attempt was
rejected; otherwise SciPy limits it to the size of the step made. -/
theorem C99_fsal (c : FsalCoef ℝ s d) (hT : Explicit c.toTableau) (order : ℕ) (hex : c.errorExponent = 1 / ((order : ℝ) + 1))
    (st : St ℝ n 0 (FsalAux ℝ n s (RkItp ℝ n d))) (hf : rhs st.t st.y = .ok st.f) (hh : 0 < st.h) (hb : Fits b st) (size next : ℝ)
    (K : Fin (s + 2) → Vec ℝ n) :
    SciPy.Step c.toTableau (SciPy.errorNorm o.rtol o.atol c.E) order rhs b st.t st.y false st.h size K next ↔
      ∃ st', Takes ⟨fsal realLib o c, rhs, b⟩ st st' ∧ st'.t = st.t + size ∧ st'.y = proposal c.toTableau size st.y K ∧
        st'.f = K (Fin.last _) ∧ st'.aux.K = K ∧ next = if size = st.h then st'.h else min size st'.h := by
  have hb : b.exceededBy (st.t + st.h) = false := (notBeyond_iff _ _).1 hb
  have e : ∀ size h', nextOf false st.h size h' = if size = st.h then h' else min size h' := by intro size h'; simp [nextOf]
  constructor
  · intro h
    obtain ⟨l, h', en, k1, k2, k3, -⟩ := step_trail ho.min ho.max ho.safety (fsal_norm o c.E) h hh hb
    refine ⟨_, (fsal_takes_iff realLib o c hT rhs b st _ hf).mpr ⟨l, ⟨size, en⟩, h', K, by rw [hex]; exact k1, k2, rfl⟩, ?_, ?_, ?_, rfl, k3.trans (e _ _)⟩
    · exact push_t _ _ _ _
    · exact push_y _ _ _ _
    · exact push_f _ _ _ _
  · rintro ⟨st', h1, h2, h3, h4, h5, h6⟩
    obtain ⟨l, last, h', K', k1, k2, rfl⟩ := (fsal_takes_iff realLib o c hT rhs b st st' hf).mp h1
    rw [hex] at k1
    obtain ⟨last', m1, m2, -⟩ := trail_step ho.min ho.max ho.safety (b := b)
      (fun h K yN y en he => ⟨(Except.ok.inj ((fsal_norm o c.E h K yN y).1.symm.trans he)).symm,
        (Except.ok.inj ((fsal_norm o c.E h K yN y).1.symm.trans he)) ▸ (fsal_norm o c.E h K yN y).2⟩) k1 hh hb false
    cases k2.symm.trans m1
    have hs : last.size = size := by
      have e1 : st.t + last.size = st.t + size := (push_t _ _ _ _).symm.trans h2
      linarith
    have hK : K' = K := h5
    subst hs hK
    rw [h6, ← e]
    exact m2

/-- **C99**, one step of DOP853-like solvers: a step that succeeds is SciPy's. (It may raise where SciPy's succeeds, see C40.) -/
theorem C99_dop853 (c : DopCoef ℝ) (hT : Explicit c.toTableau) (order : ℕ) (hex : c.errorExponent = 1 / ((order : ℝ) + 1))
    (st st' : St ℝ n 0 (FsalAux ℝ n 11 (DopItp ℝ n))) (hf : rhs st.t st.y = .ok st.f) (hh : 0 < st.h) (hb : Fits b st)
    (h : Takes ⟨dop853 realLib o c, rhs, b⟩ st st') :
    ∃ size next, SciPy.Step c.toTableau (SciPy.errorNorm853 o.rtol o.atol c.E3 c.E5) order rhs b st.t st.y false st.h size st'.aux.K next ∧
      st'.t = st.t + size ∧ st'.y = proposal c.toTableau size st.y st'.aux.K ∧ st'.f = st'.aux.K (Fin.last _) ∧
      next = if size = st.h then st'.h else min size st'.h := by
  have hb : b.exceededBy (st.t + st.h) = false := (notBeyond_iff _ _).1 hb
  obtain ⟨l, last, h', K, k1, k2, rfl⟩ := (dop853_takes_iff realLib o c hT rhs b st st' hf).mp h
  rw [hex] at k1
  obtain ⟨last', m1, m2, -⟩ := trail_step ho.min ho.max ho.safety (b := b) (dop_norm o c.E3 c.E5) k1 hh hb false
  cases k2.symm.trans m1
  refine ⟨last.size, _, m2, push_t _ _ _ _, push_y _ _ _ _, push_f _ _ _ _, by simp [nextOf]⟩

/-- **C99**, any number of steps: as long as no attempt is rejected, the points visited are those of SciPy's solver. -/
theorem C99_session (c : FsalCoef ℝ s d) (hT : Explicit c.toTableau) (order : ℕ) (hex : c.errorExponent = 1 / ((order : ℝ) + 1))
    (st st' : St ℝ n 0 (FsalAux ℝ n s (RkItp ℝ n d))) (hf : rhs st.t st.y = .ok st.f) (hh : 0 < st.h)
    (l : List (St ℝ n 0 (FsalAux ℝ n s (RkItp ℝ n d)))) (hp : Path ⟨fsal realLib o c, rhs, b⟩ b st l st')
    (hr : List.IsChain (fun u v : St ℝ n 0 (FsalAux ℝ n s (RkItp ℝ n d)) => v.t = u.t + u.h) (st :: l)) :
    SciPy.Visits c.toTableau (SciPy.errorNorm o.rtol o.atol c.E) order rhs b st.t st.y st.h (l.map record) := by
  induction hp with
  | nil => exact .done
  | @cons u v w l hfit htk hp ih =>
    obtain ⟨h0, K, q1, -, q2, q3, q4, q5⟩ := C36_accepted realLib o c hT rhs b u v hf htk
    have hv : v.t = u.t + u.h := (List.isChain_cons_cons.1 hr).1
    have hs : h0 = u.h := by linarith
    subst hs
    have hvf : rhs v.t v.y = .ok v.f := by
      have e := q1 (Fin.last _)
      rw [q2, q3, q4, ← e]
      congr 1
      · simp [withLast]
      · funext dd
        simp only [proposal, rkNew]
        congr 2
        rw [Fin.sum_univ_castSucc (n := s + 1)]
        simp only [withLast, Fin.val_last, lt_irrefl, dif_neg, not_false_eq_true, zero_mul, add_zero]
        refine Finset.sum_congr rfl fun j _ => ?_
        simp only [Fin.val_castSucc, dif_pos j.isLt]
    have hvh : 0 < v.h := by
      obtain ⟨l', last, h', K', k1, k2, rfl⟩ := (fsal_takes_iff realLib o c hT rhs b u v hf).mp htk
      exact (C37_rejections_shrink realLib o realLib_powLaw ⟨by rw [ho.min]; norm_num, by rw [ho.min]; norm_num, by rw [ho.max]; norm_num,
        by rw [ho.safety]; norm_num⟩ _ (by rw [hex]; positivity) _ _ _ _ _ _ _ hh _ _ k1).2.2
    have hstep := (C99_fsal o ho rhs b c hT order hex u hf hh hfit u.h v.h K).2 ⟨v, htk, q2, q3, q4, q5, by simp⟩
    have hrest := ih hvf hvh (List.isChain_cons_cons.1 hr).2
    rw [q2, q3] at hrest
    have : record v = (u.t + u.h, proposal c.toTableau u.h u.y K) := by rw [record, q2, q3]
    rw [List.map_cons, this]
    exact .step hstep hrest

omit ho in
/-- **C99**: the coefficients of RungeKutta23 and RungeKutta45 are SciPy's (the error coefficients of RungeKutta23 with the other sign), the
orders of the error estimates are, and with them the error norms. The default options have SciPy's factors and tolerances. -/
theorem C99_registered :
    (RungeKutta23 : FsalCoef ℝ 2 3).toTableau = SciPy.RK23 ∧
    (SciPy.errorNorm o.rtol o.atol (RungeKutta23 : FsalCoef ℝ 2 3).E : SciPy.Norm n 2) = SciPy.errorNorm o.rtol o.atol SciPy.RK23E ∧
    (RungeKutta23 : FsalCoef ℝ 2 3).errorExponent = 1 / (((2 : ℕ) : ℝ) + 1) ∧
    (RungeKutta45 : FsalCoef ℝ 5 4).toTableau = SciPy.RK45 ∧
    (RungeKutta45 : FsalCoef ℝ 5 4).E = SciPy.RK45E ∧
    (RungeKutta45 : FsalCoef ℝ 5 4).errorExponent = 1 / (((4 : ℕ) : ℝ) + 1) ∧
    (DOP853 : DopCoef ℝ).errorExponent = 1 / (((7 : ℕ) : ℝ) + 1) ∧
    ScipyFactors (VarOptions.default : VarOptions ℝ) ∧ (VarOptions.default : VarOptions ℝ).rtol = 1 / 1000 ∧
    (VarOptions.default : VarOptions ℝ).atol = 1 / 1000000 := by
  refine ⟨?_, ?_, ?_, ?_, ?_, ?_, ?_, ⟨?_, ?_, ?_⟩, ?_, ?_⟩
  · show Tableau.mk _ _ _ = Tableau.mk _ _ _
    congr 1
    · funext i j; fin_cases i <;> fin_cases j <;> norm_num [RungeKutta23, q]
    · funext i; fin_cases i <;> norm_num [RungeKutta23, q]
    · funext i; fin_cases i <;> norm_num [RungeKutta23, q]
  · have e : (RungeKutta23 : FsalCoef ℝ 2 3).E = fun j => -SciPy.RK23E j := by
      funext j; fin_cases j <;> norm_num [RungeKutta23, q, fsalE, RungeKutta23B2, SciPy.RK23E]
    rw [e]
    funext h K yN y
    unfold SciPy.errorNorm SciPy.norm
    congr 2
    refine Finset.sum_congr rfl fun i _ => ?_
    simp only [mul_neg, Finset.sum_neg_distrib, neg_mul, neg_div, neg_sq]
  · norm_num [RungeKutta23, q]
  · show Tableau.mk _ _ _ = Tableau.mk _ _ _
    congr 1
    · funext i j; fin_cases i <;> fin_cases j <;> norm_num [RungeKutta45, q]
    · funext i; fin_cases i <;> norm_num [RungeKutta45, q]
    · funext i; fin_cases i <;> norm_num [RungeKutta45, q]
  · funext j; fin_cases j <;> norm_num [RungeKutta45, q, SciPy.RK45E]
  · norm_num [RungeKutta45, q]
  · norm_num [DOP853, q]
  all_goals norm_num [VarOptions.default]

/-- **C99**, between the points: after any history of calls without exceptions in which a step was made, `interpolate` in the last step returns
what SciPy's dense output for that step does. -/
theorem C99_dense (c : FsalCoef ℝ s d) (hT : Explicit c.toTableau) (hex : 0 ≤ c.errorExponent) (bo : BisectOpts ℝ) (argsort : List ℝ → List Nat)
    (sel : Rhs ℝ n → ℝ → Vec ℝ n → Vec ℝ n → Except Err ℝ) (g : Buffer ℝ n 0) (K0 : Fin (s + 2) → Vec ℝ n) (itp : RkItp ℝ n d) (t0 : ℝ)
    (y0 : Vec ℝ n) (h first : Option ℝ) (s0 st : St ℝ n 0 (FsalAux ℝ n s (RkItp ℝ n d)))
    (hs0 : fsalInit c.P o sel g K0 itp rhs t0 y0 h first = .ok s0) (hh : 0 < s0.h)
    (hs : CleanSession ⟨fsal realLib o c, rhs, b⟩ bo argsort s0 st) (hlt : st.cache.ts (Buffer.iPrev 0) < st.t) :
    ∃ K, LastStages c.toTableau rhs st.cache K ∧ ∀ t, st.cache.ts (Buffer.iPrev 0) ≤ t → t < st.t →
      ∃ r st', (Solver.interpolate ⟨fsal realLib o c, rhs, b⟩ t).run st = some (.ok r, st') ∧
        r.deref st.cache = SciPy.dense c.P (st.cache.ts (Buffer.iPrev 0)) st.t (st.cache.ys (Buffer.iPrev 0)) K t := by
  obtain ⟨K, h1, h2⟩ := C26_fsal realLib o c hT realLib_powLaw ⟨by rw [ho.min]; norm_num, by rw [ho.min]; norm_num, by rw [ho.max]; norm_num,
        by rw [ho.safety]; norm_num⟩ hex rhs b bo argsort sel g K0 itp t0 y0 h first s0 st hs0 hh hs hlt
  refine ⟨K, h1, fun t ht ht' => ?_⟩
  obtain ⟨r, st', h3, h4⟩ := h2 t ht ht'
  refine ⟨r, st', h3, ?_⟩
  funext i
  rw [h4 i]
  unfold SciPy.dense
  congr 2
  refine Finset.sum_congr rfl fun j _ => ?_
  congr 1
  exact Finset.sum_congr rfl fun m _ => mul_comm _ _

omit ho in
/-- **C99**: the coefficients of the dense output are SciPy's. -/
theorem C99_registered_dense : (RungeKutta23 : FsalCoef ℝ 2 3).P = SciPy.RK23P ∧ (RungeKutta45 : FsalCoef ℝ 5 4).P = SciPy.RK45P := by
  constructor
  · funext i j; fin_cases i <;> fin_cases j <;> norm_num [RungeKutta23, q, SciPy.RK23P]
  · funext i j; fin_cases i <;> fin_cases j <;> norm_num [RungeKutta45, q, SciPy.RK45P]

end Nbkode
