import Verif.Proofs.RunConverges
import Verif.Proofs.DenseTrees
import Verif.Props.VarDemo
import Verif.Props.Failures
import Verif.Props.Convergence
import Mathlib.Analysis.SpecialFunctions.Trigonometric.Deriv

/-!
# The error of `run` on smooth problems: C68
-/

set_option autoImplicit false
set_option linter.unusedSectionVars false

namespace Nbkode
open Py Spec Solver Topology

variable {n s d : ℕ} {X : Type}

/-! ### Cubic Hermite interpolation as a continuous extension -/

theorem hermite_dense {T : Tableau ℝ s} (hT : Explicit T) {cls : Rhs ℝ n → Solver ℝ n 0 X} (hM : ∀ rhs, IsFixed (cls rhs).method)
    (hrhs : ∀ rhs, (cls rhs).rhs = rhs) (hS : RKSteps T cls)
    (starts : Rhs ℝ n → ℝ → Vec ℝ n → St ℝ n 0 X → Prop) : DenseSteps (withLast T) (hermiteP T) cls starts := by
  intro f t0 y0 s0 u v l _ _ _ _ ht hf hlt
  obtain ⟨x, K, hK, e1, e2, e3⟩ := hS f u v hf ht
  obtain ⟨t', y', f', e, he⟩ := (IsFixed.shaped (hM _)).body_ok _ _ _ ht
  have e1' : t' = u.t + x := by rw [← e1]; unfold St.t; rw [e, push_t]
  have e2' : y' = rkNew T x u.y K := by rw [← e2]; unfold St.y; rw [e, push_y]
  have hL : LastStages T (pureRhs f) v.cache (Fin.snoc K f' : Fin (s + 2) → Vec ℝ n) := by
    rw [e]
    refine lastStages_of hT (show pureRhs f u.t u.y = .ok u.f by rw [hf]; rfl) hK e1' e2' ?_ (fun i => ?_) ?_
    · rw [hrhs] at he; exact he
    · exact Fin.snoc_castSucc ..
    · exact Fin.snoc_last ..
  have o1 : v.cache.ts (Buffer.iOld 0) = u.t := by rw [e]; rfl
  have o2 : v.cache.ys (Buffer.iOld 0) = u.y := by rw [e]; rfl
  have o3 : v.cache.fs (Buffer.iOld 0) = u.f := by rw [e]; rfl
  have hprev : (Buffer.iPrev 0 : Fin 2) = Buffer.iOld 0 := rfl
  obtain ⟨hst, hfirst, hlast, hnew⟩ := hL
  rw [hprev] at hst hfirst hnew
  rw [o1] at hst hnew
  rw [o2] at hst hnew
  rw [o3] at hfirst
  refine ⟨_, hst, fun t r v' h1 h2 hr => ?_⟩
  rw [interpolate_inside (by rw [o1]; exact h1.le) h2, fixed_interp (hM _)] at hr
  obtain ⟨r', hr', hv⟩ := hermite_value (t := t) (s := v) (by rw [o1]; exact hlt)
  rw [hr'] at hr
  simp only [Option.some.injEq, Prod.mk.injEq, Except.ok.injEq] at hr
  obtain ⟨rfl, -⟩ := hr
  funext i
  rw [hv i, o1, o2, o3]
  have hy : v.y i = u.y i + (v.t - u.t) * ∑ j, (withLast T).B j * (Fin.snoc K f' : Fin (s + 2) → Vec ℝ n) j i :=
    congrFun hnew i
  have hff : v.f = f' := hlast.symm.trans (Fin.snoc_last ..)
  set KK : Fin (s + 2) → Vec ℝ n := Fin.snoc K f' with hKK
  set θ := (t - u.t) / (v.t - u.t) with hθ
  have hsum : ∑ j, denseWeight (hermiteP T) θ j * KK j i = (3 * θ ^ 2 - 2 * θ ^ 3) * ∑ j, (withLast T).B j * KK j i +
      (θ - 2 * θ ^ 2 + θ ^ 3) * KK 0 i + (θ ^ 3 - θ ^ 2) * KK (Fin.last _) i := by
    have h3 : ∀ j : Fin (s + 2), denseWeight (hermiteP T) θ j * KK j i =
        (3 * θ ^ 2 - 2 * θ ^ 3) * ((withLast T).B j * KK j i) +
        (θ - 2 * θ ^ 2 + θ ^ 3) * (if j = 0 then KK j i else 0) +
        (θ ^ 3 - θ ^ 2) * (if j = Fin.last _ then KK j i else 0) := by
      intro j
      have c0 : (j.val = 0) = (j = 0) := by rw [Fin.ext_iff]; rfl
      have c1 : (j.val = s + 1) = (j = Fin.last _) := by rw [Fin.ext_iff]; rfl
      simp only [denseWeight, Fin.sum_univ_three, hermiteP, c0, c1]
      split <;> split <;> simp <;> ring
    simp only [h3, Finset.sum_add_distrib, ← Finset.mul_sum, Finset.sum_ite_eq', Finset.mem_univ, if_true]
  show _ = u.y i + (v.t - u.t) * ∑ j, denseWeight (hermiteP T) θ j * KK j i
  rw [hsum, hfirst, hlast, hy]
  show _ = u.y i + (v.t - u.t) * (_ + _ + (θ ^ 3 - θ ^ 2) * v.f i)
  ring

/-! ### Starting points -/

theorem erk_startsAt (T : Tableau ℝ s) (b : Bound ℝ) :
    StartsAt (fun rhs : Rhs ℝ n => ⟨erk T, rhs, b⟩) erkStarts where
  constructed := by
    rintro rhs t0 y0 s0 ⟨g, K, h, hs⟩
    exact .erk T rhs b g K t0 y0 h s0 hs
  times := by
    rintro rhs t0 y0 s0 ⟨g, K, h, hs⟩ i
    obtain ⟨f0, -, hc, -⟩ := solverInit_ok hs
    rw [hc, init_ts]
  y := by
    rintro rhs t0 y0 s0 ⟨g, K, h, hs⟩
    obtain ⟨f0, -, hc, -⟩ := solverInit_ok hs
    exact (congrFun (congrArg Buffer.ys hc) _).trans (init_ys ..)
  f := by
    rintro rhs t0 y0 s0 ⟨g, K, h, hs⟩
    obtain ⟨f0, hf, hc, -⟩ := solverInit_ok hs
    rw [hf]
    exact congrArg _ ((congrFun (congrArg Buffer.fs hc) _).trans (init_fs ..)).symm
  interp := by
    rintro rhs t0 y0 s0 ⟨g, K, h, hs⟩ r s' hr
    obtain ⟨f0, hf, hc, -⟩ := solverInit_ok hs
    have ht : ∀ i, s0.cache.ts i = t0 := fun i => by rw [hc, init_ts]
    rw [interpolate_inside (by rw [ht]) (show t0 ≤ s0.cache.ts _ by rw [ht])] at hr
    change (hermiteInterp t0).run s0 = _ at hr
    rw [hermiteInterp_run, if_pos (by rw [ht]; exact beq_self_eq_true _)] at hr
    simp only [Option.some.injEq, Prod.mk.injEq, Except.ok.injEq] at hr
    rw [← hr.1]
    exact (congrFun (congrArg Buffer.ys hc) _).trans (init_ys ..)

theorem fsal_startsAt (c : FsalCoef ℝ s d) (lib : Lib ℝ) (o : VarOptions ℝ) (b : Bound ℝ) :
    StartsAt (fun rhs : Rhs ℝ n => ⟨fsal lib o c, rhs, b⟩) (fsalStarts c o) where
  constructed := by
    rintro rhs t0 y0 s0 ⟨sel, g, K, itp, h, first, hs⟩
    exact .fsal lib o c rhs b sel g K itp t0 y0 h first s0 hs
  times := by
    rintro rhs t0 y0 s0 ⟨sel, g, K, itp, h, first, hs⟩ i
    exact fsalInit_times hs i
  y := by
    rintro rhs t0 y0 s0 ⟨sel, g, K, itp, h, first, hs⟩
    obtain ⟨s1, h0, hc, -⟩ := fsalInit_ok hs
    obtain ⟨s2, h1, hc1, -⟩ := variableInit_ok h0
    obtain ⟨f0, -, hc2, -⟩ := solverInit_ok h1
    exact (congrFun (congrArg Buffer.ys (hc.trans (hc1.trans hc2))) _).trans (init_ys ..)
  f := by
    rintro rhs t0 y0 s0 ⟨sel, g, K, itp, h, first, hs⟩
    obtain ⟨s1, h0, hc, -⟩ := fsalInit_ok hs
    obtain ⟨s2, h1, hc1, -⟩ := variableInit_ok h0
    obtain ⟨f0, hf, hc2, -⟩ := solverInit_ok h1
    rw [hf]
    exact congrArg _ ((congrFun (congrArg Buffer.fs (hc.trans (hc1.trans hc2))) _).trans (init_fs ..)).symm
  interp := by
    rintro rhs t0 y0 s0 ⟨sel, g, K, itp, h, first, hs⟩ r s' hr
    have ht : ∀ i, s0.cache.ts i = t0 := fsalInit_times hs
    obtain ⟨s1, h0, hc, -⟩ := fsalInit_ok hs
    obtain ⟨s2, h1, hc1, -⟩ := variableInit_ok h0
    obtain ⟨f0, -, hc2, -⟩ := solverInit_ok h1
    rw [interpolate_inside (by rw [ht]) (show t0 ≤ s0.cache.ts _ by rw [ht])] at hr
    change (rkInterp c.P t0).run s0 = _ at hr
    rw [rkInterp_run, if_pos (by rw [ht]; exact beq_self_eq_true _)] at hr
    simp only [Option.some.injEq, Prod.mk.injEq, Except.ok.injEq] at hr
    rw [← hr.1]
    exact (congrFun (congrArg Buffer.ys (hc.trans (hc1.trans hc2))) _).trans (init_ys ..)

theorem euler_startsAt (b : Bound ℝ) :
    StartsAt (fun rhs : Rhs ℝ n => (⟨explicitMultistep ForwardEuler, rhs, b⟩ : Solver ℝ n 0 Unit)) eulerStarts := by
  have key : ∀ (rhs : Rhs ℝ n) t0 y0 (s0 : St ℝ n (histExtra 0) Unit), eulerStarts rhs t0 y0 s0 →
      ∃ f0, rhs t0 y0 = .ok f0 ∧ ∀ i, s0.cache.ts i = t0 ∧ s0.cache.ys i = y0 ∧ s0.cache.fs i = f0 := by
    rintro rhs t0 y0 s0 ⟨g, bo, argsort, str, h, hs⟩
    unfold multistepInit at hs
    cases e : solverInit g () rhs t0 y0 h with
    | error q => rw [e] at hs; cases hs
    | ok s1 =>
      rw [e] at hs
      simp only [if_true, Option.some.injEq, Except.ok.injEq] at hs
      obtain ⟨f0, hf, hc, -⟩ := solverInit_ok e
      refine ⟨f0, hf, fun i => ?_⟩
      have et : s1.t = t0 := by unfold St.t; rw [hc]; exact init_ts ..
      have ey : s1.y = y0 := by unfold St.y; rw [hc]; exact init_ys ..
      have ef : s1.f = f0 := by unfold St.f; rw [hc]; exact init_fs ..
      rw [← hs, et, ey, ef, hc]
      show ((Buffer.init g t0 y0 f0).push t0 y0 f0).ts i = _ ∧ ((Buffer.init g t0 y0 f0).push t0 y0 f0).ys i = _ ∧
        ((Buffer.init g t0 y0 f0).push t0 y0 f0).fs i = _
      unfold Buffer.push shiftIn
      dsimp only
      split
      · exact ⟨init_ts .., init_ys .., init_fs ..⟩
      · exact ⟨rfl, rfl, rfl⟩
  refine ⟨?_, ?_, ?_, ?_, ?_⟩
  · rintro rhs t0 y0 s0 ⟨g, bo, argsort, str, h, hs⟩
    exact .explicitMultistep ForwardEuler rhs b g bo argsort str t0 y0 h s0 hs
  · intro rhs t0 y0 s0 hs i
    obtain ⟨f0, -, h⟩ := key rhs t0 y0 s0 hs
    exact (h i).1
  · intro rhs t0 y0 s0 hs
    obtain ⟨f0, -, h⟩ := key rhs t0 y0 s0 hs
    exact (h _).2.1
  · intro rhs t0 y0 s0 hs
    obtain ⟨f0, hf, h⟩ := key rhs t0 y0 s0 hs
    rw [hf]
    exact congrArg _ (h _).2.2.symm
  · intro rhs t0 y0 s0 hs r s' hr
    obtain ⟨f0, -, h⟩ := key rhs t0 y0 s0 hs
    have ht : ∀ i, s0.cache.ts i = t0 := fun i => (h i).1
    rw [interpolate_inside (by rw [ht]) (show t0 ≤ s0.cache.ts _ by rw [ht])] at hr
    change (hermiteInterp t0).run s0 = _ at hr
    rw [hermiteInterp_run, if_pos (by rw [ht]; exact beq_self_eq_true _)] at hr
    simp only [Option.some.injEq, Prod.mk.injEq, Except.ok.injEq] at hr
    rw [← hr.1]
    exact (h _).2.1

theorem path_clean {k : Nat} {S : Solver ℝ n k X} {bo : BisectOpts ℝ} {argsort : List ℝ → List Nat} {s0 s u : St ℝ n k X}
    {l : List (St ℝ n k X)} (h : CleanSession S bo argsort s0 s) (hp : Path S S.tBound s l u) :
    CleanSession S bo argsort s0 u := by
  induction hp with
  | nil s => exact h
  | cons hf ht _ ih => exact ih (Demo.clean_step h hf ht)

theorem fsal_dense (c : FsalCoef ℝ s (d + 1)) (hT : Explicit c.toTableau) (hE : EndConditions c.toTableau c.P) (lib : Lib ℝ)
    (o : VarOptions ℝ) (hl : PowLaw lib) (ho : SaneOptions o) (hex : 0 ≤ c.errorExponent) (b : Bound ℝ) :
    DenseSteps (withLast c.toTableau) c.P (fun rhs : Rhs ℝ n => ⟨fsal lib o c, rhs, b⟩) (fsalStarts c o) := by
  rintro f t0 y0 s0 u v l ⟨sel, g, K, itp, h, first, hs⟩ hh hp hfit ht hf hlt
  have hcl : CleanSession ⟨fsal lib o c, pureRhs f, b⟩ ⟨0, 0, 0⟩ (fun _ => []) s0 v :=
    Demo.clean_step (path_clean (.start s0) hp) hfit ht
  obtain ⟨q, K1, f', -, -, hK1, hf', h2, -⟩ := fsalBody_records lib o hl ho _ hex _ hT _ _ u v (congrArg Except.ok hf.symm) ht
  have o1 : v.cache.ts (Buffer.iPrev 0) = u.t := by rw [h2]; rfl
  have o2 : v.cache.ys (Buffer.iPrev 0) = u.y := by rw [h2]; rfl
  have hlt' : v.cache.ts (Buffer.iPrev 0) < v.t := by rw [o1]; exact hlt
  obtain ⟨K', hL, hv⟩ := C26_fsal lib o c hT hl ho hex (pureRhs f) b _ _ sel g K itp t0 y0 h first s0 v hs hh hcl hlt'
  have hst := hL.stages
  have hn := hL.new
  rw [o1] at hv
  rw [o1, o2] at hst hn
  refine ⟨K', hst, fun t r v' h1 h3 hr => ?_⟩
  have hcomm : ∀ (θ : ℝ) (i : Fin n), ∑ j : Fin (d + 1), (∑ m, c.P m j * K' m i) * θ ^ (j.val + 1) =
      ∑ j, denseWeight c.P θ j * K' j i := by
    intro θ i
    simp only [denseWeight, Finset.sum_mul]
    rw [Finset.sum_comm]
    exact Finset.sum_congr rfl fun j _ => Finset.sum_congr rfl fun m _ => by ring
  funext i
  rcases h3.lt_or_eq with h3 | h3
  · obtain ⟨r', v'', hr', hval⟩ := hv t h1.le h3
    change ((_ : Solver ℝ n 0 _).interpolate t).run v = _ at hr
    rw [hr'] at hr
    simp only [Option.some.injEq, Prod.mk.injEq, Except.ok.injEq] at hr
    rw [← hr.1, hval i, o2, hcomm]
    rfl
  · have hend := (C22_ends (⟨fsal lib o c, pureRhs f, b⟩ : Solver ℝ n 0 _) (Or.inr ⟨lib, o, _, .fsal c⟩) v hlt').2
    obtain ⟨r', v'', hr', hval⟩ := hend
    rw [h3] at hr
    change ((_ : Solver ℝ n 0 _).interpolate v.t).run v = _ at hr
    rw [hr'] at hr
    simp only [Option.some.injEq, Prod.mk.injEq, Except.ok.injEq] at hr
    rw [← hr.1, hval, h3, div_self (sub_pos.mpr hlt).ne']
    have : v.y i = _ := congrFun hn i
    rw [this]
    show _ = u.y i + (v.t - u.t) * ∑ j, denseWeight c.P 1 j * K' j i
    simp only [rkNew, denseWeight, one_pow, mul_one, hE.stop]
    rfl

theorem rows_last {T : Tableau ℝ s} (hR : RowSums T) {p : ℕ} (hp : 1 ≤ p) (hB : OrderConditions T.A T.B p) :
    RowSums (withLast T) := by
  refine withLast_rows hR ?_
  have := hB (.node 0 Fin.elim0) (by simp [Tree.order]; omega)
  simpa [Tree.weight, Tree.density] using this

/-! ### The theorems -/

theorem path_h {S : Solver ℝ n 0 X} (hM : IsFixed S.method) {s u : St ℝ n 0 X} {l : List (St ℝ n 0 X)}
    (hp : Path S S.tBound s l u) : u.h = s.h := by
  induction hp with
  | nil => rfl
  | cons _ ht _ ih => exact ih.trans ((IsFixed.shaped hM).body_h _ _ _ _ ht)

/-- A fixed-step class: `H` is its step size. -/
theorem fixed_of_run {cls : Rhs ℝ n → Solver ℝ n 0 X} {starts : Rhs ℝ n → ℝ → Vec ℝ n → St ℝ n 0 X → Prop} {p : ℕ}
    (hM : ∀ rhs, IsFixed (cls rhs).method) (h : RunConverges cls starts p) : RunConvergesFixed cls starts p := by
  intro f y a b t₀ T hf ha hb hy
  obtain ⟨C, δ, hδ, h⟩ := h f y a b t₀ T hf ha hb hy
  refine ⟨C, δ, hδ, fun bo argsort hA s0 s' ts out hs hh hδ' hrun => ?_⟩
  refine h bo argsort hA s0.h s0 s' ts out hs hh hh.le hδ' ?_ hrun
  intro l u v hp _ ht
  have e : u.h = s0.h := path_h (hM _) hp
  have := (IsFixed.shaped (hM _)).body_fixed _ _ _ ht
  rw [this, e]
  linarith

theorem erk_run {T : Tableau ℝ s} (hT : Explicit T) (hR : RowSums T) {q : ℕ} (hq : q ≤ 3)
    (hB : OrderConditions T.A T.B (q + 1)) (hP : DenseConditions (withLast T).A (hermiteP T) q) (b : Bound ℝ) :
    RunConvergesFixed (fun rhs : Rhs ℝ n => ⟨erk T, rhs, b⟩) erkStarts (q + 1) :=
  fixed_of_run (fun _ => .erk T) (run_converges (fun _ => Or.inl (.erk T)) (erk_startsAt T b) (erk_steps hT b)
    (hermite_dense hT (fun _ => .erk T) (fun _ => rfl) (erk_steps hT b) _) hT hR (withLast_explicit hT)
    (rows_last hR (by omega) hB) hB hq hP)

/-- **C68** for `ForwardEuler` (and `AdamsBashforth1`). -/
theorem C68_ForwardEuler (b : Bound ℝ) :
    RunConvergesFixed (fun rhs : Rhs ℝ n => (⟨explicitMultistep ForwardEuler, rhs, b⟩ : Solver ℝ n 0 Unit)) eulerStarts 1 :=
  fixed_of_run (fun _ => .explicitMultistep _) (run_converges (fun _ => Or.inl (.explicitMultistep _)) (euler_startsAt b) (euler_steps b)
    (hermite_dense eulerTableau_explicit (fun _ => .explicitMultistep _) (fun _ => rfl) (euler_steps b) _) eulerTableau_explicit
    eulerTableau_rows (withLast_explicit eulerTableau_explicit) (rows_last eulerTableau_rows le_rfl eulerTableau_tree)
    eulerTableau_tree (Nat.zero_le _)
    fun τ hτ => by have := τ.order_pos; omega)

/-- **C68** for `Runge2`. -/
theorem C68_Runge2 (b : Bound ℝ) : RunConvergesFixed (fun rhs : Rhs ℝ n => ⟨erk Runge2, rhs, b⟩) erkStarts 2 :=
  erk_run Runge2_conditions.explicit Runge2_rows (by norm_num) Runge2_tree Runge2_dense b

/-- **C68** for `Runge3`. -/
theorem C68_Runge3 (b : Bound ℝ) : RunConvergesFixed (fun rhs : Rhs ℝ n => ⟨erk Runge3, rhs, b⟩) erkStarts 3 :=
  erk_run Runge3_conditions.explicit Runge3_rows (by norm_num) Runge3_tree Runge3_dense b

/-- **C68** for `Heun3`. -/
theorem C68_Heun3 (b : Bound ℝ) : RunConvergesFixed (fun rhs : Rhs ℝ n => ⟨erk Heun3, rhs, b⟩) erkStarts 3 :=
  erk_run Heun3_conditions.explicit Heun3_rows (by norm_num) Heun3_tree Heun3_dense b

/-- **C68** for `RungeKutta4`. -/
theorem C68_RungeKutta4 (b : Bound ℝ) : RunConvergesFixed (fun rhs : Rhs ℝ n => ⟨erk RungeKutta4, rhs, b⟩) erkStarts 4 :=
  erk_run RungeKutta4_conditions.explicit RungeKutta4_rows (by norm_num) RungeKutta4_tree RungeKutta4_dense b

/-- **C68** for `RungeKutta3_8`. -/
theorem C68_RungeKutta3_8 (b : Bound ℝ) :
    RunConvergesFixed (fun rhs : Rhs ℝ n => ⟨erk RungeKutta3_8, rhs, b⟩) erkStarts 4 :=
  erk_run RungeKutta3_8_conditions.explicit RungeKutta3_8_rows (by norm_num) RungeKutta3_8_tree RungeKutta3_8_dense b

/-- **C68** for `RungeKutta23`: third order in the largest step. -/
theorem C68_RungeKutta23 (lib : Lib ℝ) (o : VarOptions ℝ) (hl : PowLaw lib) (ho : SaneOptions o) (b : Bound ℝ) :
    RunConverges (fun rhs : Rhs ℝ n => ⟨fsal lib o RungeKutta23, rhs, b⟩) (fsalStarts RungeKutta23 o) 3 :=
  have hex : 0 ≤ (RungeKutta23 : FsalCoef ℝ 2 3).errorExponent := by simp [RungeKutta23, q]
  run_converges (fun _ => Or.inr ⟨lib, o, _, .fsal _, hl, ho, hex⟩) (fsal_startsAt _ lib o b)
    (fsalBody_steps RungeKutta23_conditions.explicit lib o hl ho _ hex _ b _)
    (fsal_dense _ RungeKutta23_conditions.explicit RungeKutta23_ends lib o hl ho hex b)
    RungeKutta23_conditions.explicit RungeKutta23_rows (withLast_explicit RungeKutta23_conditions.explicit)
    (rows_last RungeKutta23_rows (by norm_num) RungeKutta23_tree) RungeKutta23_tree (by norm_num) RungeKutta23_dense

/-- **C68** for `RungeKutta45`: fifth order in the largest step. -/
theorem C68_RungeKutta45 (lib : Lib ℝ) (o : VarOptions ℝ) (hl : PowLaw lib) (ho : SaneOptions o) (b : Bound ℝ) :
    RunConverges (fun rhs : Rhs ℝ n => ⟨fsal lib o RungeKutta45, rhs, b⟩) (fsalStarts RungeKutta45 o) 5 :=
  have hex : 0 ≤ (RungeKutta45 : FsalCoef ℝ 5 4).errorExponent := by simp [RungeKutta45, q]
  run_converges (fun _ => Or.inr ⟨lib, o, _, .fsal _, hl, ho, hex⟩) (fsal_startsAt _ lib o b)
    (fsalBody_steps RungeKutta45_conditions.explicit lib o hl ho _ hex _ b _)
    (fsal_dense _ RungeKutta45_conditions.explicit RungeKutta45_ends lib o hl ho hex b)
    RungeKutta45_conditions.explicit RungeKutta45_rows (withLast_explicit RungeKutta45_conditions.explicit)
    (rows_last RungeKutta45_rows (by norm_num) RungeKutta45_tree) RungeKutta45_tree (by norm_num) RungeKutta45_dense

/-! ### Options under which steps never grow -/

/-- With `max_factor <= 1` no step of RungeKutta23/45 is longer than the first one. -/
theorem fsal_shrinks (c : FsalCoef ℝ s d) (hT : Explicit c.toTableau) (lib : Lib ℝ) (o : VarOptions ℝ) (hl : PowLaw lib)
    (ho : SaneOptions o) (hex : 0 ≤ c.errorExponent) (hmin : o.minFactor ≤ o.maxFactor) (hmax : o.maxFactor ≤ 1) (b : Bound ℝ)
    (rhs : Rhs ℝ n) (u v : St ℝ n 0 (FsalAux ℝ n s (RkItp ℝ n d))) (hf : rhs u.t u.y = .ok u.f) (hh : 0 < u.h)
    (h : Takes ⟨fsal lib o c, rhs, b⟩ u v) : v.t - u.t ≤ u.h ∧ 0 < v.h ∧ v.h ≤ u.h := by
  obtain ⟨l, last, h', K, hTr, hlast, rfl⟩ := (fsal_takes_iff lib o c hT rhs b u v hf).mp h
  have key : ∀ {h : ℝ} {l : List (Tried ℝ)} {h' : ℝ} {K : Fin (s + 2) → Vec ℝ n},
      Trail lib o c.errorExponent c.toTableau (rkNorm lib o c.E) rhs u.t u.y h l h' K → 0 < h →
      ∀ last, l.getLast? = some last → last.size ≤ h ∧ 0 < h' ∧ h' ≤ h := by
    have fac : ∀ {en q : ℝ}, StepFactor lib o c.errorExponent en q → 0 < q ∧ q ≤ 1 := fun hq =>
      ⟨ho.minFactor_pos.trans_le (stepFactor_bounds hmin hq).1, (stepFactor_bounds hmin hq).2.trans hmax⟩
    intro h l h' K hTr
    induction hTr with
    | @accept h en q K _ _ _ hq =>
      intro hh last hl
      obtain ⟨q0, q1⟩ := fac hq
      simp only [List.getLast?_singleton, Option.some.injEq] at hl
      subst hl
      exact ⟨le_refl _, mul_pos hh q0, mul_le_of_le_one_right hh.le q1⟩
    | @reject h en q h' K K' l _ _ _ hq hT' ih =>
      intro hh last hl
      obtain ⟨q0, q1⟩ := fac hq
      have hl' : l.getLast? = some last := by
        cases l with
        | nil => cases hT'
        | cons a l => rwa [List.getLast?_cons_cons] at hl
      obtain ⟨h1, h2, h3⟩ := ih (mul_pos hh q0) last hl'
      have := mul_le_of_le_one_right hh.le q1
      exact ⟨h1.trans this, h2, h3.trans this⟩
  obtain ⟨h1, h2, h3⟩ := key hTr hh last hlast
  refine ⟨?_, h2, h3⟩
  simp only [St.t, push_t]
  linarith

theorem fsal_fixed_of_run (c : FsalCoef ℝ s d) (hT : Explicit c.toTableau) (lib : Lib ℝ) (o : VarOptions ℝ) (hl : PowLaw lib)
    (ho : SaneOptions o) (hex : 0 ≤ c.errorExponent) (hmin : o.minFactor ≤ o.maxFactor) (hmax : o.maxFactor ≤ 1) (b : Bound ℝ)
    {p : ℕ} (h : RunConverges (fun rhs : Rhs ℝ n => ⟨fsal lib o c, rhs, b⟩) (fsalStarts c o) p) :
    RunConvergesFixed (fun rhs : Rhs ℝ n => ⟨fsal lib o c, rhs, b⟩) (fsalStarts c o) p := by
  intro f y a b' t₀ T hf ha hb hy
  obtain ⟨C, δ, hδ, h⟩ := h f y a b' t₀ T hf ha hb hy
  refine ⟨C, δ, hδ, fun bo argsort hA s0 s' ts out hs hh hδ' hrun => ?_⟩
  refine h bo argsort hA s0.h s0 s' ts out hs hh hh.le hδ' ?_ hrun
  have hS := fsalBody_steps (n := n) hT lib o hl ho _ hex (fsalErrNorm lib o c.E) b (fun _ => rkInterp c.P)
  have key : ∀ (l : List (St ℝ n 0 (FsalAux ℝ n s (RkItp ℝ n d)))) (w u : St ℝ n 0 (FsalAux ℝ n s (RkItp ℝ n d))),
      w.f = f w.t w.y → 0 < w.h → Path ⟨fsal lib o c, pureRhs f, b⟩ b w l u → u.f = f u.t u.y ∧ 0 < u.h ∧ u.h ≤ w.h := by
    intro l w u hwf hw hp
    induction hp with
    | nil => exact ⟨hwf, hw, le_refl _⟩
    | cons _ ht _ ih =>
      obtain ⟨-, h1, h2⟩ := fsal_shrinks c hT lib o hl ho hex hmin hmax b _ _ _ (congrArg Except.ok hwf.symm) hw ht
      obtain ⟨h3, h4, h5⟩ := ih ((hS f _ _ hwf ht).choose_spec.choose_spec.2.2.2) h1
      exact ⟨h3, h4, h5.trans h2⟩
  intro l u v hp _ ht
  have hf0 : s0.f = f s0.t s0.y := by
    have h1 := (fsal_startsAt c lib o b).f _ _ _ _ hs
    have h2 : s0.y = y t₀ := (fsal_startsAt c lib o b).y _ _ _ _ hs
    have h3 : s0.t = t₀ := (fsal_startsAt c lib o b).times _ _ _ _ hs _
    rw [h2, h3]
    exact (Except.ok.inj h1).symm
  obtain ⟨h1, h2, h3⟩ := key l s0 u hf0 hh hp
  exact (fsal_shrinks c hT lib o hl ho hex hmin hmax b _ _ _ (congrArg Except.ok h1.symm) h2 ht).1.trans h3

/-- **C68** for `RungeKutta23` with `max_factor <= 1`: third order in `first_step`. -/
theorem C68_RungeKutta23_first_step (lib : Lib ℝ) (o : VarOptions ℝ) (hl : PowLaw lib) (ho : SaneOptions o)
    (hmin : o.minFactor ≤ o.maxFactor) (hmax : o.maxFactor ≤ 1) (b : Bound ℝ) :
    RunConvergesFixed (fun rhs : Rhs ℝ n => ⟨fsal lib o RungeKutta23, rhs, b⟩) (fsalStarts RungeKutta23 o) 3 :=
  fsal_fixed_of_run _ RungeKutta23_conditions.explicit lib o hl ho (by simp [RungeKutta23, q]) hmin hmax b
    (C68_RungeKutta23 lib o hl ho b)

/-- **C68** for `RungeKutta45` with `max_factor <= 1`: fifth order in `first_step`. -/
theorem C68_RungeKutta45_first_step (lib : Lib ℝ) (o : VarOptions ℝ) (hl : PowLaw lib) (ho : SaneOptions o)
    (hmin : o.minFactor ≤ o.maxFactor) (hmax : o.maxFactor ≤ 1) (b : Bound ℝ) :
    RunConvergesFixed (fun rhs : Rhs ℝ n => ⟨fsal lib o RungeKutta45, rhs, b⟩) (fsalStarts RungeKutta45 o) 5 :=
  fsal_fixed_of_run _ RungeKutta45_conditions.explicit lib o hl ho (by simp [RungeKutta45, q]) hmin hmax b
    (C68_RungeKutta45 lib o hl ho b)

/-! ### Cases -/

theorem ordered_of_times {k : Nat} {s0 : St ℝ n k X} {t0 : ℝ} (h : ∀ i, s0.cache.ts i = t0) : Ordered s0 := by
  intro i j _
  rw [h, h]

/-- Non-vacuity for C68: `RungeKutta4` on `y' = y²`, `y(0) = 1`: any run for times in `[0, 1/2]`, with any small `h`, comes
back with one value for each time, and they are within `C h⁴` of `1/(1-t)`. -/
example : ∃ C δ, 0 < δ ∧ ∀ (h : ℝ) (bo : BisectOpts ℝ) (argsort : List ℝ → List Nat) (ts : List ℝ) g K, 0 < h → h ≤ δ →
    (∀ l, IsArgsort l (argsort l)) → ts ≠ [] → (∀ t ∈ ts, 0 ≤ t ∧ t ≤ 1 / 2) →
    ∃ s0 out s', erkInit (s := 3) g K (pureRhs (n := 1) fun _ v i => v i ^ 2) 0 (fun _ => 1) (some h) = .ok s0 ∧
      (Solver.run ⟨erk RungeKutta4, pureRhs fun _ v i => v i ^ 2, .inf⟩ bo argsort ts).run s0 = some (.ok out, s') ∧
      out.map Prod.fst = ts ∧ ∀ r ∈ out, |r.2 0 - 1 / (1 - r.1)| ≤ C * h ^ 4 := by
  obtain ⟨C, δ, hδ, hC⟩ := C68_RungeKutta4 (n := 1) .inf (fun _ v i => v i ^ 2) (fun t _ => 1 / (1 - t)) (-1) 1 0 (1 / 2)
    (square_smooth 4) (by norm_num) (by norm_num) square_solves
  refine ⟨C, δ, hδ, fun h bo argsort ts g K hh hhδ hA hne hts => ?_⟩
  have hi : erkInit (s := 3) g K (pureRhs (n := 1) fun _ v i => v i ^ 2) 0 (fun _ => 1) (some h) =
    .ok ⟨Buffer.init g 0 (fun _ => 1) (fun _ => 1 ^ 2), h, K⟩ := rfl
  have hst : erkStarts (pureRhs (n := 1) fun _ v i => v i ^ 2) 0 (fun _ => 1 / (1 - 0))
      (⟨Buffer.init g 0 (fun _ => 1) (fun _ => 1 ^ 2), h, K⟩ : St ℝ 1 0 (ErkAux ℝ 1 3)) := by
    refine ⟨g, K, some h, ?_⟩
    rw [← hi]; norm_num
  have htimes := (erk_startsAt (n := 1) (RungeKutta4 : Tableau ℝ 3) .inf).times _ _ _ _ hst
  obtain ⟨out, s', h1, h2⟩ := C69_answers_fixed ⟨erk RungeKutta4, pureRhs (n := 1) fun _ v i => v i ^ 2, .inf⟩ (.erk _)
    (.erk _) rfl (by rintro e ⟨t, y, h⟩; cases h) bo argsort hA ts hne _ (ordered_of_times htimes) hh
    (fun x hx => ⟨by rw [htimes]; exact (hts x hx).1, trivial⟩)
  refine ⟨_, out, s', hi, h1, h2, fun r hr => ?_⟩
  have hr1 : r.1 ∈ ts := h2 ▸ List.mem_map_of_mem hr
  exact hC bo argsort hA _ s' ts out hst hh hhδ h1 r hr (hts _ hr1).2 0

/-- The defaults, with steps that never grow. -/
noncomputable def Demo.steady : VarOptions ℝ := { VarOptions.default with maxFactor := 1 }

theorem cos_smooth (p : ℕ) : ContDiff ℝ p (joint (n := 1) (fun t _ _ => Real.cos t)) :=
  contDiff_pi.mpr fun _ => (Real.contDiff_cos.of_le le_top).comp contDiff_fst

open Demo in
/-- Non-vacuity for C68: `RungeKutta45` on `y' = cos t`, `y(0) = 0`, with the default tolerances and `max_factor = 1`. -/
example (sel : Rhs ℝ 1 → ℝ → Vec ℝ 1 → Vec ℝ 1 → Except Err ℝ) :
    ∃ C δ, 0 < δ ∧ ∀ (h : ℝ) (bo : BisectOpts ℝ) (argsort : List ℝ → List Nat) (ts : List ℝ) g K itp, 0 < h → h ≤ δ →
    (∀ l, IsArgsort l (argsort l)) → ts ≠ [] → (∀ t ∈ ts, 0 ≤ t ∧ t ≤ 10) →
    ∃ s0 out s', fsalInit (RungeKutta45 : FsalCoef ℝ 5 4).P steady sel g K itp (pureRhs (n := 1) fun t _ _ => Real.cos t) 0
        (fun _ => 0) none (some h) = .ok s0 ∧
      (Solver.run ⟨fsal realLib steady RungeKutta45, pureRhs fun t _ _ => Real.cos t, .inf⟩ bo argsort ts).run s0 =
        some (.ok out, s') ∧
      out.map Prod.fst = ts ∧ ∀ r ∈ out, |r.2 0 - Real.sin r.1| ≤ C * h ^ 5 := by
  have hsane : SaneOptions steady := by
    constructor <;> norm_num [steady, VarOptions.default]
  have hshrink : ShrinkingOptions steady := by
    constructor <;> norm_num [steady, VarOptions.default]
  obtain ⟨C, δ, hδ, hC⟩ := C68_RungeKutta45_first_step (n := 1) realLib steady realLib_powLaw hsane
    (by norm_num [steady, VarOptions.default]) (by norm_num [steady]) .inf
    (fun t _ _ => Real.cos t) (fun t _ => Real.sin t) (-1) 11 0 10
    (cos_smooth 5) (by norm_num) (by norm_num) (fun t _ => hasDerivAt_pi.mpr fun _ => Real.hasDerivAt_sin t)
  refine ⟨C, δ, hδ, fun h bo argsort ts g K itp hh hhδ hA hne hts => ?_⟩
  have hv : variableInit steady sel g (⟨K, itp⟩ : FsalAux ℝ 1 5 (RkItp ℝ 1 4)) (pureRhs (n := 1) fun t _ _ => Real.cos t) 0 (fun _ => 0) none (some h) =
    .ok ⟨Buffer.init g 0 (fun _ => 0) (fun _ => Real.cos 0), h, ⟨K, itp⟩⟩ := by
      simp [variableInit, steady, VarOptions.default, solverInit, pureRhs, bind, Except.bind, pure, Except.pure]
  obtain ⟨s0, hi⟩ : ∃ s0, fsalInit (RungeKutta45 : FsalCoef ℝ 5 4).P steady sel g K itp (pureRhs (n := 1) fun t _ _ => Real.cos t) 0
        (fun _ => 0) none (some h) = .ok s0 := by
    unfold fsalInit
    rw [hv]
    exact ⟨_, rfl⟩
  have hst : fsalStarts RungeKutta45 steady (pureRhs (n := 1) fun t _ _ => Real.cos t) 0 (fun _ => Real.sin 0) s0 :=
    ⟨sel, g, K, itp, none, some h, by rw [Real.sin_zero]; exact hi⟩
  have hsh : s0.h = h := by
    obtain ⟨s1, h1, -, h2, -⟩ := fsalInit_ok hi
    rw [hv] at h1
    cases h1
    exact h2
  have htimes := (fsal_startsAt (n := 1) (RungeKutta45 : FsalCoef ℝ 5 4) realLib steady .inf).times _ _ _ _ hst
  have hf0 := (fsal_startsAt (n := 1) (RungeKutta45 : FsalCoef ℝ 5 4) realLib steady .inf).f _ _ _ _ hst
  have hf1 : pureRhs (n := 1) (fun t _ _ => Real.cos t) s0.t s0.y = .ok s0.f := by
    rw [← hf0, show s0.t = 0 from htimes _]
    rfl
  obtain ⟨out, s', h1, h2⟩ := C69_answers_variable realLib realLib_sqrtLaw realLib_powLaw steady hshrink
    (RungeKutta45 : FsalCoef ℝ 5 4) RungeKutta45_conditions.explicit
    (by simp [RungeKutta45, q]) (realLib_powSmall _ (by simp [RungeKutta45, q]))
    (pureRhs (n := 1) fun t _ _ => Real.cos t) 1 (by intro t y v hv d; cases hv; exact Real.abs_cos_le_one t)
    (by rintro e ⟨t, y, h⟩; cases h) bo argsort hA ts hne s0 hf1 (ordered_of_times htimes) (by rw [hsh]; exact hh)
    (fun x hx => ⟨by rw [htimes]; exact (hts x hx).1, trivial⟩)
  refine ⟨s0, out, s', hi, h1, h2, fun r hr => ?_⟩
  have hr1 : r.1 ∈ ts := h2 ▸ List.mem_map_of_mem hr
  have := hC bo argsort hA _ s' ts out hst (by rw [hsh]; exact hh) (by rw [hsh]; exact hhδ) h1 r hr (hts _ hr1).2 0
  rwa [hsh] at this

end Nbkode
