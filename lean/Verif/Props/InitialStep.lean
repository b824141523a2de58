import Verif.Model.InitialStep
import Verif.Spec.InitialStep
import Verif.Props.Stop
import Verif.Props.Domain
import Verif.Props.DenseOutput
import Verif.Props.PartsDemo

/-!
# C105: the automatic first step

Without `first_step` the variable-step classes choose the first step with SciPy's `select_initial_step`, from the tolerances, the
initial state, its derivative, and one more evaluation of the right-hand side. The step is positive, it is moderate
(`Spec.Moderate`), and it is the same for a system and for several copies of it. But it does not know `t_bound`: the evaluation may
be made beyond it, and the step may be longer than the whole interval, in which case no step is ever made.
-/

set_option autoImplicit false
set_option linter.unusedSectionVars false

namespace Nbkode
open Py Spec Solver Demo

section field
variable {α : Type} [Field α] [LinearOrder α] [IsStrictOrderedRing α] [BEq α] [LawfulBEq α]
variable {n m s d : Nat}

theorem tenth_pos (k : Nat) : 0 < tenth α k := by
  unfold tenth
  positivity

theorem firstGuess_pos (d0 d1 : α) : 0 < firstGuess d0 d1 := by
  unfold firstGuess
  split
  · exact tenth_pos _
  · rename_i h
    simp only [Bool.or_eq_true, decide_eq_true_eq, not_or, not_lt] at h
    exact div_pos (mul_pos (tenth_pos _) ((tenth_pos _).trans_le h.1)) ((tenth_pos _).trans_le h.2)

theorem secondGuess_pos {lib : Lib α} (hl : PowLaw lib) (order : Nat) (h0 d1 d2 : α) : 0 < secondGuess lib order h0 d1 d2 := by
  unfold secondGuess
  split
  · rw [pyMax_eq]; exact lt_max_of_lt_left (tenth_pos _)
  · rename_i h
    simp only [Bool.and_eq_true, decide_eq_true_eq, not_and_or, not_le] at h
    refine hl.pos _ _ (div_pos (tenth_pos _) ?_)
    rw [pyMax_eq]
    rcases h with h | h
    · exact lt_max_of_lt_left ((tenth_pos _).trans h)
    · exact lt_max_of_lt_right ((tenth_pos _).trans h)

/-- **C105**: the automatic first step is positive. -/
theorem C105_positive (lib : Lib α) (hl : PowLaw lib) (o : VarOptions α) (order : Nat) (rhs : Rhs α n) (t0 : α) (y0 f0 : Vec α n) (h : α)
    (hs : selectInitialStep lib o order rhs t0 y0 f0 = .ok h) : 0 < h := by
  unfold selectInitialStep at hs
  simp only [bind, Except.bind, pure, Except.pure] at hs
  split at hs
  · cases hs
  · cases hs
    rw [pyMin_eq]
    exact lt_min (mul_pos (by positivity) (firstGuess_pos _ _)) (secondGuess_pos hl _ _ _ _)

/-- **C105**, RungeKutta23/45: a solver constructed without `first_step` has a positive step size. -/
theorem C105_positive_fsal (lib : Lib α) (hl : PowLaw lib) (o : VarOptions α) (order : Nat) (P : Fin (s + 2) → Fin d → α) (rhs : Rhs α n)
    (g : Buffer α n 0) (K : Fin (s + 2) → Vec α n) (itp : RkItp α n d) (t0 : α) (y0 : Vec α n) (h : Option α)
    (st : St α n 0 (FsalAux α n s (RkItp α n d)))
    (hs : fsalInit P o (selectInitialStep lib o order) g K itp rhs t0 y0 h none = .ok st) : 0 < st.h := by
  obtain ⟨s0, h1, -, h2, -⟩ := fsalInit_ok hs
  obtain ⟨s1, -, -, -, -, h3⟩ := variableInit_ok h1
  rw [h2]
  exact C105_positive lib hl o order rhs _ _ _ _ (h3 rfl)

/-- **C105**, DOP853. -/
theorem C105_positive_dop853 (lib : Lib α) (hl : PowLaw lib) (o : VarOptions α) (order : Nat) (D : DopDense α) (rhs : Rhs α n)
    (g : Buffer α n 0) (K : Fin 13 → Vec α n) (itp : DopItp α n) (t0 : α) (y0 : Vec α n) (h : Option α)
    (st : St α n 0 (FsalAux α n 11 (DopItp α n)))
    (hs : dopInit D o (selectInitialStep lib o order) g K itp rhs t0 y0 h none = .ok st) : 0 < st.h := by
  obtain ⟨s0, h1, -, h2⟩ := dopInit_ok hs
  obtain ⟨s1, -, -, -, -, h3⟩ := variableInit_ok h1
  rw [h2]
  exact C105_positive lib hl o order rhs _ _ _ _ (h3 rfl)

end field

variable {n m s d : Nat}

theorem meanNorm_real (x : Vec ℝ n) : meanNorm realLib x = SciPy.norm x := by
  unfold meanNorm SciPy.norm
  rw [foldl_eq_sum, zero_add]
  show Real.sqrt _ / (n : ℝ) ^ (1 / ((2 : Nat) : ℝ)) = _
  congr 3
  · funext i; ring

/-- The automatic first step over the real numbers. -/
theorem select_real (o : VarOptions ℝ) (order : Nat) (rhs : Rhs ℝ n) (t0 : ℝ) (y0 f0 : Vec ℝ n) :
    selectInitialStep realLib o order rhs t0 y0 f0 =
      (rhs (t0 + firstGuess (relativeTo o y0 y0) (relativeTo o y0 f0))
        (fun i => y0 i + firstGuess (relativeTo o y0 y0) (relativeTo o y0 f0) * f0 i)).map fun f1 =>
        min (100 * firstGuess (relativeTo o y0 y0) (relativeTo o y0 f0))
          (secondGuess realLib order (firstGuess (relativeTo o y0 y0) (relativeTo o y0 f0)) (relativeTo o y0 f0)
            (relativeTo o y0 (fun i => f1 i - f0 i) / firstGuess (relativeTo o y0 y0) (relativeTo o y0 f0))) := by
  have e : ∀ x : Vec ℝ n, meanNorm realLib (fun i => x i / (o.atol + pyAbs (y0 i) * o.rtol)) = relativeTo o y0 x := by
    intro x
    rw [meanNorm_real]
    simp only [relativeTo, pyAbs_eq]
  unfold selectInitialStep
  simp only [e, bind, Except.bind, pure, Except.pure, pyMin_eq]
  cases rhs (t0 + firstGuess (relativeTo o y0 y0) (relativeTo o y0 f0))
        (fun i => y0 i + firstGuess (relativeTo o y0 y0) (relativeTo o y0 f0) * f0 i) <;> simp [Except.map]

/-- **C105**: the automatic first step is moderate. -/
theorem C105_moderate (o : VarOptions ℝ) (order : ℕ) (rhs : Rhs ℝ n) (t0 : ℝ) (y0 f0 : Vec ℝ n) (h : ℝ)
    (hs : selectInitialStep realLib o order rhs t0 y0 f0 = .ok h) : Moderate o order y0 f0 h := by
  have hpos := C105_positive realLib realLib_powLaw o order rhs t0 y0 f0 h hs
  rw [select_real] at hs
  unfold firstGuess at hs
  cases hr : rhs (t0 + if (decide (relativeTo o y0 y0 < tenth ℝ 5) || decide (relativeTo o y0 f0 < tenth ℝ 5)) = true then tenth ℝ 6
      else tenth ℝ 2 * relativeTo o y0 y0 / relativeTo o y0 f0) (fun i => y0 i + (if (decide (relativeTo o y0 y0 < tenth ℝ 5) ||
        decide (relativeTo o y0 f0 < tenth ℝ 5)) = true then tenth ℝ 6 else tenth ℝ 2 * relativeTo o y0 y0 / relativeTo o y0 f0) * f0 i) with
  | error e => rw [hr] at hs; cases hs
  | ok f1 =>
    rw [hr] at hs
    simp only [Except.map, Except.ok.injEq] at hs
    refine ⟨hpos, fun h1 h2 => ?_, fun h1 => ?_, fun h1 => ?_⟩
    · rw [if_neg (by simp [tenth]; norm_num at h1 h2 ⊢; exact ⟨h1, h2⟩)] at hs
      have h3 : 0 < relativeTo o y0 f0 := lt_of_lt_of_le (by norm_num) h2
      have h4 : h ≤ 100 * (tenth ℝ 2 * relativeTo o y0 y0 / relativeTo o y0 f0) := hs ▸ min_le_left _ _
      calc h * relativeTo o y0 f0 ≤ 100 * (tenth ℝ 2 * relativeTo o y0 y0 / relativeTo o y0 f0) * relativeTo o y0 f0 :=
            mul_le_mul_of_nonneg_right h4 h3.le
        _ = relativeTo o y0 y0 := by
            unfold tenth
            field_simp
            norm_num
    · rw [if_pos (by simp [tenth]; norm_num at h1 ⊢; exact h1)] at hs
      have h4 : h ≤ 100 * tenth ℝ 6 := hs ▸ min_le_left _ _
      unfold tenth at h4
      norm_num at h4 ⊢
      exact h4
    · generalize (if (decide (relativeTo o y0 y0 < tenth ℝ 5) || decide (relativeTo o y0 f0 < tenth ℝ 5)) = true then tenth ℝ 6
        else tenth ℝ 2 * relativeTo o y0 y0 / relativeTo o y0 f0) = h0 at hs
      have h3 : 0 < relativeTo o y0 f0 := lt_trans (by positivity) h1
      unfold secondGuess at hs
      rw [if_neg (by
        simp only [Bool.and_eq_true, decide_eq_true_eq, not_and_or, not_le]
        left
        exact lt_of_eq_of_lt (by norm_num [tenth]) h1)] at hs
      generalize relativeTo o y0 (fun i => f1 i - f0 i) / h0 = d2 at hs
      have h4 : h ≤ (tenth ℝ 2 / pyMax (relativeTo o y0 f0) d2) ^ (1 / ((order + 1 : Nat) : ℝ)) := hs ▸ min_le_right _ _
      rw [pyMax_eq] at h4
      have h5 : 0 < max (relativeTo o y0 f0) d2 := lt_max_of_lt_left h3
      have h6 : h ^ (order + 1) ≤ tenth ℝ 2 / max (relativeTo o y0 f0) d2 := by
        calc h ^ (order + 1) ≤ ((tenth ℝ 2 / max (relativeTo o y0 f0) d2) ^ (1 / ((order + 1 : Nat) : ℝ))) ^ (order + 1) :=
              pow_le_pow_left₀ hpos.le h4 _
          _ = _ := by
              rw [← Real.rpow_natCast, ← Real.rpow_mul (div_pos (tenth_pos _) h5).le, one_div, inv_mul_cancel₀ (by positivity), Real.rpow_one]
      calc h ^ (order + 1) * relativeTo o y0 f0 ≤ tenth ℝ 2 / max (relativeTo o y0 f0) d2 * max (relativeTo o y0 f0) d2 :=
            mul_le_mul h6 (le_max_left _ _) h3.le (div_pos (tenth_pos _) h5).le
        _ = 1 / 100 := by
            rw [div_mul_cancel₀ _ h5.ne']
            norm_num [tenth]

/-! ### Copies of a system -/

theorem relativeTo_copies {ι : Fin m → Fin n} {c : Nat} (hc : c ≠ 0) (hι : EachPicked ι c) (o : VarOptions ℝ) (y0 x : Vec ℝ n) :
    relativeTo o (fun i => y0 (ι i)) (fun i => x (ι i)) = relativeTo o y0 x := by
  have key : ∀ g : Fin n → ℝ, ∑ i, g (ι i) = c * ∑ j, g j := by
    intro g
    rw [← Finset.sum_fiberwise (s := Finset.univ) (g := ι), Finset.mul_sum]
    refine Finset.sum_congr rfl fun j _ => ?_
    rw [Finset.sum_congr rfl (g := fun _ => g j) (fun i hi => by rw [(Finset.mem_filter.1 hi).2]), Finset.sum_const, hι j, nsmul_eq_mul]
  have hm : (m : ℝ) = c * n := by
    have := key fun _ => 1
    simpa using this
  have hc' : (c : ℝ) ≠ 0 := Nat.cast_ne_zero.2 hc
  unfold relativeTo SciPy.norm
  rw [key fun j => (x j / (o.atol + |y0 j| * o.rtol)) ^ 2, hm, ← Real.sqrt_eq_rpow, ← Real.sqrt_eq_rpow, Real.sqrt_mul (Nat.cast_nonneg _),
    Real.sqrt_mul (Nat.cast_nonneg _), mul_div_mul_left _ _ (Real.sqrt_ne_zero'.2 (by positivity))]

/-- **C105**: the automatic first step of several copies of a system is that of the system. -/
theorem C105_copies {ι : Fin m → Fin n} {c : Nat} (hc : c ≠ 0) (hι : EachPicked ι c) (o : VarOptions ℝ) (order : ℕ) (whole : Rhs ℝ n)
    (part : Rhs ℝ m) (hf : OnItsOwn ι whole part) (t0 : ℝ) (y0 f0 : Vec ℝ n) :
    selectInitialStep realLib o order part t0 (fun i => y0 (ι i)) (fun i => f0 (ι i)) = selectInitialStep realLib o order whole t0 y0 f0 := by
  rw [select_real, select_real, relativeTo_copies hc hι, relativeTo_copies hc hι]
  have := hf (t0 + firstGuess (relativeTo o y0 y0) (relativeTo o y0 f0))
    (fun i => y0 i + firstGuess (relativeTo o y0 y0) (relativeTo o y0 f0) * f0 i)
  rw [this]
  cases whole (t0 + firstGuess (relativeTo o y0 y0) (relativeTo o y0 f0))
    (fun i => y0 i + firstGuess (relativeTo o y0 y0) (relativeTo o y0 f0) * f0 i) with
  | error e => rfl
  | ok f1 =>
    have e := relativeTo_copies hc hι o y0 fun j => f1 j - f0 j
    simp only [Except.map, e]

section
variable (ι : Fin m → Fin n) (whole : Rhs ℝ n) (part : Rhs ℝ m) (hf : OnItsOwn ι whole part) (b : Bound ℝ) (bo : BisectOpts ℝ)
  (argsort : List ℝ → List Nat) (hA : ∀ l, IsArgsort l (argsort l)) (ha : ComparisonSort argsort) (cs : List (Call ℝ n)) (cs' : List (Call ℝ m))
  (hc : List.Forall₂ (pick ℝ ι).SameCall cs cs') (t0 : ℝ) (z0 : Vec ℝ n)

include hf hA ha hc

theorem select_rel {c : Nat} (hc0 : c ≠ 0) (hι : EachPicked ι c) (o : VarOptions ℝ) (order : ℕ) (f : Vec ℝ n) (f' : Vec ℝ m)
    (h : (pick ℝ ι).vars.slp f f') :
    ExRel (fun a b => (pick ℝ ι).vars.hr a b ∧ 0 < a) (selectInitialStep realLib o order whole t0 z0 f)
      (selectInitialStep realLib o order part ((pick ℝ ι).time t0) ((pick ℝ ι).state z0) f') := by
  have hfe : f' = fun i => f (ι i) := h.trans (pick_slope ι f)
  rw [pick_time, pick_state, hfe, C105_copies hc0 hι o order whole part hf]
  cases e : selectInitialStep realLib o order whole t0 z0 f with
  | error e => rfl
  | ok a => exact ⟨(one_mul _).symm, C105_positive realLib realLib_powLaw o order whole t0 z0 f a e⟩

/-- **C105**, RungeKutta23/45 without `first_step`: several copies of a system are integrated like the system. -/
theorem C105_fsal_copies {c : Nat} (hc0 : c ≠ 0) (hι : EachPicked ι c) (o : VarOptions ℝ) (ho : SaneOptions o) (order : ℕ) (cf : FsalCoef ℝ s d)
    (g : Buffer ℝ n 0) (g' : Buffer ℝ m 0) (K : Fin (s + 2) → Vec ℝ n) (K' : Fin (s + 2) → Vec ℝ m) (I : RkItp ℝ n d) (I' : RkItp ℝ m d) :
    observe ⟨fsal realLib o cf, part, b⟩ bo argsort cs'
        (some (fsalInit cf.P o (selectInitialStep realLib o order) g' K' I' part t0 (fun i => z0 (ι i)) none none)) =
      (observe ⟨fsal realLib o cf, whole, b⟩ bo argsort cs
        (some (fsalInit cf.P o (selectInitialStep realLib o order) g K I whole t0 z0 none none))).map (Except.map (pick ℝ ι).seen) := by
  have h1 := (pick ℝ ι).seen_of_same (same_fsal (o := o) (o' := o) ((pick ℝ ι).lawful one_pos) bo ((pick ℝ ι).argsort_rel one_pos ha) hA
    ((pick ℝ ι).rhsRel (pick_transforms ι hf)) ((pick ℝ ι).boundRel b) (t := t0) (y := z0) rfl rfl ho ho (pick_control ι hc0 hι realLib o) rfl
    Iff.rfl (h := none) (h' := none) (mul_one _).symm (first := none) (first' := none)
    ⟨trivial, fun _ f f' h => select_rel ι whole part hf argsort hA ha cs cs' hc t0 z0 hc0 hι o order f f' h⟩ cf
    ((pick ℝ ι).calls hc) g g' K K' I I')
  rwa [pick_bound, pick_time, pick_state] at h1

/-- **C105**, DOP853 without `first_step`: several copies of a system are integrated like the system. -/
theorem C105_dop853_copies {c : Nat} (hc0 : c ≠ 0) (hι : EachPicked ι c) (o : VarOptions ℝ) (ho : SaneOptions o) (order : ℕ) (cf : DopCoef ℝ)
    (g : Buffer ℝ n 0) (g' : Buffer ℝ m 0) (K : Fin 13 → Vec ℝ n) (K' : Fin 13 → Vec ℝ m) (I : DopItp ℝ n) (I' : DopItp ℝ m) :
    observe ⟨dop853 realLib o cf, part, b⟩ bo argsort cs'
        (some (dopInit cf.toDopDense o (selectInitialStep realLib o order) g' K' I' part t0 (fun i => z0 (ι i)) none none)) =
      (observe ⟨dop853 realLib o cf, whole, b⟩ bo argsort cs
        (some (dopInit cf.toDopDense o (selectInitialStep realLib o order) g K I whole t0 z0 none none))).map (Except.map (pick ℝ ι).seen) := by
  have h1 := (pick ℝ ι).seen_of_same (same_dop (o := o) (o' := o) ((pick ℝ ι).lawful one_pos) bo ((pick ℝ ι).argsort_rel one_pos ha) hA
    ((pick ℝ ι).rhsRel (pick_transforms ι hf)) ((pick ℝ ι).boundRel b) (t := t0) (y := z0) rfl rfl ho ho (pick_control ι hc0 hι realLib o) rfl
    Iff.rfl (h := none) (h' := none) (mul_one _).symm (first := none) (first' := none)
    ⟨trivial, fun _ f f' h => select_rel ι whole part hf argsort hA ha cs cs' hc t0 z0 hc0 hι o order f f' h⟩ cf
    ((pick ℝ ι).calls hc) g g' K K' I I')
  rwa [pick_bound, pick_time, pick_state] at h1

end

/-! ### A first step that is too large -/

/-- `y' = 1.001e-7`. -/
noncomputable def creep : ℝ → Vec ℝ 1 → Vec ℝ 1 := fun _ _ _ => 1001 / 10 ^ 10

theorem creep_norms : relativeTo .default (fun _ : Fin 1 => 1) (fun _ => 1) = 1000000 / 1001 ∧
    relativeTo .default (fun _ : Fin 1 => 1) (creep 0 fun _ => 1) = 1 / 10000 ∧
    relativeTo .default (fun _ : Fin 1 => 1) (fun _ => 0) = 0 := by
  have e : ∀ x : ℝ, relativeTo .default (fun _ : Fin 1 => 1) (fun _ => x) = |x| * (1000000 / 1001) := by
    intro x
    unfold relativeTo SciPy.norm
    simp only [VarOptions.default, Finset.univ_unique, Finset.sum_singleton, abs_one, Nat.cast_one, Real.one_rpow, div_one,
      Real.sqrt_sq_eq_abs, abs_div]
    rw [abs_of_pos (a := _ + _) (by norm_num)]
    norm_num
    ring
  unfold creep
  rw [e, e, e, abs_of_pos (by norm_num), abs_of_pos (by norm_num)]
  norm_num

theorem creep_guess : firstGuess (relativeTo .default (fun _ : Fin 1 => 1) (fun _ => (1 : ℝ)))
    (relativeTo .default (fun _ : Fin 1 => 1) (creep 0 fun _ => 1)) = 100000000 / 1001 := by
  rw [creep_norms.1, creep_norms.2.1]
  unfold firstGuess
  rw [if_neg (by simp [tenth]; norm_num)]
  norm_num [tenth]

/-- On `y' = 1.001e-7`, `y(0) = 1`, with the default options the first step is larger than 1. -/
theorem creep_select (order : ℕ) : ∃ h, selectInitialStep realLib .default order (pureRhs creep) 0 (fun _ : Fin 1 => 1) (creep 0 fun _ => 1) = .ok h ∧
    1 < h := by
  rw [select_real, creep_guess]
  refine ⟨_, rfl, ?_⟩
  have e : (fun i : Fin 1 => creep (0 + 100000000 / 1001) (fun i => 1 + 100000000 / 1001 * creep 0 (fun _ => 1) i) i - creep 0 (fun _ => 1) i) =
      fun _ => (0 : ℝ) := by
    funext i; simp [creep]
  beta_reduce
  rw [e, creep_norms.2.1, creep_norms.2.2]
  refine lt_min (by norm_num) ?_
  unfold secondGuess
  rw [if_neg (by simp [tenth]; norm_num), pyMax_eq]
  show 1 < (tenth ℝ 2 / max (1 / 10000) (0 / (100000000 / 1001))) ^ (1 / ((order + 1 : Nat) : ℝ))
  refine Real.one_lt_rpow ?_ (by positivity)
  norm_num [tenth]

theorem auto_variableInit {k : Nat} {X : Type} (sel : Rhs ℝ n → ℝ → Vec ℝ n → Vec ℝ n → Except Err ℝ) (g : Buffer ℝ n k) (a : X) (rhs : Rhs ℝ n)
    (t₀ : ℝ) (y0 f0 : Vec ℝ n) (hf : rhs t₀ y0 = .ok f0) :
    variableInit .default sel g a rhs t₀ y0 none none = (sel rhs t₀ y0 f0).map fun h => ⟨Buffer.init g t₀ y0 f0, h, a⟩ := by
  have h1 : ¬ ((VarOptions.default : VarOptions ℝ).atol < 0) := not_lt.mpr default_shrinking.atol_pos.le
  have hm : (VarOptions.default : VarOptions ℝ).maxStep = .inf := rfl
  have e1 : (Buffer.init g t₀ y0 f0).t = t₀ := init_ts _ _ _ _ _
  have e2 : (Buffer.init g t₀ y0 f0).y = y0 := init_ys _ _ _ _ _
  have e3 : (Buffer.init g t₀ y0 f0).f = f0 := init_fs _ _ _ _ _
  have h2 : solverInit g a rhs t₀ y0 none = .ok ⟨Buffer.init g t₀ y0 f0, 1, a⟩ := by
    simp [solverInit, hf, bind, Except.bind, pure, Except.pure]
  unfold variableInit
  rw [h2]
  simp only [hm, h1, St.t, St.y, St.f, e1, e2, e3, bind, Except.bind, pure, Except.pure]
  cases sel rhs t₀ y0 f0 <;> simp [Except.map]

theorem dopExtra_pure (D : DopDense ℝ) (f : ℝ → Vec ℝ n → Vec ℝ n) (t h : ℝ) (y : Vec ℝ n) (l : List (Fin 3)) (K : Fin 16 → Vec ℝ n) :
    ∃ K', (dopExtra D (pureRhs f) t h y l).run K = some (.ok (), K') := by
  induction l generalizing K with
  | nil => exact ⟨_, rfl⟩
  | cons e l ih => rw [dopExtra_cons]; exact ih _

theorem dopUpdate_pure (D : DopDense ℝ) (f : ℝ → Vec ℝ n → Vec ℝ n) (st : St ℝ n 0 (FsalAux ℝ n 11 (DopItp ℝ n))) :
    ∃ st', (dopUpdate D (pureRhs f)).run st = some (.ok (), st') := by
  rcases dopUpdate_run D (pureRhs f) st with ⟨_, -, h⟩ | ⟨h, -⟩
  · exact ⟨_, h⟩
  · obtain ⟨K', h'⟩ := dopExtra_pure D f (st.cache.ts (Buffer.iPrev 0)) (st.cache.ts (Buffer.iLast 0) - st.cache.ts (Buffer.iPrev 0))
      (st.cache.ys (Buffer.iPrev 0)) (List.finRange 3) (dopCopy st.aux.K st.aux.itp.Kext)
    exact absurd ⟨K', (dopExtra_stages _ _ _ _ _ _ _ _).1 h'⟩ h

theorem auto_fsalInit (P : Fin (s + 2) → Fin d → ℝ) (sel : Rhs ℝ n → ℝ → Vec ℝ n → Vec ℝ n → Except Err ℝ) (g : Buffer ℝ n 0) (K : Fin (s + 2) → Vec ℝ n) (itp : RkItp ℝ n d)
    (f : ℝ → Vec ℝ n → Vec ℝ n) (t₀ : ℝ) (y0 : Vec ℝ n) (h : ℝ) (hs : sel (pureRhs f) t₀ y0 (f t₀ y0) = .ok h) :
    ∃ s0, fsalInit P .default sel g K itp (pureRhs f) t₀ y0 none none = .ok s0 ∧ s0.t = t₀ ∧ s0.h = h := by
  have hv := auto_variableInit sel g (⟨K, itp⟩ : FsalAux ℝ n s (RkItp ℝ n d)) (pureRhs f) t₀ y0 _ rfl
  rw [hs] at hv
  obtain ⟨s0, hi⟩ : ∃ s0, fsalInit P .default sel g K itp (pureRhs f) t₀ y0 none none = .ok s0 := by
    unfold fsalInit
    rw [hv]
    exact ⟨_, rfl⟩
  obtain ⟨s1, h1, h2, h3, -⟩ := fsalInit_ok hi
  rw [hv] at h1
  cases h1
  exact ⟨s0, hi, fsalInit_times hi _, h3⟩

theorem auto_dopInit (D : DopDense ℝ) (sel : Rhs ℝ n → ℝ → Vec ℝ n → Vec ℝ n → Except Err ℝ) (g : Buffer ℝ n 0) (K : Fin 13 → Vec ℝ n) (itp : DopItp ℝ n)
    (f : ℝ → Vec ℝ n → Vec ℝ n) (t₀ : ℝ) (y0 : Vec ℝ n) (h : ℝ) (hs : sel (pureRhs f) t₀ y0 (f t₀ y0) = .ok h) :
    ∃ s0, dopInit D .default sel g K itp (pureRhs f) t₀ y0 none none = .ok s0 ∧ s0.t = t₀ ∧ s0.h = h := by
  have hv := auto_variableInit sel g (⟨K, itp⟩ : FsalAux ℝ n 11 (DopItp ℝ n)) (pureRhs f) t₀ y0 _ rfl
  rw [hs] at hv
  obtain ⟨s0, hi⟩ : ∃ s0, dopInit D .default sel g K itp (pureRhs f) t₀ y0 none none = .ok s0 := by
    unfold dopInit
    rw [hv]
    obtain ⟨x, hx⟩ := dopUpdate_pure D f ⟨Buffer.init g t₀ y0 (f t₀ y0), h, (⟨K, itp⟩ : FsalAux ℝ n 11 (DopItp ℝ n))⟩
    simp only [bind, Except.bind, hx]
    exact ⟨_, rfl⟩
  obtain ⟨s1, h1, h2, h3⟩ := dopInit_ok hi
  rw [hv] at h1
  cases h1
  exact ⟨s0, hi, dopInit_times hi _, h3⟩

/-- **C105 refuted**, RungeKutta23/45 (and any method of the same kind): on `y' = 1.001e-7`, `y(0) = 1` up to `t_bound = 1`, constructed
without a step size and with the default options, the solver never makes a step. The first `step()` returns `None`, and no call moves it. -/
theorem C105_refuted_fsal (order : ℕ) (c : FsalCoef ℝ s d) (g : Buffer ℝ 1 0) (K : Fin (s + 2) → Vec ℝ 1) (itp : RkItp ℝ 1 d) :
    ∃ s0, fsalInit c.P .default (selectInitialStep realLib .default order) g K itp (pureRhs creep) 0 (fun _ : Fin 1 => 1) none none = .ok s0 ∧
      ∀ bo argsort s', Session ⟨fsal realLib .default c, pureRhs creep, .fin 1⟩ bo argsort s0 s' →
        s'.t = 0 ∧ Stopped ⟨fsal realLib .default c, pureRhs creep, .fin 1⟩ s' := by
  obtain ⟨h, hs, hh⟩ := creep_select order
  obtain ⟨s0, h1, h2, h3⟩ := auto_fsalInit c.P (selectInitialStep realLib .default order) g K itp creep 0 (fun _ : Fin 1 => 1) h hs
  refine ⟨s0, h1, fun bo argsort s' hs' => ?_⟩
  have h4 : Stopped ⟨fsal realLib .default c, pureRhs creep, .fin 1⟩ s0 := stopped_iff.2 (by
    simp only [Fits, NotBeyond, not_not, h2, h3]
    linarith)
  obtain ⟨g1, -, -, -, g5⟩ := C95_for_ever _ (Or.inr ⟨realLib, .default, _, .fsal _⟩) bo argsort s0 s' h4 hs'
  exact ⟨g1.trans h2, g5⟩

/-- **C105 refuted**, DOP853. -/
theorem C105_refuted_dop853 (order : ℕ) (c : DopCoef ℝ) (g : Buffer ℝ 1 0) (K : Fin 13 → Vec ℝ 1) (itp : DopItp ℝ 1) :
    ∃ s0, dopInit c.toDopDense .default (selectInitialStep realLib .default order) g K itp (pureRhs creep) 0 (fun _ : Fin 1 => 1) none none = .ok s0 ∧
      ∀ bo argsort s', Session ⟨dop853 realLib .default c, pureRhs creep, .fin 1⟩ bo argsort s0 s' →
        s'.t = 0 ∧ Stopped ⟨dop853 realLib .default c, pureRhs creep, .fin 1⟩ s' := by
  obtain ⟨h, hs, hh⟩ := creep_select order
  obtain ⟨s0, h1, h2, h3⟩ := auto_dopInit c.toDopDense (selectInitialStep realLib .default order) g K itp creep 0 (fun _ : Fin 1 => 1) h hs
  refine ⟨s0, h1, fun bo argsort s' hs' => ?_⟩
  have h4 : Stopped ⟨dop853 realLib .default c, pureRhs creep, .fin 1⟩ s0 := stopped_iff.2 (by
    simp only [Fits, NotBeyond, not_not, h2, h3]
    linarith)
  obtain ⟨g1, -, -, -, g5⟩ := C95_for_ever _ (Or.inr ⟨realLib, .default, _, .dop853 _⟩) bo argsort s0 s' h4 hs'
  exact ⟨g1.trans h2, g5⟩

/-! ### The constructor looks past `t_bound` -/

theorem upTo_start : upTo 1 creep 0 (fun _ : Fin 1 => 1) = .ok (creep 0 fun _ => 1) := by
  unfold upTo
  rw [if_neg (by norm_num)]

theorem creep_raises (order : ℕ) :
    selectInitialStep realLib .default order (upTo 1 creep) 0 (fun _ : Fin 1 => 1) (creep 0 fun _ => 1) = .error .valueError := by
  rw [select_real, creep_guess]
  unfold upTo
  rw [if_pos (by norm_num)]
  rfl

/-- **C97 refuted**, RungeKutta23/45 without `first_step`: with a right-hand side that cannot be evaluated beyond `t_bound` the constructor
raises, with one that can it does not. -/
theorem C97_refuted_fsal (order : ℕ) (c : FsalCoef ℝ s d) (g : Buffer ℝ 1 0) (K : Fin (s + 2) → Vec ℝ 1) (itp : RkItp ℝ 1 d) :
    SameUntil 0 (.fin 1) (pureRhs creep) (upTo 1 creep) ∧
    (∃ s0, fsalInit c.P .default (selectInitialStep realLib .default order) g K itp (pureRhs creep) 0 (fun _ : Fin 1 => 1) none none = .ok s0) ∧
    fsalInit c.P .default (selectInitialStep realLib .default order) g K itp (upTo 1 creep) 0 (fun _ : Fin 1 => 1) none none = .error .valueError := by
  refine ⟨upTo_same 0 1 creep, ?_, ?_⟩
  · obtain ⟨s0, h, -⟩ := C105_refuted_fsal order c g K itp
    exact ⟨s0, h⟩
  · unfold fsalInit
    rw [auto_variableInit _ _ _ _ _ _ _ upTo_start, creep_raises]
    rfl

/-- **C97 refuted**, DOP853 without `first_step`. -/
theorem C97_refuted_dop853 (order : ℕ) (c : DopCoef ℝ) (g : Buffer ℝ 1 0) (K : Fin 13 → Vec ℝ 1) (itp : DopItp ℝ 1) :
    SameUntil 0 (.fin 1) (pureRhs creep) (upTo 1 creep) ∧
    (∃ s0, dopInit c.toDopDense .default (selectInitialStep realLib .default order) g K itp (pureRhs creep) 0 (fun _ : Fin 1 => 1) none none = .ok s0) ∧
    dopInit c.toDopDense .default (selectInitialStep realLib .default order) g K itp (upTo 1 creep) 0 (fun _ : Fin 1 => 1) none none = .error .valueError := by
  refine ⟨upTo_same 0 1 creep, ?_, ?_⟩
  · obtain ⟨s0, h, -⟩ := C105_refuted_dop853 order c g K itp
    exact ⟨s0, h⟩
  · unfold dopInit
    rw [auto_variableInit _ _ _ _ _ _ _ upTo_start, creep_raises]
    rfl

/-! ### Cases -/

namespace Demo

/-- The automatic first step on `y' = 1.001e-7` (`C105_positive`, `C105_moderate`): it is computed, and all its bounds apply. -/
example (order : ℕ) : ∃ h, selectInitialStep realLib .default order (pureRhs creep) 0 (fun _ : Fin 1 => 1) (creep 0 fun _ => 1) = .ok h ∧ 0 < h ∧
    h * (1 / 10000) ≤ 1000000 / 1001 ∧ h ^ (order + 1) * (1 / 10000) ≤ 1 / 100 := by
  obtain ⟨h, hs, -⟩ := creep_select order
  have h1 := C105_moderate .default order (pureRhs creep) 0 (fun _ : Fin 1 => 1) (creep 0 fun _ => 1) h hs
  obtain ⟨e1, e2, -⟩ := creep_norms
  refine ⟨h, hs, C105_positive realLib realLib_powLaw _ order _ _ _ _ h hs, ?_, ?_⟩
  · have := h1.moves (by rw [e1]; norm_num) (by rw [e2]; norm_num)
    rwa [e1, e2] at this
  · have := h1.error (by rw [e2]; norm_num)
    rwa [e2] at this

/-- The solvers of `C105_positive_fsal` and `C105_positive_dop853` exist. -/
example : (∃ s0, fsalInit RungeKutta45.P .default (selectInitialStep realLib .default 4) ⟨0, 0, 0⟩ 0 ⟨0, 0⟩ (pureRhs creep) 0 (fun _ : Fin 1 => 1) none none
      = .ok s0 ∧ 0 < s0.h) ∧
    ∃ s0, dopInit DOP853.toDopDense .default (selectInitialStep realLib .default 7) ⟨0, 0, 0⟩ 0 ⟨0, 0, 0⟩ (pureRhs creep) 0 (fun _ : Fin 1 => 1) none none
      = .ok s0 ∧ 0 < s0.h := by
  obtain ⟨s0, h, -⟩ := C105_refuted_fsal 4 RungeKutta45 ⟨0, 0, 0⟩ 0 ⟨0, 0⟩
  obtain ⟨s1, h', -⟩ := C105_refuted_dop853 7 DOP853 ⟨0, 0, 0⟩ 0 ⟨0, 0, 0⟩
  exact ⟨⟨s0, h, C105_positive_fsal realLib realLib_powLaw _ _ _ _ _ _ _ _ _ _ _ h⟩,
    s1, h', C105_positive_dop853 realLib realLib_powLaw _ _ _ _ _ _ _ _ _ _ _ h'⟩

/-- Two copies of the logistic equation (`C105_copies`, `C105_fsal_copies`, `C105_dop853_copies`). -/
example (bo : BisectOpts ℝ) (argsort : List ℝ → List Nat) (hA : ∀ l, IsArgsort l (argsort l)) (ha : ComparisonSort argsort) :=
  have hι : EachPicked (fun _ : Fin 2 => (0 : Fin 1)) 2 := by unfold EachPicked; decide
  have hf : OnItsOwn (fun _ : Fin 2 => (0 : Fin 1)) (pureRhs fun _ (y : Vec ℝ 1) i => y i * (1 - y i)) (pureRhs fun _ y i => y i * (1 - y i)) :=
    fun _ _ => rfl
  have ho : SaneOptions (VarOptions.default : VarOptions ℝ) := sane_of_shrinking default_shrinking
  And.intro (C105_copies two_ne_zero hι .default 4 _ _ hf 0 (fun _ => 1/4) fun _ => 3/16)
    (And.intro (C105_fsal_copies (fun _ : Fin 2 => (0 : Fin 1)) _ _ hf (.fin 10) bo argsort hA ha [.step (some 3) none]
      [.step (some 3) none] (.cons (.step _ _) .nil) 0 (fun _ => 1/4) two_ne_zero hι .default ho 4 RungeKutta45 ⟨0, 0, 0⟩ ⟨0, 0, 0⟩ 0 0 ⟨0, 0⟩ ⟨0, 0⟩)
    (C105_dop853_copies (fun _ : Fin 2 => (0 : Fin 1)) _ _ hf (.fin 10) bo argsort hA ha [.step (some 3) none]
      [.step (some 3) none] (.cons (.step _ _) .nil) 0 (fun _ => 1/4) two_ne_zero hι .default ho 7 DOP853 ⟨0, 0, 0⟩ ⟨0, 0, 0⟩ 0 0 ⟨0, 0, 0⟩ ⟨0, 0, 0⟩))

end Demo

end Nbkode
