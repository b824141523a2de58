import Verif.Proofs.RoundedConvergence
import Verif.Proofs.MethodShape
import Verif.Props.Convergence
import Verif.Props.Rounded

/-!
# C87: accuracy with machine numbers

How far the computed states are from the solution of the problem the user means, when the solver computes with machine numbers and
the user's function has an error of its own. `RoundedConverges` is in `Spec/RoundedError.lean`.
-/

set_option autoImplicit false
set_option linter.unusedSectionVars false

namespace Nbkode
open Py Spec Spec.Num Solver

variable {n s : Nat} {I : Rounding → Type}

/-! ### The steps are Runge-Kutta steps up to rounding -/

theorem machineStages_of {φ : Rounding} {m : Nat} {hm : s + 1 ≤ m} {T : Tableau (Num φ) s}
    {F : Num φ → Vec (Num φ) n → Vec (Num φ) n} {t h : Num φ} {y f : Vec (Num φ) n} {K K' : Fin m → Vec (Num φ) n}
    (hf : f = F t y) (hr : (stages hm T (pureRhs F) t h y f).run K = some (.ok (), K')) : MachineStages hm T F t h y K' := by
  obtain ⟨h1, h2, -⟩ := (stages_ok hm T _ t _ y f K K').mp hr
  exact ⟨h1.trans hf, fun i hi => Except.ok.inj (h2 i hi)⟩

theorem erk_rounded {T : ∀ φ : Rounding, Tableau (Num φ) s} {T' : Tableau ℝ s} (hT : Explicit T') (hN : NearTableau T T')
    (b : ∀ φ : Rounding, Bound (Num φ)) : RoundedSteps T' (fun φ (rhs : Rhs (Num φ) n) => ⟨erk (T φ), rhs, b φ⟩) := by
  intro f R L D hR hL hlip hD
  obtain ⟨c, δ, hc, hδ, hnew⟩ := new_close hT hN (le_refl _) hR hL hlip hD
  refine ⟨c, δ, hc, hδ, fun φ u η κ hA hκ hu F hF w v hw hv => ?_⟩
  unfold Takes at hv
  change (erkBody (T φ) (pureRhs F)).run w = _ at hv
  obtain ⟨r, K', hK⟩ := stages_total (le_refl _) (T φ) (pureRhs F) w.t w.h w.y w.f w.aux
  rw [erkBody_run (T φ) (pureRhs F) w hK] at hv
  cases r with
  | error e => simp at hv
  | ok r =>
    simp only [pureRhs, Option.some.injEq, Prod.mk.injEq, true_and] at hv
    subst hv
    have e1 : (St.t (n := n) (k := 0) (X := ErkAux (Num φ) n s)) ⟨w.cache.push (w.t + w.h)
      (w.y + vdot (fun j => w.h * (T φ).B j) K') (F (w.t + w.h) (w.y + vdot (fun j => w.h * (T φ).B j) K')), w.h, K'⟩ =
        w.t + w.h := push_t ..
    have e2 : (St.y (n := n) (k := 0) (X := ErkAux (Num φ) n s)) ⟨w.cache.push (w.t + w.h)
      (w.y + vdot (fun j => w.h * (T φ).B j) K') (F (w.t + w.h) (w.y + vdot (fun j => w.h * (T φ).B j) K')), w.h, K'⟩ =
        w.y + vdot (fun j => w.h * (T φ).B j) K' := push_y ..
    refine ⟨w.h, e1, ?_, fun hω d => ?_⟩
    · rw [e1, e2]; exact push_f ..
    · rw [e2]
      exact hnew hA hκ hu F hF w.t w.h w.y K' hω (machineStages_of hw hK) d

theorem fsalBody_rounded {T : ∀ φ : Rounding, Tableau (Num φ) s} {T' : Tableau ℝ s} (hT : Explicit T') (hN : NearTableau T T')
    (lib : ∀ φ, Lib (Num φ)) (o : ∀ φ, VarOptions (Num φ)) (ex : ∀ φ : Rounding, Num φ) (errNorm : ∀ φ, ErrNorm (Num φ) n s)
    (b : ∀ φ : Rounding, Bound (Num φ))
    (itp : ∀ φ, Rhs (Num φ) n → Num φ → Py (St (Num φ) n 0 (FsalAux (Num φ) n s (I φ))) (Ref (Num φ) n 0)) :
    RoundedSteps T' (fun φ (rhs : Rhs (Num φ) n) =>
      ⟨⟨fsalBody (lib φ) (o φ) (ex φ) (T φ) (errNorm φ), itp φ⟩, rhs, b φ⟩) := by
  intro f R L D hR hL hlip hD
  obtain ⟨c, δ, hc, hδ, hnew⟩ := new_close hT hN (by omega : s + 1 ≤ s + 2) hR hL hlip hD
  refine ⟨c, δ, hc, hδ, fun φ u η κ hA hκ hu F hF w v hw hv => ?_⟩
  unfold Takes at hv
  change (fsalBody (lib φ) (o φ) (ex φ) (T φ) (errNorm φ) (pureRhs F)).run w = _ at hv
  refine fsalBody_ind (I := I φ) (lib φ) (o φ) (ex φ) (T φ) (errNorm φ) (pureRhs F)
    (fun w r v => r = .ok () → w.f = F w.t w.y → ∃ x : Num φ, v.t = w.t + x ∧ v.f = F v.t v.y ∧
      ((w.t.val, x.val, vals w.y) ∈ D → ∀ d,
        |(v.y d).val - ((w.y d).val + x.val * incr T' f (w.t.val, x.val, vals w.y) d)| ≤ c * (u + η + x.val * κ)))
    ?_ ?_ ?_ ?_ w (.ok ()) v hv rfl hw
  · intro st e K' _ h; cases h
  · intro st y' K' e _ _ h; cases h
  · intro st y' K' en h' hf hr _ _ _ hst
    obtain ⟨r, K'', hK⟩ := stages_total (m := s + 2) (by omega) (T φ) (pureRhs F) st.t st.h st.y st.f st.aux.K
    rw [fsalFixedStep_run (T φ) (pureRhs F) st hK] at hf
    cases r with
    | error e => simp at hf
    | ok r =>
      simp only [pureRhs, Option.some.injEq, Prod.mk.injEq, Except.ok.injEq, true_and] at hf
      obtain ⟨hy, -⟩ := hf
      refine ⟨st.h, push_t .., ?_, fun hω d => ?_⟩
      · simp only [St.t, St.y, St.f, push_t, push_y, push_f]
        exact (Except.ok.inj hr).symm
      · simp only [St.y, push_y]
        rw [← hy]
        exact hnew hA hκ hu F hF st.t st.h st.y K'' hω (machineStages_of hst hK) d
  · intro st y' K' en h' r s' _ _ _ _ ih hr hst
    exact ih hr hst

theorem round_val {φ : Rounding} (x : Num φ) : φ.round x.val = x.val := φ.round_self _ x.val_mem

theorem eulerNew_val {φ : Rounding} (w : St (Num φ) n (histExtra 0) Unit) (d : Fin n) :
    (multistepK ForwardEuler w.cache w.h d).val = (w.y d + w.h * w.f d).val := by
  have e : multistepK ForwardEuler w.cache w.h d = (0 + w.h * 1 * w.f d) - (0 + -1 * w.y d) := rfl
  have h1 : (w.h * 1).val = w.h.val := by rw [val_mul, val_one, mul_one, round_val]
  have h2 : (0 + w.h * 1 * w.f d).val = (w.h * w.f d).val := by
    rw [val_add, Num.val_zero, zero_add, round_val, val_mul, h1, val_mul]
  have h3 : (0 + -1 * w.y d).val = -(w.y d).val := by
    rw [val_add, Num.val_zero, zero_add, round_val, val_mul, val_neg, val_one, neg_one_mul, ← val_neg, round_val]
  rw [e, val_sub, h2, h3, sub_neg_eq_add, val_add, add_comm]

theorem euler_rounded (b : ∀ φ : Rounding, Bound (Num φ)) :
    RoundedSteps eulerTableau (fun φ (rhs : Rhs (Num φ) n) => ⟨explicitMultistep ForwardEuler, rhs, b φ⟩) := by
  intro f R L D hR hL hlip hD
  set c₁ := 0 * (R + 1) + 0 * 0 + 1 * 0 + (1 * (R + 1) + (0 * (R + 1) + 0 * 0 + 1 * 0) + 1) with hc₁
  have hc₁0 : 0 ≤ c₁ := by positivity
  set c₂ := 0 + c₁ + (R + 1 * (R + 1) + (0 + c₁) + 1) with hc₂
  have hc₂0 : 0 ≤ c₂ := by positivity
  refine ⟨c₂ + 1, 1, by positivity, one_pos, fun φ u η κ hA hκ hu F hF w v hw hv => ?_⟩
  unfold Takes at hv
  change (explicitMultistepBody ForwardEuler (pureRhs F)).run w = _ at hv
  rw [explicitMultistepBody_run] at hv
  simp only [pureRhs, Option.some.injEq, Prod.mk.injEq, true_and] at hv
  subst hv
  refine ⟨w.h, push_t .., ?_, fun hω d => ?_⟩
  · simp only [St.t, St.y, St.f, push_t, push_y, push_f]
  · have e0 : (St.y (n := n) (k := histExtra 0) (X := Unit)) ⟨w.cache.push (w.t + w.h)
        (multistepK ForwardEuler w.cache w.h) (F (w.t + w.h) (multistepK ForwardEuler w.cache w.h)), w.h, w.aux⟩ =
        multistepK ForwardEuler w.cache w.h := push_y ..
    rw [e0, eulerNew_val, hw]
    have hu0 := hA.unit_nonneg
    have hη := hA.tiny_nonneg
    set e := u + η with he
    have he0 : 0 ≤ e := by positivity
    set ω : ℝ × ℝ × (Fin n → ℝ) := (w.t.val, w.h.val, vals w.y) with hωd
    obtain ⟨hh0, hh1⟩ := hD.step ω hω
    have hyR : ∀ d, |(w.y d).val| ≤ R := fun d => (norm_le_pi_norm (vals w.y : Fin n → ℝ) d).trans (hD.state ω hω)
    have e1 : stageFn eulerTableau f 0 ω = f w.t.val (vals w.y) := by
      rw [stageFn_eq eulerTableau_explicit]
      simp [eulerTableau, hωd]
    have e2 : incr eulerTableau f ω d = f w.t.val (vals w.y) d := by
      have : incr eulerTableau f ω = stageFn eulerTableau f 0 ω := by
        simp only [incr, Fin.sum_univ_succ, Fin.sum_univ_zero, eulerTableau, one_smul, add_zero]
      rw [this, e1]
    rw [e2]
    have hfR : |f w.t.val (vals w.y) d| ≤ R := by
      rw [← e1]
      exact (norm_le_pi_norm _ d).trans (hD.stage ω hω 0)
    have htR : |w.t.val| ≤ R := hD.time ω hω
    have h1 := hF w.t w.y (by linarith) (fun d => by linarith [hyR d]) d
    have hFR : |(F w.t w.y d).val| ≤ R + 1 := by
      have : |(F w.t w.y d).val| ≤ |(F w.t w.y d).val - f w.t.val (vals w.y) d| + |f w.t.val (vals w.y) d| := by
        calc |(F w.t w.y d).val| = |((F w.t w.y d).val - f w.t.val (vals w.y) d) + f w.t.val (vals w.y) d| := by ring_nf
          _ ≤ _ := abs_add_le _ _
      linarith
    have h2 := (close_add hA le_rfl (by linarith : u + η ≤ 1) le_rfl hc₁0 (Close.self he0 (hyR d))
      (close_mul hA le_rfl (by linarith : u + η ≤ 1) le_rfl le_rfl
        (Close.self he0 (by rw [abs_of_nonneg hh0]; exact hh1)) (Close.self he0 hFR))).near
    have h3 : |w.h.val * (F w.t w.y d).val - w.h.val * f w.t.val (vals w.y) d| ≤ w.h.val * κ := by
      rw [← mul_sub, abs_mul, abs_of_nonneg hh0]
      exact mul_le_mul_of_nonneg_left h1 hh0
    have h4 : ∀ A B P : ℝ, |A - ((w.y d).val + P)| ≤ c₂ * e → |P - B| ≤ w.h.val * κ →
        |A - ((w.y d).val + B)| ≤ c₂ * e + w.h.val * κ := by
      intro A B P hp hq
      calc |A - ((w.y d).val + B)| = |(A - ((w.y d).val + P)) + (P - B)| := by ring_nf
        _ ≤ _ := (abs_add_le _ _).trans (add_le_add hp hq)
    refine (h4 _ _ _ h2 h3).trans ?_
    have h5 : 0 ≤ w.h.val * κ := by positivity
    have h6 : 0 ≤ c₂ * (w.h.val * κ) := by positivity
    linarith

/-! ### The coefficients -/

macro "near_tableau" : tactic => `(tactic| (
  refine nearTableau_of (fun i j => ?_) (fun i => ?_) (fun i => ?_)
  · fin_cases i <;> fin_cases j <;>
      first
      | exact nearConst_zero
      | exact nearConst_one
      | exact nearConst_one.neg
      | exact nearConst_q _ _ (by norm_num)
      | exact (nearConst_q _ _ (by norm_num)).neg
  all_goals
    fin_cases i <;>
      first
      | exact nearConst_zero
      | exact nearConst_one
      | exact nearConst_q _ _ (by norm_num)
      | exact (nearConst_q _ _ (by norm_num)).neg))

theorem near_Runge2 : NearTableau (fun _ => Runge2) Runge2 := by near_tableau
theorem near_Runge3 : NearTableau (fun _ => Runge3) Runge3 := by near_tableau
theorem near_Heun3 : NearTableau (fun _ => Heun3) Heun3 := by near_tableau
theorem near_RungeKutta4 : NearTableau (fun _ => RungeKutta4) RungeKutta4 := by near_tableau
theorem near_RungeKutta3_8 : NearTableau (fun _ => RungeKutta3_8) RungeKutta3_8 := by near_tableau
theorem near_RungeKutta23 : NearTableau (fun _ => RungeKutta23.toTableau) RungeKutta23.toTableau := by near_tableau
theorem near_RungeKutta45 : NearTableau (fun _ => RungeKutta45.toTableau) RungeKutta45.toTableau := by near_tableau

/-! ### The property -/

/-- **C87** for `ForwardEuler` (and `AdamsBashforth1`). -/
theorem C87_ForwardEuler (b : ∀ φ : Rounding, Bound (Num φ)) :
    RoundedConverges (fun φ (rhs : Rhs (Num φ) n) => ⟨explicitMultistep ForwardEuler, rhs, b φ⟩) 1 :=
  rounded_converges (euler_rounded b) eulerTableau_explicit eulerTableau_rows (by norm_num) eulerTableau_tree

/-- **C87** for `Runge2`. -/
theorem C87_Runge2 (b : ∀ φ : Rounding, Bound (Num φ)) :
    RoundedConverges (fun φ (rhs : Rhs (Num φ) n) => ⟨erk Runge2, rhs, b φ⟩) 2 :=
  rounded_converges (erk_rounded Runge2_conditions.explicit near_Runge2 b) Runge2_conditions.explicit Runge2_rows (by norm_num)
    Runge2_tree

/-- **C87** for `Runge3`. -/
theorem C87_Runge3 (b : ∀ φ : Rounding, Bound (Num φ)) :
    RoundedConverges (fun φ (rhs : Rhs (Num φ) n) => ⟨erk Runge3, rhs, b φ⟩) 3 :=
  rounded_converges (erk_rounded Runge3_conditions.explicit near_Runge3 b) Runge3_conditions.explicit Runge3_rows (by norm_num)
    Runge3_tree

/-- **C87** for `Heun3`. -/
theorem C87_Heun3 (b : ∀ φ : Rounding, Bound (Num φ)) :
    RoundedConverges (fun φ (rhs : Rhs (Num φ) n) => ⟨erk Heun3, rhs, b φ⟩) 3 :=
  rounded_converges (erk_rounded Heun3_conditions.explicit near_Heun3 b) Heun3_conditions.explicit Heun3_rows (by norm_num)
    Heun3_tree

/-- **C87** for `RungeKutta4`. -/
theorem C87_RungeKutta4 (b : ∀ φ : Rounding, Bound (Num φ)) :
    RoundedConverges (fun φ (rhs : Rhs (Num φ) n) => ⟨erk RungeKutta4, rhs, b φ⟩) 4 :=
  rounded_converges (erk_rounded RungeKutta4_conditions.explicit near_RungeKutta4 b) RungeKutta4_conditions.explicit
    RungeKutta4_rows (by norm_num) RungeKutta4_tree

/-- **C87** for `RungeKutta3_8`. -/
theorem C87_RungeKutta3_8 (b : ∀ φ : Rounding, Bound (Num φ)) :
    RoundedConverges (fun φ (rhs : Rhs (Num φ) n) => ⟨erk RungeKutta3_8, rhs, b φ⟩) 4 :=
  rounded_converges (erk_rounded RungeKutta3_8_conditions.explicit near_RungeKutta3_8 b) RungeKutta3_8_conditions.explicit
    RungeKutta3_8_rows (by norm_num) RungeKutta3_8_tree

/-- **C87** for `RungeKutta23`, whatever the options, the library functions and the steps rejected. -/
theorem C87_RungeKutta23 (lib : ∀ φ, Lib (Num φ)) (o : ∀ φ, VarOptions (Num φ)) (b : ∀ φ : Rounding, Bound (Num φ)) :
    RoundedConverges (fun φ (rhs : Rhs (Num φ) n) => ⟨fsal (lib φ) (o φ) RungeKutta23, rhs, b φ⟩) 3 :=
  rounded_converges (fsalBody_rounded RungeKutta23_conditions.explicit near_RungeKutta23 lib o _ _ b _)
    RungeKutta23_conditions.explicit RungeKutta23_rows (by norm_num) RungeKutta23_tree

/-- **C87** for `RungeKutta45`, whatever the options, the library functions and the steps rejected. -/
theorem C87_RungeKutta45 (lib : ∀ φ, Lib (Num φ)) (o : ∀ φ, VarOptions (Num φ)) (b : ∀ φ : Rounding, Bound (Num φ)) :
    RoundedConverges (fun φ (rhs : Rhs (Num φ) n) => ⟨fsal (lib φ) (o φ) RungeKutta45, rhs, b φ⟩) 5 :=
  rounded_converges (fsalBody_rounded RungeKutta45_conditions.explicit near_RungeKutta45 lib o _ _ b _)
    RungeKutta45_conditions.explicit RungeKutta45_rows (by norm_num) RungeKutta45_tree

/-! ### The hypotheses are met -/

theorem num_erk_takes {φ : Rounding} (T : Tableau (Num φ) s) (b : Bound (Num φ)) (F : Num φ → Vec (Num φ) n → Vec (Num φ) n)
    (w : St (Num φ) n 0 (ErkAux (Num φ) n s)) :
    ∃ v, Takes ⟨erk T, pureRhs F, b⟩ w v ∧ v.t = w.t + w.h ∧ v.h = w.h := by
  obtain ⟨K', hK⟩ : ∃ K', (stages (le_refl _) T (pureRhs F) w.t w.h w.y w.f).run w.aux = some (.ok (), K') := by
    unfold stages
    simp only [run_bind, run_modify, andThen_ok]
    exact stageLoop_value _ T F w.t w.h w.y _ _
  unfold Takes
  change ∃ v, (erkBody T (pureRhs F)).run w = _ ∧ _
  rw [erkBody_run T (pureRhs F) w hK]
  exact ⟨_, rfl, push_t .., rfl⟩

namespace Demo

/-- Binary numbers with `p` digits. -/
noncomputable def digits (p : ℕ) (hp : 1 ≤ p) : Rounding := binary p hp none (by simp)

theorem digits_dyadic {p : ℕ} (hp : 1 ≤ p) (i j : ℕ) (hj : j ≤ 2 ^ p) :
    (Num.of (digits p hp) (j * (2⁻¹) ^ i)).val = j * (2⁻¹) ^ i := by
  refine (digits p hp).round_self _ ⟨j, -(i : ℤ), ?_, by simp, by simp⟩
  rw [abs_of_nonneg (by positivity)]
  exact_mod_cast hj

/-- With `p` digits and step `2^-i` the clock is exact up to `2^p` steps. -/
theorem digits_path {k : ℕ} {X : Type} {p : ℕ} (hp : 1 ≤ p) (i : ℕ) (S : Solver (Num (digits p hp)) n k X)
    (hS : ∀ w, ∃ v, Takes S w v ∧ v.t = w.t + w.h ∧ v.h = w.h) (m : ℕ) :
    ∀ (j : ℕ) (w : St (Num (digits p hp)) n k X), w.t.val = j * (2⁻¹) ^ i →
      w.h.val = (2⁻¹) ^ i → j + m ≤ 2 ^ p → ∃ l v, Path S .inf w l v ∧
        v.t.val = ((j + m : ℕ) : ℝ) * (2⁻¹) ^ i ∧ StepsBetween ((2⁻¹) ^ i) ((2⁻¹) ^ i) (w :: l) ∧ (v = w ∨ v ∈ l) := by
  induction m with
  | zero => exact fun j w ht hh _ => ⟨[], w, .nil w, ht, List.isChain_singleton _, .inl rfl⟩
  | succ m ih =>
    intro j w ht hh hj
    obtain ⟨v, hv, h1, h2⟩ := hS w
    have e : v.t.val = ((j + 1 : ℕ) : ℝ) * (2⁻¹) ^ i := by
      rw [h1, val_add, ht, hh]
      have : (j : ℝ) * (2⁻¹) ^ i + (2⁻¹) ^ i = ((j + 1 : ℕ) : ℝ) * (2⁻¹) ^ i := by push_cast; ring
      rw [this]
      exact digits_dyadic hp i (j + 1) (by omega)
    obtain ⟨l, z, hp', hz, hs, hm⟩ := ih (j + 1) v e (by rw [h2]; exact hh) (by omega)
    refine ⟨v :: l, z, .cons trivial hv hp', by rw [hz]; congr 2; omega, List.isChain_cons_cons.mpr ⟨?_, hs⟩, .inr ?_⟩
    · rw [e, ht]
      have : ((j + 1 : ℕ) : ℝ) * (2⁻¹) ^ i - j * (2⁻¹) ^ i = (2⁻¹) ^ i := by push_cast; ring
      rw [this]
      exact ⟨le_rfl, le_rfl⟩
    · rcases hm with rfl | hm
      · exact List.mem_cons_self
      · exact List.mem_cons_of_mem _ hm

/-- `y' = y²`, `y(0) = 1`, with `p` binary digits and `2^(i-1)` steps of size `2^-i`: at `t = 1/2` the computed state is within a
multiple of `2^(-i q) + 2^(i-p)` of the solution, which is 2. -/
def ReachesTwo {k : ℕ} {X : Rounding → Type} (cls : ∀ φ, Rhs (Num φ) 1 → Solver (Num φ) 1 k (X φ)) (aux : ∀ φ, X φ)
    (q : ℕ) : Prop :=
  ∃ C δ : ℝ, 0 < δ ∧ ∀ (p i : ℕ) (hp : 1 ≤ p), 1 ≤ i → i ≤ p → (2⁻¹ : ℝ) ^ i ≤ δ → (2⁻¹ : ℝ) ^ p ≤ δ * (2⁻¹) ^ i →
    ∃ l v, Path (cls (digits p hp) (pureRhs fun _ v d => v d * v d)) .inf
      ⟨⟨fun _ => 0, fun _ _ => 1, fun _ _ => 1⟩, Num.of (digits p hp) ((2⁻¹) ^ i), aux _⟩ l v ∧
      v.t.val = 1 / 2 ∧ |(v.y 0).val - 2| ≤ C * (((2⁻¹) ^ i) ^ q + (2⁻¹) ^ p / (2⁻¹) ^ i)

theorem reachesTwo {k : ℕ} {X : Rounding → Type} {cls : ∀ φ, Rhs (Num φ) 1 → Solver (Num φ) 1 k (X φ)} {q : ℕ}
    (hcls : RoundedConverges cls q) (aux : ∀ φ, X φ)
    (hS : ∀ φ F w, ∃ v, Takes (cls φ (pureRhs F)) w v ∧ v.t = w.t + w.h ∧ v.h = w.h) : ReachesTwo cls aux q := by
  obtain ⟨C, R, δ, hδ, h⟩ := hcls (fun _ v i => v i ^ 2) (fun t _ => 1 / (1 - t)) (-1) 1 0
    (1 / 2) (square_smooth q) (by norm_num) (by norm_num) square_solves
  refine ⟨|C| * (1 + R ^ 2), min δ (δ / (R ^ 2 + 1)), by positivity, fun p i hp hi hip hH hu => ?_⟩
  set φ := digits p hp with hφ
  have hA : φ.Accurate ((2⁻¹) ^ p) 0 := binary_accurate p hp (by simp)
  have hh : (Num.of φ ((2⁻¹) ^ i)).val = (2⁻¹) ^ i := by
    have := digits_dyadic hp i 1 Nat.one_le_two_pow
    rw [Nat.cast_one, one_mul] at this
    exact this
  have hi1 : ((2⁻¹ : ℝ)) ^ i ≤ 1 := pow_le_one₀ (by norm_num) (by norm_num)
  have hi0 : (0 : ℝ) < (2⁻¹) ^ i := by positivity
  have hp0 : (0 : ℝ) < (2⁻¹) ^ p := by positivity
  have hpow : 2 ^ (i - 1) ≤ 2 ^ p := Nat.pow_le_pow_right (by norm_num) (by omega)
  set s0 : St (Num φ) 1 k (X φ) :=
    ⟨⟨fun _ => 0, fun _ _ => 1, fun _ _ => 1⟩, Num.of φ ((2⁻¹) ^ i), aux _⟩ with hs0
  have ht0 : s0.t.val = 0 := Num.val_zero
  obtain ⟨l, v, hl, hv, hs, hm⟩ := digits_path hp i (cls φ (pureRhs fun _ v d => v d * v d)) (hS φ _) (2 ^ (i - 1)) 0
    s0 (by rw [Nat.cast_zero, zero_mul, ht0]) hh (by omega)
  have hv' : v.t.val = 1 / 2 := by
    rw [hv]
    obtain ⟨k, rfl⟩ : ∃ k, i = k + 1 := ⟨i - 1, by omega⟩
    rw [Nat.add_sub_cancel, zero_add, pow_succ]
    push_cast
    rw [← mul_assoc, ← mul_pow]
    norm_num
  have hvl : v ∈ l := hm.resolve_left fun e => by rw [e, ht0] at hv'; norm_num at hv'
  refine ⟨l, v, hl, hv', ?_⟩
  have hF : Computes (fun _ (v : Vec (Num φ) 1) d => v d * v d) (fun _ v i => v i ^ 2) ((2⁻¹) ^ p * R ^ 2) R := by
    intro t v _ hv d
    rw [val_mul]
    have h1 := hA.error ((v d).val * (v d).val)
    have h2 : |(v d).val * (v d).val| ≤ R ^ 2 := by
      rw [abs_mul, sq]
      exact mul_le_mul (hv d) (hv d) (abs_nonneg _) ((abs_nonneg _).trans (hv d))
    have h3 := mul_le_mul_of_nonneg_left h2 hp0.le
    show |φ.round _ - (v d).val ^ 2| ≤ _
    rw [sq (v d).val]
    linarith
  have hu1 : (2⁻¹ : ℝ) ^ p ≤ δ / (R ^ 2 + 1) := by
    refine hu.trans ((mul_le_of_le_one_right (by positivity) hi1).trans (min_le_right _ _))
  have hu2 : (2⁻¹ : ℝ) ^ p + 0 ≤ δ * (2⁻¹) ^ i := by
    rw [add_zero]
    exact hu.trans (mul_le_mul_of_nonneg_right (min_le_left _ _) hi0.le)
  have hκ : (2⁻¹ : ℝ) ^ p * R ^ 2 ≤ δ := by
    rw [le_div_iff₀ (by positivity)] at hu1
    linarith
  have := h φ ((2⁻¹) ^ p) 0 ((2⁻¹) ^ p * R ^ 2) 0 ((2⁻¹) ^ i) ((2⁻¹) ^ i) _ hA hF hi0 hu2 (hH.trans (min_le_left _ _)) hκ hδ.le
    s0 v l .inf ht0.ge (fun d => by
      show |(1 : Num φ).val - 1 / (1 - s0.t.val)| ≤ 0
      rw [val_one, ht0]; norm_num) (by
      funext d
      show (1 : Num φ) = 1 * 1
      apply Num.ext
      rw [val_mul, val_one, one_mul, ← val_one (φ := φ), round_val]) hl hs v hvl hv'.le 0
  rw [hv'] at this
  have e2 : (1 : ℝ) / (1 - 1 / 2) = 2 := by norm_num
  rw [e2] at this
  refine this.trans ?_
  have h1 : (2⁻¹ : ℝ) ^ p ≤ (2⁻¹) ^ p / (2⁻¹) ^ i := by
    rw [le_div_iff₀ hi0]
    exact mul_le_of_le_one_right hp0.le hi1
  set A : ℝ := ((2⁻¹) ^ i) ^ q
  have hA0 : 0 ≤ A := by positivity
  set B : ℝ := (2⁻¹) ^ p / (2⁻¹) ^ i with hB
  have hB0 : 0 ≤ B := by positivity
  rw [add_zero, add_zero, ← hB]
  have h2 : A + B + (2⁻¹) ^ p * R ^ 2 ≤ (1 + R ^ 2) * (A + B) := by
    have h3 := mul_le_mul_of_nonneg_right h1 (sq_nonneg R)
    have h4 : 0 ≤ R ^ 2 * A := by positivity
    linarith
  have h0 : 0 ≤ A + B + (2⁻¹) ^ p * R ^ 2 := by positivity
  calc C * (A + B + (2⁻¹) ^ p * R ^ 2) ≤ |C| * (A + B + (2⁻¹) ^ p * R ^ 2) := mul_le_mul_of_nonneg_right (le_abs_self _) h0
    _ ≤ |C| * ((1 + R ^ 2) * (A + B)) := mul_le_mul_of_nonneg_left h2 (abs_nonneg _)
    _ = _ := by ring

end Demo

open Demo in
/-- Non-vacuity of C87 for `ForwardEuler`. -/
example : ReachesTwo (fun φ (rhs : Rhs (Num φ) 1) => ⟨explicitMultistep ForwardEuler, rhs, .inf⟩) (fun _ => ()) 1 :=
  reachesTwo (C87_ForwardEuler fun _ => .inf) _ fun _ F w => by
    obtain ⟨v, h1, h2, h3, -⟩ := euler_takes_time F .inf w
    exact ⟨v, h1, h2, h3⟩

open Demo in
/-- Non-vacuity of C87 for `Runge2`. -/
example : ReachesTwo (fun φ (rhs : Rhs (Num φ) 1) => ⟨erk Runge2, rhs, .inf⟩) (fun _ _ _ => 0) 2 :=
  reachesTwo (C87_Runge2 fun _ => .inf) _ fun _ F => num_erk_takes _ _ F

open Demo in
/-- Non-vacuity of C87 for `Runge3`. -/
example : ReachesTwo (fun φ (rhs : Rhs (Num φ) 1) => ⟨erk Runge3, rhs, .inf⟩) (fun _ _ _ => 0) 3 :=
  reachesTwo (C87_Runge3 fun _ => .inf) _ fun _ F => num_erk_takes _ _ F

open Demo in
/-- Non-vacuity of C87 for `Heun3`. -/
example : ReachesTwo (fun φ (rhs : Rhs (Num φ) 1) => ⟨erk Heun3, rhs, .inf⟩) (fun _ _ _ => 0) 3 :=
  reachesTwo (C87_Heun3 fun _ => .inf) _ fun _ F => num_erk_takes _ _ F

open Demo in
/-- Non-vacuity of C87 for `RungeKutta4`. -/
example : ReachesTwo (fun φ (rhs : Rhs (Num φ) 1) => ⟨erk RungeKutta4, rhs, .inf⟩) (fun _ _ _ => 0) 4 :=
  reachesTwo (C87_RungeKutta4 fun _ => .inf) _ fun _ F => num_erk_takes _ _ F

open Demo in
/-- Non-vacuity of C87 for `RungeKutta3_8`. -/
example : ReachesTwo (fun φ (rhs : Rhs (Num φ) 1) => ⟨erk RungeKutta3_8, rhs, .inf⟩) (fun _ _ _ => 0) 4 :=
  reachesTwo (C87_RungeKutta3_8 fun _ => .inf) _ fun _ F => num_erk_takes _ _ F

namespace Demo

theorem foldl_num_zero {φ : Rounding} (m : ℕ) (g : Fin m → Num φ) (hg : ∀ j, g j = 0) :
    Fin.foldl m (fun acc j => acc + g j) 0 = 0 := by
  induction m with
  | zero => rfl
  | succ m ih =>
    rw [Fin.foldl_succ_last, ih _ fun j => hg _, hg]
    apply Num.ext
    rw [val_add, Num.val_zero, add_zero, ← Num.val_zero (φ := φ), round_val]

theorem num_mul_zero {φ : Rounding} (x : Num φ) : x * 0 = 0 := by
  apply Num.ext
  rw [val_mul, Num.val_zero, mul_zero, ← Num.val_zero (φ := φ), round_val]

theorem num_zero_div {φ : Rounding} (x : Num φ) : 0 / x = 0 := by
  apply Num.ext
  show φ.round ((0 : Num φ).val / x.val) = _
  rw [Num.val_zero, zero_div, ← Num.val_zero (φ := φ), round_val]

/-- With the right-hand side 0 a variable-step step is accepted at once. -/
theorem num_fsal_takes {φ : Rounding} {d : ℕ} (o : VarOptions (Num φ)) (c : FsalCoef (Num φ) s d) (b : Bound (Num φ))
    (w : St (Num φ) n 0 (FsalAux (Num φ) n s (RkItp (Num φ) n d))) (hw : w.f = fun _ => 0) :
    ∃ v, Takes ⟨fsal (numLib φ) o c, pureRhs fun _ _ _ => 0, b⟩ w v ∧ v.t = w.t + w.h ∧ v.h = w.h * o.maxFactor := by
  obtain ⟨K', hK⟩ : ∃ K', (stages (by omega : s + 1 ≤ s + 2) c.toTableau (pureRhs fun _ (_ : Vec (Num φ) n) _ => 0) w.t w.h w.y
      w.f).run w.aux.K = some (.ok (), K') := by
    unfold stages
    simp only [run_bind, run_modify, andThen_ok]
    exact stageLoop_value _ c.toTableau (fun _ _ _ => 0) w.t w.h w.y _ _
  obtain ⟨h1, h2, -⟩ := (stages_ok _ _ _ _ _ _ _ _ _).mp hK
  have hz : ∀ j : Fin (s + 2), Function.update K' (Fin.last _) (fun _ => (0 : Num φ)) j = fun _ => 0 := by
    intro j
    rcases Fin.eq_castSucc_or_eq_last j with ⟨j, rfl⟩ | rfl
    · rw [Function.update_of_ne (Fin.castSucc_lt_last j).ne]
      by_cases hj : j = 0
      · subst hj
        exact h1.trans hw
      · exact (Except.ok.inj (h2 j hj)).symm
    · rw [Function.update_self]
  unfold Takes
  change ∃ v, (fsalBody (numLib φ) o c.errorExponent c.toTableau (fsalErrNorm (numLib φ) o c.E)
    (pureRhs fun _ _ _ => 0)).run w = _ ∧ _
  rw [fsalBody_run, fsalFixedStep_run _ _ _ hK]
  have hen : ∀ y y', scaledErrorNorm (numLib φ) y y'
      (stepError w.h (Function.update K' (Fin.last _) fun _ => (0 : Num φ)) c.E : Vec (Num φ) n) o = 0 := by
    intro y y'
    have h0 : ∀ i, stepError w.h (Function.update K' (Fin.last _) fun _ => (0 : Num φ)) c.E i = 0 := by
      intro i
      show w.h * Fin.foldl (s + 2) (fun acc j => acc + c.E j * Function.update K' (Fin.last _) (fun _ => (0 : Num φ)) j i) 0 = 0
      rw [foldl_num_zero _ _ fun j => by rw [hz j, num_mul_zero], num_mul_zero]
    unfold scaledErrorNorm
    simp only [h0, num_zero_div]
    rw [foldl_num_zero _ _ fun j => num_mul_zero 0, num_zero_div]
    apply Num.ext
    show φ.round (Real.sqrt (0 : Num φ).val) = _
    rw [Num.val_zero, Real.sqrt_zero, ← Num.val_zero (φ := φ), round_val]
  simp only [pureRhs, andThen_ok, fsalErrNorm, hen, stepUpdate, beq_self_eq_true, if_true]
  exact ⟨_, rfl, push_t .., rfl⟩

/-- One step of size `2^-i` for `y' = 0` with `p` digits. -/
theorem oneStep {d : ℕ} {q : ℕ} (o : ∀ φ, VarOptions (Num φ)) (c : ∀ φ, FsalCoef (Num φ) s d)
    (hcls : RoundedConverges (fun φ (rhs : Rhs (Num φ) 1) => ⟨fsal (numLib φ) (o φ) (c φ), rhs, .inf⟩) q) :
    ∃ C δ : ℝ, 0 < δ ∧ ∀ (p i : ℕ) (hp : 1 ≤ p), i ≤ p → (2⁻¹ : ℝ) ^ i ≤ δ → (2⁻¹ : ℝ) ^ p ≤ δ * (2⁻¹) ^ i →
      ∃ v, Takes ⟨fsal (numLib (digits p hp)) (o _) (c _), pureRhs fun _ _ _ => 0, .inf⟩
        (⟨⟨fun _ => 0, fun _ _ => 1, fun _ _ => 0⟩, Num.of (digits p hp) ((2⁻¹) ^ i), ⟨fun _ _ => 0, ⟨fun _ _ => 0, 0⟩⟩⟩ :
          St _ 1 0 (FsalAux (Num (digits p hp)) 1 s (RkItp (Num (digits p hp)) 1 d))) v ∧ v.t.val = (2⁻¹) ^ i ∧
        |(v.y 0).val - 1| ≤ C * (((2⁻¹) ^ i) ^ q + (2⁻¹) ^ p / (2⁻¹) ^ i) := by
  obtain ⟨C, R, δ, hδ, h⟩ := hcls (fun _ _ _ => 0) (fun _ _ => 1) (-1) 2 0 1 contDiff_const (by norm_num) (by norm_num)
    (fun t _ => hasDerivAt_pi.mpr fun _ => hasDerivAt_const t 1)
  refine ⟨C, δ, hδ, fun p i hp hip hH hu => ?_⟩
  set φ := digits p hp with hφ
  have hA : φ.Accurate ((2⁻¹) ^ p) 0 := binary_accurate p hp (by simp)
  have hh : (Num.of φ ((2⁻¹) ^ i)).val = (2⁻¹) ^ i := by
    have := digits_dyadic hp i 1 Nat.one_le_two_pow
    rw [Nat.cast_one, one_mul] at this
    exact this
  set s0 : St (Num φ) 1 0 (FsalAux (Num φ) 1 s (RkItp (Num φ) 1 d)) :=
    ⟨⟨fun _ => 0, fun _ _ => 1, fun _ _ => 0⟩, Num.of φ ((2⁻¹) ^ i), ⟨fun _ _ => 0, ⟨fun _ _ => 0, 0⟩⟩⟩ with hs0
  have ht0 : s0.t.val = 0 := Num.val_zero
  obtain ⟨v, hv, hvt, -⟩ := num_fsal_takes (o φ) (c φ) .inf s0 rfl
  have hvt' : v.t.val = (2⁻¹) ^ i := by
    rw [hvt, val_add, ht0, zero_add]
    show φ.round (Num.of φ ((2⁻¹) ^ i)).val = _
    rw [round_val, hh]
  refine ⟨v, hv, hvt', ?_⟩
  have := h φ ((2⁻¹) ^ p) 0 0 0 ((2⁻¹) ^ i) ((2⁻¹) ^ i) (fun _ _ _ => 0) hA
    (fun _ _ _ _ _ => by rw [Num.val_zero]; simp) (by positivity) (by rw [add_zero]; exact hu) hH hδ.le hδ.le s0 v [v] .inf ht0.ge
    (fun _ => by show |(1 : Num φ).val - 1| ≤ 0; rw [val_one]; simp) rfl (.cons trivial hv (.nil v))
    (List.isChain_cons_cons.mpr ⟨by rw [hvt', ht0, sub_zero]; exact ⟨le_rfl, le_rfl⟩, List.isChain_singleton _⟩) v (by simp)
    (by rw [hvt']; exact pow_le_one₀ (by norm_num) (by norm_num)) 0
  simpa using this

end Demo

open Demo in
/-- Non-vacuity of C87 for `RungeKutta23` with the default options. -/
example := oneStep (fun _ => .default) _ (C87_RungeKutta23 numLib (fun _ => .default) fun _ => .inf)

open Demo in
/-- Non-vacuity of C87 for `RungeKutta45` with the default options. -/
example := oneStep (fun _ => .default) _ (C87_RungeKutta45 numLib (fun _ => .default) fun _ => .inf)

end Nbkode
