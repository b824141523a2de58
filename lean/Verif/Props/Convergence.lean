import Verif.Props.LocalError
import Verif.Props.RealLib
import Verif.Props.Termination
import Verif.Proofs.Convergence
import Mathlib.Analysis.Calculus.Deriv.Inv
import Mathlib.Analysis.Calculus.Deriv.Pi
import Mathlib.Tactic.FieldSimp

/-!
# Convergence on smooth problems: C66 (and C65 for `ForwardEuler`)
-/

set_option autoImplicit false
set_option linter.unusedSectionVars false

namespace Nbkode
open Py Spec Solver Topology

variable {n s : Nat} {I : Type}

/-! ### Every step is a Runge-Kutta step -/

theorem erk_steps {T : Tableau ℝ s} (hT : Explicit T) (b : Bound ℝ) :
    RKSteps T (fun rhs : Rhs ℝ n => ⟨erk T, rhs, b⟩) := by
  intro f u v hf h
  obtain ⟨K, f', hK, hf', rfl⟩ := (erk_takes_iff T hT _ b u v (congrArg Except.ok hf.symm)).mp h
  have e1 : (⟨u.cache.push (u.t + u.h) (rkNew T u.h u.y K) f', u.h, K⟩ :
      St ℝ n 0 (ErkAux ℝ n s)).t = u.t + u.h := push_t ..
  have e2 : (⟨u.cache.push (u.t + u.h) (rkNew T u.h u.y K) f', u.h, K⟩ :
      St ℝ n 0 (ErkAux ℝ n s)).y = rkNew T u.h u.y K := push_y ..
  refine ⟨u.h, K, hK, e1, e2, ?_⟩
  rw [e1, e2]
  exact (push_f ..).trans (Except.ok.inj hf').symm

theorem fsalBody_steps {T : Tableau ℝ s} (hT : Explicit T) (lib : Lib ℝ) (o : VarOptions ℝ) (hl : PowLaw lib)
    (ho : SaneOptions o) (ex : ℝ) (hex : 0 ≤ ex) (errNorm : ErrNorm ℝ n s) (b : Bound ℝ)
    (itp : Rhs ℝ n → ℝ → Py (St ℝ n 0 (FsalAux ℝ n s I)) (Ref ℝ n 0)) :
    RKSteps T (fun rhs : Rhs ℝ n => ⟨⟨fsalBody lib o ex T errNorm, itp⟩, rhs, b⟩) := by
  intro f u v hf h
  obtain ⟨q, K, f', -, -, hK, hf', h2, -⟩ := fsalBody_records lib o hl ho ex hex T hT errNorm _
    u v (congrArg Except.ok hf.symm) h
  have e1 : v.t = u.t + u.h * q := by simp only [St.t, h2, push_t]
  have e2 : v.y = rkNew T (u.h * q) u.y K := by simp only [St.y, h2, push_y]
  refine ⟨u.h * q, K, hK, e1, e2, ?_⟩
  rw [e1, e2]
  have e3 : v.f = f' := by simp only [St.f, h2, push_f]
  rw [e3]
  exact (Except.ok.inj hf').symm

/-- The tableau of Euler's method. -/
def eulerTableau : Tableau ℝ 0 where
  A := fun _ _ => 0
  B := fun _ => 1
  C := fun _ => 0

theorem euler_steps (b : Bound ℝ) :
    RKSteps eulerTableau (fun rhs : Rhs ℝ n => ⟨explicitMultistep ForwardEuler, rhs, b⟩) := by
  intro f u v hf h
  unfold Takes at h
  change (explicitMultistepBody ForwardEuler (pureRhs f)).run u = _ at h
  rw [explicitMultistepBody_run] at h
  have e : (multistepK ForwardEuler u.cache u.h : Vec ℝ n) = rkNew eulerTableau u.h u.y fun _ => u.f := by
    funext d
    simp only [rkNew, eulerTableau, Fin.sum_univ_succ, Fin.sum_univ_zero]
    simp [multistepK, vdot, ForwardEuler, AdamsBashforth1, adamsA, lastRows, St.y, St.f, Buffer.y, Buffer.f,
      Buffer.iLast, histExtra, Fin.foldl_succ_last]
    ring
  simp only [pureRhs, Option.some.injEq, Prod.mk.injEq, true_and] at h
  subst h
  refine ⟨u.h, fun _ => u.f, fun i => ?_, push_t .., (push_y ..).trans e, ?_⟩
  · show Except.ok _ = Except.ok _
    rw [hf]
    congr 1
    simp [eulerTableau]
  · exact (push_f ..).trans (by simp only [St.t, St.y, push_t, push_y])

theorem eulerTableau_explicit : Explicit eulerTableau := ⟨fun _ _ _ => rfl, rfl⟩

theorem eulerTableau_rows : RowSums eulerTableau := fun _ => by simp [eulerTableau]

theorem eulerTableau_tree : OrderConditions eulerTableau.A eulerTableau.B 1 :=
  Tree.orderConditions_of_check (A := fun _ _ => (0 : ℚ)) (B := fun _ => (1 : ℚ)) (by decide +kernel)
    (by intro i j; simp [eulerTableau]) (by intro i; simp [eulerTableau])

theorem hasOrder_of_steps {k : Nat} {X : Type} {T : Tableau ℝ s} {cls : Rhs ℝ n → Solver ℝ n k X} (hS : RKSteps T cls)
    (hT : Explicit T) (hR : RowSums T) {p : Nat} (hB : OrderConditions T.A T.B p) : HasOrder cls p := by
  intro f y t₀ hf hy
  obtain ⟨C, δ, hδ, h⟩ := rk_local_error hf hy hT hR hB
  refine ⟨C, δ, hδ, fun st st' hon hst ht hx d => ?_⟩
  obtain ⟨x, K, hK, e1, e2, -⟩ := hS f st st' hon.f hst
  rw [e1, add_sub_cancel_left] at hx
  rw [e1, e2, add_sub_cancel_left]
  rw [hon.y] at hK ⊢
  exact h _ _ K ht hx hK d

/-- **C65** for `ForwardEuler` (and `AdamsBashforth1`): order 1 on every smooth problem. -/
theorem C65_ForwardEuler (b : Bound ℝ) : HasOrder (fun rhs : Rhs ℝ n => ⟨explicitMultistep ForwardEuler, rhs, b⟩) 1 :=
  hasOrder_of_steps (euler_steps b) eulerTableau_explicit eulerTableau_rows eulerTableau_tree

/-! ### Convergence -/

/-- **C66** for `ForwardEuler` (and `AdamsBashforth1`). -/
theorem C66_ForwardEuler (b : Bound ℝ) : Converges (fun rhs : Rhs ℝ n => ⟨explicitMultistep ForwardEuler, rhs, b⟩) 1 :=
  converges (euler_steps b) eulerTableau_explicit eulerTableau_rows (by norm_num) eulerTableau_tree

/-- **C66** for `Runge2`. -/
theorem C66_Runge2 (b : Bound ℝ) : Converges (fun rhs : Rhs ℝ n => ⟨erk Runge2, rhs, b⟩) 2 :=
  converges (erk_steps Runge2_conditions.explicit b) Runge2_conditions.explicit Runge2_rows (by norm_num) Runge2_tree

/-- **C66** for `Runge3`. -/
theorem C66_Runge3 (b : Bound ℝ) : Converges (fun rhs : Rhs ℝ n => ⟨erk Runge3, rhs, b⟩) 3 :=
  converges (erk_steps Runge3_conditions.explicit b) Runge3_conditions.explicit Runge3_rows (by norm_num) Runge3_tree

/-- **C66** for `Heun3`. -/
theorem C66_Heun3 (b : Bound ℝ) : Converges (fun rhs : Rhs ℝ n => ⟨erk Heun3, rhs, b⟩) 3 :=
  converges (erk_steps Heun3_conditions.explicit b) Heun3_conditions.explicit Heun3_rows (by norm_num) Heun3_tree

/-- **C66** for `RungeKutta4`. -/
theorem C66_RungeKutta4 (b : Bound ℝ) : Converges (fun rhs : Rhs ℝ n => ⟨erk RungeKutta4, rhs, b⟩) 4 :=
  converges (erk_steps RungeKutta4_conditions.explicit b) RungeKutta4_conditions.explicit RungeKutta4_rows (by norm_num)
    RungeKutta4_tree

/-- **C66** for `RungeKutta3_8`. -/
theorem C66_RungeKutta3_8 (b : Bound ℝ) : Converges (fun rhs : Rhs ℝ n => ⟨erk RungeKutta3_8, rhs, b⟩) 4 :=
  converges (erk_steps RungeKutta3_8_conditions.explicit b) RungeKutta3_8_conditions.explicit RungeKutta3_8_rows
    (by norm_num) RungeKutta3_8_tree

/-- **C66** for `RungeKutta23`, whatever the steps and rejections: third order in the largest step. -/
theorem C66_RungeKutta23 (lib : Lib ℝ) (o : VarOptions ℝ) (hl : PowLaw lib) (ho : SaneOptions o) (b : Bound ℝ) :
    Converges (fun rhs : Rhs ℝ n => ⟨fsal lib o RungeKutta23, rhs, b⟩) 3 :=
  converges (fsalBody_steps RungeKutta23_conditions.explicit lib o hl ho _ (by simp [RungeKutta23, q]) _ b _)
    RungeKutta23_conditions.explicit RungeKutta23_rows (by norm_num) RungeKutta23_tree

/-- **C66** for `RungeKutta45`, whatever the steps and rejections: fifth order in the largest step. -/
theorem C66_RungeKutta45 (lib : Lib ℝ) (o : VarOptions ℝ) (hl : PowLaw lib) (ho : SaneOptions o) (b : Bound ℝ) :
    Converges (fun rhs : Rhs ℝ n => ⟨fsal lib o RungeKutta45, rhs, b⟩) 5 :=
  converges (fsalBody_steps RungeKutta45_conditions.explicit lib o hl ho _ (by simp [RungeKutta45, q]) _ b _)
    RungeKutta45_conditions.explicit RungeKutta45_rows (by norm_num) RungeKutta45_tree

/-! ### The hypotheses are met -/

theorem erk_takes {T : Tableau ℝ s} (hT : Explicit T) (b : Bound ℝ) (f : ℝ → Vec ℝ n → Vec ℝ n)
    (u : St ℝ n 0 (ErkAux ℝ n s)) (hf : u.f = f u.t u.y) :
    ∃ v, Takes ⟨erk T, pureRhs f, b⟩ u v ∧ v.t = u.t + u.h ∧ v.h = u.h ∧ v.f = f v.t v.y := by
  have h := (erk_takes_iff T hT (pureRhs f) b u _ (congrArg Except.ok hf.symm)).mpr
    ⟨_, _, stageFn_stages hT f u.t u.h u.y, rfl, rfl⟩
  obtain ⟨x, K, -, h1, h2, h3⟩ := erk_steps hT b f u _ hf h
  exact ⟨_, h, push_t .., rfl, h3⟩

/-- There are paths of any number of steps. -/
theorem erk_path {T : Tableau ℝ s} (hT : Explicit T) (b : Bound ℝ) (f : ℝ → Vec ℝ n → Vec ℝ n) (m : Nat)
    (u : St ℝ n 0 (ErkAux ℝ n s)) (hf : u.f = f u.t u.y) (hh : 0 < u.h) :
    ∃ l v, l.length = m ∧ Path ⟨erk T, pureRhs f, b⟩ .inf u l v ∧ StepsUpTo u.h (u :: l) := by
  induction m generalizing u with
  | zero => exact ⟨[], u, rfl, .nil u, List.isChain_singleton _⟩
  | succ m ih =>
    obtain ⟨v, hv, h1, h2, h3⟩ := erk_takes hT b f u hf
    obtain ⟨l, w, hl, hp, hs⟩ := ih v h3 (by rw [h2]; exact hh)
    refine ⟨v :: l, w, by simp [hl], .cons trivial hv hp, List.isChain_cons_cons.mpr ⟨?_, ?_⟩⟩
    · rw [h1, add_sub_cancel_left]; exact ⟨hh, le_rfl⟩
    · rw [h2] at hs; exact hs

/-- The logistic-like problem `y' = y²`, `y(0) = 1`, whose solution is `1 / (1 - t)`. -/
theorem square_solves (t : ℝ) (ht : t ∈ Set.Ioo (-1 : ℝ) 1) :
    SolvesAt (n := 1) (fun _ v i => v i ^ 2) (fun t _ => 1 / (1 - t)) t := by
  refine hasDerivAt_pi.mpr fun _ => ?_
  have h0 : (1 : ℝ) - t ≠ 0 := by have := ht.2; intro h; linarith
  have h1 : HasDerivAt (fun t : ℝ => 1 - t) (-1) t := by simpa using (hasDerivAt_id t).const_sub 1
  have h2 := h1.fun_inv h0
  simp only [one_div]
  refine h2.congr_deriv ?_
  field_simp

theorem square_smooth (p : ℕ) : ContDiff ℝ p (joint (n := 1) (fun _ v i => v i ^ 2)) := by
  refine contDiff_pi.mpr fun i => ?_
  exact ((contDiff_apply ℝ ℝ i).comp contDiff_snd).pow 2

/-- Non-vacuity for C66: `RungeKutta4` on `y' = y²`, `y(0) = 1`, up to `T = 1/2`; a path of any number of steps of any small
size `h`, so also of `m` steps of size `1/(2m)`. -/
example : ∃ C δ, 0 < δ ∧ ∀ h : ℝ, 0 < h → h ≤ δ → ∀ m : ℕ, ∃ l v,
    l.length = m ∧ Path ⟨erk RungeKutta4, pureRhs (n := 1) fun _ v i => v i ^ 2, .inf⟩ .inf
      ⟨⟨fun _ => 0, fun _ _ => 1, fun _ _ => 1⟩, h, fun _ _ => 0⟩ l v ∧
    ∀ u ∈ l, u.t ≤ 1 / 2 → |u.y 0 - 1 / (1 - u.t)| ≤ C * h ^ 4 := by
  obtain ⟨C, δ, hδ, h⟩ := C66_RungeKutta4 (n := 1) .inf (fun _ v i => v i ^ 2) (fun t _ => 1 / (1 - t)) (-1) 1 0 (1 / 2)
    (square_smooth 4) (by norm_num) (by norm_num) square_solves
  refine ⟨C, δ, hδ, fun x hx hxδ m => ?_⟩
  obtain ⟨l, v, hl, hp, hs⟩ := erk_path (RungeKutta4_conditions (α := ℝ)).explicit .inf (fun _ v i => v i ^ 2) m
    (⟨⟨fun _ => 0, fun _ _ => 1, fun _ _ => 1⟩, x, fun _ _ => 0⟩ : St ℝ 1 0 (ErkAux ℝ 1 3))
    (by funext i; simp [St.f, St.y, Buffer.f, Buffer.y]) hx
  refine ⟨l, v, hl, hp, fun u hu hut => h x _ v l .inf hxδ rfl ⟨?_, ?_⟩ hp hs u hu hut 0⟩
  · funext i; simp [St.y, St.t, Buffer.t, Buffer.y]
  · funext i; simp [St.f, St.y, Buffer.f, Buffer.y]

/-- Non-vacuity for C65: `RungeKutta4` on `y' = y²` from any point of the solution; the step exists. -/
example : ∃ C δ, 0 < δ ∧ ∀ u : St ℝ 1 0 (ErkAux ℝ 1 3), On (fun _ v i => v i ^ 2) (fun t _ => 1 / (1 - t)) u →
    |u.t| < δ → |u.h| < δ → ∃ v, Takes ⟨erk RungeKutta4, pureRhs fun _ v i => v i ^ 2, .inf⟩ u v ∧
      |v.y 0 - 1 / (1 - (u.t + u.h))| ≤ C * |u.h| ^ 5 := by
  obtain ⟨C, δ, hδ, h⟩ := C65_RungeKutta4 (n := 1) .inf (fun _ v i => v i ^ 2) (fun t _ => 1 / (1 - t)) 0
    (square_smooth 4).contDiffAt
    (Filter.eventually_of_mem (isOpen_Ioo.mem_nhds (by norm_num : (0 : ℝ) ∈ Set.Ioo (-1) 1)) square_solves)
  refine ⟨C, δ, hδ, fun u hu ht hh => ?_⟩
  obtain ⟨v, hv, h1, -⟩ := erk_takes (RungeKutta4_conditions (α := ℝ)).explicit .inf
    (fun _ v i => v i ^ 2) u hu.f
  refine ⟨v, hv, ?_⟩
  have := h u v hu hv (by simpa using ht) (by rw [h1]; simpa using hh) 0
  rw [h1] at this
  simpa using this

open Demo in
/-- A variable-step step on a continuous problem succeeds. -/
theorem fsal_takes {d : Nat} {o : VarOptions ℝ} (ho : ShrinkingOptions o) (c : FsalCoef ℝ s d) (hT : Explicit c.toTableau) (hex : 0 ≤ c.errorExponent) (b : Bound ℝ)
    (f : ℝ → Vec ℝ n → Vec ℝ n) (hf : Continuous fun p : ℝ × Vec ℝ n => f p.1 p.2)
    (u : St ℝ n 0 (FsalAux ℝ n s (RkItp ℝ n d))) (hu : u.f = f u.t u.y) (hh : 0 < u.h) :
    ∃ v, Takes ⟨fsal realLib o c, pureRhs f, b⟩ u v ∧ u.t < v.t ∧ v.t ≤ u.t + u.h := by
  obtain ⟨δ, M, hδ, hB⟩ := continuous_bounded f hf u.t u.y
  have hB' : BoundedNear (pureRhs f) δ (max M 0) u.t u.y := fun t' y' ht hy v hv d =>
    (hB t' y' ht hy v hv d).trans (le_max_left _ _)
  obtain ⟨r, v, hr⟩ := fsalBody_returns hT ho realLib_powLaw hex
    (div_nonneg (Finset.sum_nonneg fun j _ => abs_nonneg _) ho.atol_pos.le)
    (fsalErrNorm_bound realLib_sqrtLaw ho.atol_pos ho.rtol_nonneg c.E) hδ (le_max_right _ _) u
    (congrArg Except.ok hu.symm) hB' hh
  have hok : ∀ (st : St ℝ n 0 (FsalAux ℝ n s (RkItp ℝ n d))) r v,
      (fsalBody realLib o c.errorExponent c.toTableau (fsalErrNorm realLib o c.E) (pureRhs f)).run st =
        some (r, v) → st.f = f st.t st.y → r = .ok () := by
    refine fsalBody_ind _ _ _ _ _ _ (fun st r _ => st.f = f st.t st.y → r = .ok ()) ?_ ?_ ?_ ?_
    · intro st e K' h hst
      have := (fsalFixedStep_ok c.toTableau hT (pureRhs f) st (congrArg Except.ok hst.symm) _ _).mpr
        ⟨_, stageFn_stages (withLast_explicit hT) f st.t st.h st.y, rfl, rfl⟩
      rw [h] at this
      simp at this
    · intro st y' K' e _ h hst
      rcases h with h | ⟨en, h1, h2⟩
      · simp [fsalErrNorm] at h
      · exfalso
        unfold stepUpdate at h2
        split at h2
        · simp at h2
        · rename_i hne
          have hen : 0 ≤ en := by
            have := Except.ok.inj h1
            rw [← this]
            exact Real.sqrt_nonneg _
          have hpos : 0 < en := lt_of_le_of_ne hen fun h => hne (by simp [← h])
          have := realLib_powLaw.pos en c.errorExponent hpos
          unfold pyDiv at h2
          rw [if_neg (by simpa using this.ne')] at h2
          simp [bind, Except.bind, pure, Except.pure] at h2
    · intro _ _ _ _ _ _ _ _ _ _; rfl
    · intro st y' K' en h' r s' _ _ _ _ ih hst; exact ih hst
  have := hok u r v hr hu
  subst this
  obtain ⟨q, K, f', hq0, hq1, -, -, h2, -⟩ := fsalBody_records _ _ realLib_powLaw
    ⟨ho.minFactor_pos, ho.minFactor_lt.le, zero_lt_one.trans_le ho.maxFactor_ge, ho.safety_lt.le⟩ c.errorExponent hex _ hT _ _
    u v (congrArg Except.ok hu.symm) hr
  have e1 : v.t = u.t + u.h * q := by simp only [St.t, h2, push_t]
  refine ⟨v, hr, ?_, ?_⟩
  · rw [e1]; have := mul_pos hh hq0; linarith
  · rw [e1]; have := mul_le_mul_of_nonneg_left hq1 hh.le; linarith

open Demo in
/-- Non-vacuity for C66 with variable steps: `RungeKutta45` on `y' = y²` with the default options; a first step of size at most
`h` exists for every small `h`. -/
example : ∃ C δ, 0 < δ ∧ ∀ h : ℝ, 0 < h → h ≤ δ → ∃ v,
    Path ⟨fsal realLib .default RungeKutta45, pureRhs (n := 1) fun _ v i => v i ^ 2, .inf⟩ .inf
      ⟨⟨fun _ => 0, fun _ _ => 1, fun _ _ => 1⟩, h, ⟨fun _ _ => 0, ⟨fun _ _ => 0, 0⟩⟩⟩ [v] v ∧
    (v.t ≤ 1 / 2 → |v.y 0 - 1 / (1 - v.t)| ≤ C * h ^ 5) := by
  obtain ⟨C, δ, hδ, h⟩ := C66_RungeKutta45 (n := 1) realLib .default realLib_powLaw default_sane .inf (fun _ v i => v i ^ 2)
    (fun t _ => 1 / (1 - t)) (-1) 1 0 (1 / 2) (square_smooth 5) (by norm_num) (by norm_num) square_solves
  refine ⟨C, δ, hδ, fun x hx hxδ => ?_⟩
  obtain ⟨v, hv, h1, h2⟩ := fsal_takes default_shrinking RungeKutta45 (RungeKutta45_conditions (α := ℝ)).explicit (by simp [RungeKutta45, q]) .inf
    (fun _ v i => v i ^ 2) (by fun_prop)
    (⟨⟨fun _ => 0, fun _ _ => 1, fun _ _ => 1⟩, x, ⟨fun _ _ => 0, ⟨fun _ _ => 0, 0⟩⟩⟩ : St ℝ 1 0 (FsalAux ℝ 1 5 (RkItp ℝ 1 4)))
    (by funext i; simp [St.f, St.y, Buffer.f, Buffer.y]) hx
  refine ⟨v, .cons trivial hv (.nil v), fun hut => h x _ v [v] .inf hxδ rfl ⟨?_, ?_⟩ (.cons trivial hv (.nil v)) ?_ v
    (by simp) hut 0⟩
  · funext i; simp [St.y, St.t, Buffer.t, Buffer.y]
  · funext i; simp [St.f, St.y, Buffer.f, Buffer.y]
  · refine List.isChain_cons_cons.mpr ⟨⟨by linarith, ?_⟩, List.isChain_singleton _⟩
    linarith

end Nbkode
