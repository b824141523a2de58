import Verif.Proofs.Fits
import Verif.Props.Polynomials
import Verif.Props.Grid

/-!
# C95: where the integration stops

The documentation of the constructor (`nbkode/core.py:52-57`) says: "In fixed step methods, the integration stops just before t_bound. In
variable step methods, the integration stops at t_bound." The integration has stopped when `step()` returns `None`. The first sentence is
proved, with the last time. The second one is false: with the default options a solver may stop after a tenth of the way to `t_bound`.
-/

set_option autoImplicit false
set_option linter.unusedSectionVars false

namespace Nbkode
open Py Spec Solver

section field
variable {α : Type} [Field α] [LinearOrder α] [IsStrictOrderedRing α] [BEq α] [LawfulBEq α]
variable {n k : Nat} {X : Type}

/-- The integration has stopped: `step()` returns `None`. -/
def Spec.Stopped (S : Solver α n k X) (s : St α n k X) : Prop := ∃ s', (S.step none none).run s = some (.ok .none, s')

theorem stopped_iff {S : Solver α n k X} {s : St α n k X} : Stopped S s ↔ ¬ Fits S.tBound s := by
  unfold Stopped
  simp only [step_none_run, andThen_eq_some]
  constructor
  · rintro ⟨s', ⟨e, s1, h1, h2⟩ | ⟨c, s1, h1, h2⟩⟩
    · simp at h2
    · cases c with
      | true => simp at h2
      | false => exact (pstep_false.mp h1).1
  · intro h
    exact ⟨s, Or.inr ⟨false, s, pstep_false.mpr ⟨h, rfl⟩, by simp⟩⟩

/-- **C95.** The integration never goes on once it has stopped: after any calls whatever the time, the state, the derivative and the step
size are the same and the integration is still stopped. -/
theorem C95_for_ever (S : Solver α n k X) (hM : IsLibrary S.method) (bo : BisectOpts α) (argsort : List α → List Nat)
    (s s' : St α n k X) (hs : Stopped S s) (h : Session S bo argsort s s') :
    s'.t = s.t ∧ s'.y = s.y ∧ s'.f = s.f ∧ s'.h = s.h ∧ Stopped S s' := by
  have := session_invariant (S := S) (fun u => u.cache = s.cache ∧ u.h = s.h ∧ ¬ Fits S.tBound u) ?_ h ⟨rfl, rfl, stopped_iff.mp hs⟩
  · obtain ⟨h1, h2, h3⟩ := this
    exact ⟨by simp only [St.t, h1], by simp only [St.y, h1], by simp only [St.f, h1], h2, stopped_iff.mpr h3⟩
  · intro u v hp hu
    cases hp with
    | body b hb hf _ => exact absurd (fits_mono hb hf) hu.2.2
    | interp t h =>
      obtain ⟨h1, h2⟩ := hM.shaped.interp _ _ _ _ _ h
      refine ⟨h1.trans hu.1, h2.trans hu.2.1, ?_⟩
      have := hu.2.2
      unfold Fits St.t at *
      rw [h1, h2]
      exact this

/-- **C95** (variable-step classes included). When the integration stops after some calls, `t_bound` has not been passed, and is less than
one step away. Missing: the documentation promises the variable-step classes to stop at `t_bound` itself, see `C95_refuted_RungeKutta45`. -/
theorem C95_within_a_step_partial (S : Solver α n k X) (hM : WellConfigured S.method) (bo : BisectOpts α) (argsort : List α → List Nat) (tb : α)
    (hb : S.tBound = .fin tb) (s s' : St α n k X) (hs : s.t ≤ tb) (h : Session S bo argsort s s') (h' : Stopped S s') :
    s'.t ≤ tb ∧ tb < s'.t + s'.h := by
  have h1 := C07_bound S hM bo argsort s s' (by rw [hb]; simpa [Past] using hs) h
  have h2 := stopped_iff.mp h'
  rw [hb] at h1 h2
  exact ⟨by simpa [Past] using h1, by simpa [Fits, NotBeyond] using h2⟩

/-- **C95** for the fixed-step classes: the integration stops after exactly the steps that fit, less than a step before `t_bound` or at it. -/
theorem C95_fixed [FloorSemiring α] (S : Solver α n k X) (hM : IsFixed S.method) (tb : α) (hb : S.tBound = .fin tb) (s : St α n k X)
    (hu : Unfailing S s) (hh : 0 < s.h) (hle : s.t ≤ tb) :
    ∃ l s', Path S S.tBound s l s' ∧ l.length = ⌊(tb - s.t) / s.h⌋₊ ∧ s'.t = s.t + (⌊(tb - s.t) / s.h⌋₊ : α) * s.h ∧ s'.h = s.h ∧
      Stopped S s' ∧ tb - s.h < s'.t ∧ s'.t ≤ tb ∧ ∀ u ∈ s :: l.dropLast, l ≠ [] → ¬ Stopped S u := by
  obtain ⟨l, s', hp, hl, hn⟩ := path_floor hM hu hh hle
  rw [← hb] at hp hn
  obtain ⟨-, h2, h3⟩ := path_grid hM hp
  rw [hl] at h2
  have hx : 0 ≤ (tb - s.t) / s.h := div_nonneg (by linarith) hh.le
  have h4 := Nat.floor_le hx
  rw [le_div_iff₀ hh] at h4
  refine ⟨l, s', hp, hl, h2, h3, stopped_iff.mpr hn, ?_, by linarith, ?_⟩
  · rw [hb] at hn
    simp only [Fits, NotBeyond, not_not, h3] at hn
    linarith
  · have : ∀ {s s' : St α n k X} {l}, Path S S.tBound s l s' → ∀ u ∈ s :: l.dropLast, l ≠ [] → Fits S.tBound u := by
      intro s s' l hp
      induction hp with
      | nil => simp
      | @cons s s1 s2 l hf _ _ ih =>
        intro u hu _
        rcases List.mem_cons.mp hu with rfl | hu
        · exact hf
        · cases l with
          | nil => simp at hu
          | cons a l => exact ih u (by simpa using hu) (by simp)
    intro u hu' hl' hs
    exact stopped_iff.mp hs (this hp u hu' hl')

end field

/-! ### The variable-step classes do not stop at `t_bound` -/

section real
open Demo
variable {n s d : Nat}

/-- One step of a tenth of the way, and the next one is proposed ten times as long. -/
theorem stops_early (c : FsalCoef ℝ s d) (hT : Explicit c.toTableau) (hex : 0 ≤ c.errorExponent) {q : Nat} (hq : 1 ≤ q)
    (hG : ∀ b, GrowsOn (fun rhs : Rhs ℝ 1 => ⟨fsal realLib .default c, rhs, b⟩) (fsalStarts c .default) .default q)
    (t₀ tb : ℝ) (hlt : t₀ < tb) (sel) (g) (K) (itp) :
    ∃ s0 s1, fsalInit c.P .default sel g K itp (pureRhs fun _ _ _ => 1) t₀ (fun _ : Fin 1 => t₀) none (some ((tb - t₀) / 10.5)) = .ok s0 ∧
      (Solver.step ⟨fsal realLib .default c, pureRhs fun _ _ _ => 1, .fin tb⟩ none none).run s0 =
        some (.ok (.single s1.t (.row (Buffer.iLast 0))), s1) ∧
      s1.t = t₀ + (tb - t₀) / 10.5 ∧
      Stopped ⟨fsal realLib .default c, pureRhs fun _ _ _ => 1, .fin tb⟩ s1 := by
  obtain ⟨s0, h1, h2, h3⟩ := default_starts c (fun _ _ _ => 1) t₀ (fun _ : Fin 1 => t₀) ((tb - t₀) / 10.5) sel g K itp
  have h0 := fsal_startsAt (n := 1) c realLib .default (.fin tb)
  have e1 : s0.t = t₀ := h0.times _ _ _ _ h3 _
  have e2 : s0.y = fun _ => t₀ := h0.y _ _ _ _ h3
  have e3 : s0.f = fun _ => 1 := (Except.ok.inj (h0.f _ _ _ _ h3)).symm
  have hpos : 0 < s0.h := by rw [h2]; have : 0 < tb - t₀ := by linarith
                             positivity
  obtain ⟨s1, ht, -, -⟩ := fsal_takes default_shrinking c hT hex (.fin tb) (fun _ _ _ => 1) (by fun_prop) s0 (by rw [e3]) hpos
  have hfit : Fits (.fin tb) s0 := by
    simp only [Fits, NotBeyond, e1, h2]
    rw [not_lt]
    have : (tb - t₀) / 10.5 ≤ tb - t₀ := div_le_self (by linarith) (by norm_num)
    linarith
  obtain ⟨g1, g2⟩ := hG (.fin tb) (fun _ _ _ => 1) (fun t _ => t) t₀ s0 h3 (line_polynomial.mono hq) [s1] s1 (.cons hfit ht (.nil _))
  have hm : (VarOptions.default : VarOptions ℝ).maxFactor = 10 := by
    show ((10 : Nat) : ℝ) = 10
    norm_num
  simp only [List.length_cons, List.length_nil, zero_add, pow_one, Finset.sum_range_one, pow_zero, mul_one, h2, hm] at g1 g2
  refine ⟨s0, s1, h1, ?_, g2, stopped_iff.mpr ?_⟩
  · rw [step_none_run, pstep_true.mpr ⟨hfit, ht⟩]
    simp
  · simp only [Fits, NotBeyond, not_not, g1, g2]
    have : 0 < tb - t₀ := by linarith
    have e : (tb - t₀) / 10.5 * 11 = (tb - t₀) * (22 / 21) := by ring
    nlinarith

/-- **C95 is false** for `RungeKutta45`: for every `t₀ < t_bound`, on `y' = 1` with the default options and a first step of `1/10.5` of the way,
the first `step()` makes that step, and there the integration stops: every later `step()` returns `None`, and no call moves the solver. -/
theorem C95_refuted_RungeKutta45 (t₀ tb : ℝ) (hlt : t₀ < tb) (sel) (g) (K) (itp) :
    ∃ s0 s1, fsalInit RungeKutta45.P .default sel g K itp (pureRhs fun _ _ _ => 1) t₀ (fun _ : Fin 1 => t₀) none (some ((tb - t₀) / 10.5)) = .ok s0 ∧
      (Solver.step ⟨fsal realLib .default RungeKutta45, pureRhs fun _ _ _ => 1, .fin tb⟩ none none).run s0 =
        some (.ok (.single s1.t (.row (Buffer.iLast 0))), s1) ∧
      s1.t = t₀ + (tb - t₀) / 10.5 ∧ s1.t < tb ∧
      ∀ bo argsort s', Session ⟨fsal realLib .default RungeKutta45, pureRhs fun _ _ _ => 1, .fin tb⟩ bo argsort s1 s' →
        s'.t = s1.t ∧ Stopped ⟨fsal realLib .default RungeKutta45, pureRhs fun _ _ _ => 1, .fin tb⟩ s' := by
  obtain ⟨s0, s1, h1, h2, h3, h4⟩ := stops_early RungeKutta45 RungeKutta45_conditions.explicit (by simp [RungeKutta45, q]) (by norm_num : 1 ≤ 4)
    (fun b => C93_RungeKutta45_grows realLib_real .default (sane_of_shrinking default_shrinking) b) t₀ tb hlt sel g K itp
  refine ⟨s0, s1, h1, h2, h3, ?_, fun bo argsort s' hs => ?_⟩
  · have : (tb - t₀) / 10.5 < tb - t₀ := div_lt_self (by linarith) (by norm_num)
    linarith
  · obtain ⟨g1, -, -, -, g5⟩ := C95_for_ever _ (Or.inr ⟨realLib, .default, _, .fsal _⟩) bo argsort s1 s' h4 hs
    exact ⟨g1, g5⟩

/-- **C95 is false** for `RungeKutta23`, in the same way. -/
theorem C95_refuted_RungeKutta23 (t₀ tb : ℝ) (hlt : t₀ < tb) (sel) (g) (K) (itp) :
    ∃ s0 s1, fsalInit RungeKutta23.P .default sel g K itp (pureRhs fun _ _ _ => 1) t₀ (fun _ : Fin 1 => t₀) none (some ((tb - t₀) / 10.5)) = .ok s0 ∧
      (Solver.step ⟨fsal realLib .default RungeKutta23, pureRhs fun _ _ _ => 1, .fin tb⟩ none none).run s0 =
        some (.ok (.single s1.t (.row (Buffer.iLast 0))), s1) ∧
      s1.t = t₀ + (tb - t₀) / 10.5 ∧ s1.t < tb ∧
      ∀ bo argsort s', Session ⟨fsal realLib .default RungeKutta23, pureRhs fun _ _ _ => 1, .fin tb⟩ bo argsort s1 s' →
        s'.t = s1.t ∧ Stopped ⟨fsal realLib .default RungeKutta23, pureRhs fun _ _ _ => 1, .fin tb⟩ s' := by
  obtain ⟨s0, s1, h1, h2, h3, h4⟩ := stops_early RungeKutta23 RungeKutta23_conditions.explicit (by simp [RungeKutta23, q]) (by norm_num : 1 ≤ 2)
    (fun b => C93_RungeKutta23_grows realLib_real .default (sane_of_shrinking default_shrinking) b) t₀ tb hlt sel g K itp
  refine ⟨s0, s1, h1, h2, h3, ?_, fun bo argsort s' hs => ?_⟩
  · have : (tb - t₀) / 10.5 < tb - t₀ := div_lt_self (by linarith) (by norm_num)
    linarith
  · obtain ⟨g1, -, -, -, g5⟩ := C95_for_ever _ (Or.inr ⟨realLib, .default, _, .fsal _⟩) bo argsort s1 s' h4 hs
    exact ⟨g1, g5⟩

/-! ### Cases -/

/-- The explicit Runge-Kutta methods do not fail. -/
theorem erk_unfailing {T : Tableau ℝ s} (hT : Explicit T) (b : Bound ℝ) (f : ℝ → Vec ℝ n → Vec ℝ n) {u : St ℝ n 0 (ErkAux ℝ n s)}
    (hf : u.f = f u.t u.y) : Unfailing ⟨erk T, pureRhs f, b⟩ u := by
  intro l v hp
  induction hp with
  | nil u => exact (erk_takes hT b f u hf).imp fun _ h => h.1
  | @cons u u1 v l _ ht _ ih =>
    obtain ⟨w, h1, -, -, h4⟩ := erk_takes hT b f u hf
    exact ih (takes_det h1 ht ▸ h4)

/-- `C95_fixed`: `RungeKutta4` on any continuous problem, from `0` with the step `1/4`, stops at `3/4` if `t_bound = 0.9`, and `C95_for_ever`
applies there. -/
example (f : ℝ → Vec ℝ 1 → Vec ℝ 1) (y0 : Vec ℝ 1) (g : Buffer ℝ 1 0) (K : ErkAux ℝ 1 3) : ∃ s0 s', erkInit g K (pureRhs f) 0 y0 (some (1 / 4)) = .ok s0 ∧
    Session ⟨erk RungeKutta4, pureRhs f, .fin 0.9⟩ .std (fun _ => []) s' s' ∧
    Stopped ⟨erk RungeKutta4, pureRhs f, .fin 0.9⟩ s' ∧ s'.t = 3 / 4 := by
  have hi : erkInit g K (pureRhs f) 0 y0 (some (1 / 4)) = .ok ⟨Buffer.init g 0 y0 (f 0 y0), 1 / 4, K⟩ := rfl
  have e : (Buffer.init g 0 y0 (f 0 y0)).t = 0 := init_ts _ _ _ _ _
  obtain ⟨l, s', -, -, h3, -, h5, -⟩ := C95_fixed (⟨erk RungeKutta4, pureRhs f, .fin 0.9⟩ : Solver ℝ 1 0 _) (.erk _) 0.9 rfl
    ⟨Buffer.init g 0 y0 (f 0 y0), 1 / 4, K⟩ (erk_unfailing RungeKutta4_conditions.explicit _ f (by simp only [St.t, St.y, St.f, e, Buffer.y, Buffer.f, init_ys, init_fs]))
    (by norm_num) (by simp only [St.t, e]; norm_num)
  refine ⟨_, s', hi, .start _, h5, ?_⟩
  rw [h3]
  simp only [St.t, e]
  have : ⌊((0.9 : ℝ) - 0) / (1 / 4)⌋₊ = 3 := by
    rw [Nat.floor_eq_iff (by norm_num)]
    norm_num
  rw [this]
  norm_num

/-- `C95_within_a_step_partial`: the stopped solver of `C95_refuted_RungeKutta45`. -/
example (g) (K) (itp) (sel) : ∃ s0 s',
    fsalInit RungeKutta45.P .default sel g K itp (pureRhs fun _ _ _ => 1) 0 (fun _ : Fin 1 => 0) none (some ((1 - 0) / 10.5)) = .ok s0 ∧
    Session ⟨fsal realLib .default RungeKutta45, pureRhs fun _ _ _ => 1, .fin 1⟩ .std (fun _ => []) s0 s' ∧
    Stopped ⟨fsal realLib .default RungeKutta45, pureRhs fun _ _ _ => 1, .fin 1⟩ s' ∧ s'.t ≤ 1 ∧ 1 < s'.t + s'.h := by
  obtain ⟨s0, s1, h1, h2, h3, h4⟩ := stops_early RungeKutta45 RungeKutta45_conditions.explicit (by simp [RungeKutta45, q]) (by norm_num : 1 ≤ 4)
    (fun b => C93_RungeKutta45_grows realLib_real .default (sane_of_shrinking default_shrinking) b) 0 1 one_pos sel g K itp
  have hs0 : s0.t = 0 := (fsal_startsAt (n := 1) RungeKutta45 realLib .default (.fin 1)).times _ _ _ _ ⟨sel, g, K, itp, none, some _, h1⟩ _
  have hS : Session ⟨fsal realLib .default RungeKutta45, pureRhs fun _ _ _ => 1, .fin 1⟩ .std (fun _ => []) s0 s1 :=
    .call (.step none none) (.ok ()) (.start _) (by simp [Call.exec, h2])
  refine ⟨s0, s1, h1, hS, h4, C95_within_a_step_partial _
    (Or.inr ⟨realLib, .default, _, .fsal _, realLib_powLaw, (sane_of_shrinking default_shrinking), by simp [RungeKutta45, q]⟩) .std _ 1 rfl s0 s1
    (by rw [hs0]; norm_num) hS h4⟩

end real

end Nbkode
