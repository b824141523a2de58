import Verif.Props.Termination
import Verif.Props.Startup

/-!
# C64: step sizes that are not positive

The constructors do not look at the step size. A fixed-step solver constructed with `h = 0` or `h < 0` never gets to a later time:
`step(upto_t)`, `skip(upto_t)` and `run` do not come back.
-/

set_option autoImplicit false
set_option linter.unusedSectionVars false

namespace Nbkode
open Py Spec Solver

section field
variable {α : Type} [Field α] [LinearOrder α] [IsStrictOrderedRing α] [BEq α] [LawfulBEq α]
variable {n k : Nat} {X : Type} {S : Solver α n k X} (hM : IsFixed S.method) (hT : ∀ s, ∃ s', Takes S s s') {u : α}

include hM hT

theorem stuck_step {s : St α n k X} (h1 : s.t ≤ u) (h2 : s.h ≤ 0) {b : Bound α} (hb : NotBeyond b u) :
    ∃ s', (S.pstep b).run s = some (.ok true, s') ∧ s'.t ≤ s.t ∧ s'.h ≤ 0 := by
  obtain ⟨s', h⟩ := hT s
  have e1 := hM.shaped.body_fixed _ _ _ h
  have e2 := hM.shaped.body_h _ _ _ _ h
  refine ⟨s', pstep_true.2 ⟨?_, h⟩, by rw [e1]; linarith, by rw [e2]; exact h2⟩
  have : s.t + s.h ≤ u := by linarith
  cases b with
  | inf => trivial
  | fin b => exact fun h => hb (lt_of_lt_of_le h this)

theorem stuck_steps {b : Bound α} (hb : NotBeyond b u) : ∀ s : St α n k X, s.t ≤ u → s.h ≤ 0 → ¬ Halts (S.stepsLoop b) s := by
  rintro st h1 h2 ⟨r, s', h⟩
  refine stepsLoop.fixpoint_induct S b (fun x => ∀ s r s', x.run s = some (r, s') → s.t ≤ u → s.h ≤ 0 → False)
    (admissible_post _) ?_ st r s' h h1 h2
  intro loop ih s r s' h h1 h2
  obtain ⟨s1, g1, g2, g3⟩ := stuck_step hM hT h1 h2 hb
  rw [run_bind, g1] at h
  simp only [andThen_ok, if_true, run_bind, run_get] at h
  cases hl : loop.run s1 with
  | none => rw [hl] at h; cases h
  | some p => exact ih _ _ _ hl (g2.trans h1) g3

theorem stuck_skip {b : Bound α} (hb : NotBeyond b u) : ∀ s : St α n k X, s.t ≤ u → s.h ≤ 0 → ¬ Halts (S.skipLoop b) s := by
  rintro st h1 h2 ⟨r, s', h⟩
  refine skipLoop.fixpoint_induct S b (fun x => ∀ s r s', x.run s = some (r, s') → s.t ≤ u → s.h ≤ 0 → False)
    (admissible_post _) ?_ st r s' h h1 h2
  intro loop ih s r s' h h1 h2
  obtain ⟨s1, g1, g2, g3⟩ := stuck_step hM hT h1 h2 hb
  rw [run_bind, g1] at h
  simp only [andThen_ok, if_true] at h
  exact ih _ _ _ h (g2.trans h1) g3

theorem stuck_advance {b : Bound α} (hb : NotBeyond b u) : ∀ s : St α n k X, s.t < u → s.h ≤ 0 → ¬ Halts (S.advance b u) s := by
  rintro st h1 h2 ⟨r, s', h⟩
  refine advance.fixpoint_induct S b u (fun x => ∀ s r s', x.run s = some (r, s') → s.t < u → s.h ≤ 0 → False)
    (admissible_post _) ?_ st r s' h h1 h2
  intro loop ih s r s' h h1 h2
  obtain ⟨s1, g1, g2, g3⟩ := stuck_step hM hT h1.le h2 hb
  have h1' : s.cache.t < u := h1
  simp only [run_bind, run_get, andThen_ok, if_pos h1'] at h
  rw [g1] at h
  simp only [andThen_ok, if_true] at h
  exact ih _ _ _ h (lt_of_le_of_lt g2 h1) g3

/-- **C64, refuted** A fixed-step solver whose step size is not positive: the calls that are to go on to a later time `u`, not beyond
`t_bound`, never come back. -/
theorem C64_refuted_step_size (bo : BisectOpts α) (argsort : List α → List Nat) (hA : ∀ l, IsArgsort l (argsort l)) (s : St α n k X)
    (hh : s.h ≤ 0) (hu : s.t < u) (ho : s.cache.ts (Buffer.iOld k) ≤ u) (hb : NotBeyond S.tBound u) :
    ¬ Halts (S.step none (some (.fin u))) s ∧ ¬ Halts (S.skip none (some (.fin u))) s ∧ ¬ Halts (S.run bo argsort [u]) s := by
  have h1 : ¬ ((Bound.fin u).gt S.tBound = true) := by
    rw [← exceededBy_eq, (notBeyond_iff _ _).mp hb]; simp
  have h2 : ¬ ((Bound.fin u).lt s.cache.t = true) := by simpa [Bound.lt, St.t] using hu.le
  have hself : NotBeyond (.fin u) u := lt_irrefl u
  refine ⟨?_, ?_, ?_⟩
  · rintro ⟨r, s', h⟩
    unfold step checkTime at h
    simp only [run_bind, run_get, andThen_ok, inPast, St.t, h2, if_false, h1, run_pure, run_ite, Bool.false_eq_true] at h
    cases hl : (S.stepsLoop (.fin u)).run s with
    | none => rw [hl] at h; cases h
    | some p => exact stuck_steps hM hT hself s hu.le hh ⟨_, _, hl⟩
  · rintro ⟨r, s', h⟩
    unfold skip checkTime at h
    simp only [run_bind, run_get, andThen_ok, inPast, St.t, h2, if_false, h1, run_pure, run_ite, Bool.false_eq_true] at h
    cases hl : (S.skipLoop (.fin u)).run s with
    | none => rw [hl] at h; cases h
    | some p => exact stuck_skip hM hT hself s hu.le hh ⟨_, _, hl⟩
  · rintro ⟨r, s', h⟩
    rw [run_eq hM.shaped.toShaped bo hA (by simp) (by
      intro x hx
      rw [List.mem_singleton] at hx
      subst hx
      exact ⟨ho, hb⟩)] at h
    have hsort : isSorted [u] = true := (isSorted_iff _).mpr (List.pairwise_singleton _ _)
    have e : sortedTimes argsort [u] = [u] := by unfold sortedTimes; rw [if_pos hsort]
    rw [e, runEval_cons] at h
    cases hl : (S.advance S.tBound u).run s with
    | none => rw [hl] at h; cases h
    | some p => exact stuck_advance hM hT hb s hu hh ⟨_, _, hl⟩

omit hM hT

/-- **C64, refuted** In particular the constructor of a fixed-step Runge-Kutta method accepts every step size `h ≤ 0`, and the solver
does not come back from any call that is to go on to a time after `t0`. -/
theorem C64_refuted_step_size_erk {s : Nat} (T : Tableau α s) (f : α → Vec α n → Vec α n) (t0 : α) (y0 : Vec α n) (h : α) (hh : h ≤ 0)
    (g : Buffer α n 0) (K : ErkAux α n s) (b : Bound α) (hu : t0 < u) (hb : NotBeyond b u) (bo : BisectOpts α)
    (argsort : List α → List Nat) (hA : ∀ l, IsArgsort l (argsort l)) :
    ∃ st, erkInit g K (pureRhs f) t0 y0 (some h) = .ok st ∧ ¬ Halts (Solver.step ⟨erk T, pureRhs f, b⟩ none (some (.fin u))) st ∧
      ¬ Halts (Solver.skip ⟨erk T, pureRhs f, b⟩ none (some (.fin u))) st ∧ ¬ Halts (Solver.run ⟨erk T, pureRhs f, b⟩ bo argsort [u]) st := by
  obtain ⟨st, hs⟩ : ∃ st, erkInit g K (pureRhs f) t0 y0 (some h) = .ok st := ⟨_, rfl⟩
  obtain ⟨f0, -, hc, e, -⟩ := solverInit_ok hs
  have ht : ∀ i, st.cache.ts i = t0 := fun i => by rw [hc]; exact init_ts _ _ _ _ _
  refine ⟨st, hs, C64_refuted_step_size (S := ⟨erk T, pureRhs f, b⟩) (.erk T) (fun x => ?_) bo argsort hA st (by rw [e]; exact hh)
    (by rw [St.t, Buffer.t, ht]; exact hu) (by rw [ht]; exact hu.le) hb⟩
  obtain ⟨K', hK⟩ := stages_pure (m := s + 1) le_rfl T f x.t x.h x.y x.f x.aux
  exact ⟨_, by unfold Takes; show (erkBody T (pureRhs f)).run x = _; rw [erkBody_run T _ x hK]; rfl⟩

end field

open Demo in
/-- Non-vacuity: `Heun3` with `h = 0`. -/
example (g : Buffer ℚ 1 0) (K : ErkAux ℚ 1 2) (argsort : List ℚ → List Nat) (hA : ∀ l, IsArgsort l (argsort l)) :=
  C64_refuted_step_size_erk Heun3 (fun _ y i => y i * (1 - y i)) 0 (fun _ => 1 / 4) 0 le_rfl g K (.fin 10) (u := 1) one_pos
    (by show ¬ (10 : ℚ) < 1; norm_num) .std argsort hA

end Nbkode
