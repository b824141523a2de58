import Verif.Proofs.Halting
import Verif.Proofs.StepApi

/-! Calls that never come back. -/

set_option autoImplicit false
set_option linter.unusedSectionVars false

namespace Nbkode
open Py Spec Solver

section
variable {α : Type}
variable [Add α] [Sub α] [Mul α] [Div α] [Neg α] [Zero α] [One α] [NatCast α] [BEq α]
variable [LT α] [DecidableLT α] [LE α] [DecidableLE α]
variable {n k s : Nat} {I X : Type}

/-- If every attempt is rejected the loop goes on for ever. -/
theorem fsalBody_hangs {lib : Lib α} {o : VarOptions α} {ex : α} {T : Tableau α s} {norm : ErrNorm α n s}
    {rhs : Rhs α n} (J : St α n 0 (FsalAux α n s I) → Prop)
    (hJ : ∀ st, J st → ∃ y' K' en h', (fsalFixedStep T rhs).run st =
        some (.ok (st.t + st.h, y'), { st with aux := { st.aux with K := K' } }) ∧
      norm st.h K' y' st.y = .ok en ∧ stepUpdate lib o ex en st.h = .ok (h', false) ∧
      J { st with aux := { st.aux with K := K' }, h := h' }) :
    ∀ st, J st → ¬ Halts (fsalBody lib o ex T norm rhs) st := by
  rintro st hst ⟨r, s', h⟩
  revert hst
  refine fsalBody_ind lib o ex T norm rhs (fun st _ _ => ¬ J st) ?_ ?_ ?_ ?_ st r s' h
  · intro st e K' h hst
    obtain ⟨y, K, en, h', h1, -⟩ := hJ st hst
    rw [h1] at h; cases h
  · intro st y' K' e h hn hst
    obtain ⟨y, K, en, h', h1, h2, h3, -⟩ := hJ st hst
    rw [h1] at h
    simp only [Option.some.injEq, Prod.mk.injEq, Except.ok.injEq, true_and, St.mk.injEq, FsalAux.mk.injEq, and_true] at h
    obtain ⟨rfl, rfl⟩ := h
    rcases hn with hn | ⟨en', hn, hu⟩
    · rw [h2] at hn; cases hn
    · rw [h2] at hn; cases hn
      rw [h3] at hu; cases hu
  · intro st y' K' en' h'' h _ hn hu hst
    obtain ⟨y, K, en, h', h1, h2, h3, -⟩ := hJ st hst
    rw [h1] at h
    simp only [Option.some.injEq, Prod.mk.injEq, Except.ok.injEq, true_and, St.mk.injEq, FsalAux.mk.injEq, and_true] at h
    obtain ⟨rfl, rfl⟩ := h
    rw [h2] at hn; cases hn
    rw [h3] at hu; cases hu
  · intro st y' K' en' h'' r s' h _ hn hu hP hst
    obtain ⟨y, K, en, h', h1, h2, h3, h4⟩ := hJ st hst
    rw [h1] at h
    simp only [Option.some.injEq, Prod.mk.injEq, Except.ok.injEq, true_and, St.mk.injEq, FsalAux.mk.injEq, and_true] at h
    obtain ⟨rfl, rfl⟩ := h
    rw [h2] at hn; cases hn
    rw [h3] at hu; cases hu
    exact hP h4

/-- `step()` hangs when the step does. -/
theorem step_hangs {S : Solver α n k X} {st : St α n k X} (hf : Fits S.tBound st)
    (h : ¬ Halts (S.method.body S.rhs) st) : ¬ Halts (S.step none none) st := by
  rintro ⟨r, s', hr⟩
  rw [step_none_run, pstep_run] at hr
  have hf' : S.tBound.exceededBy (st.cache.t + st.h) = false := (notBeyond_iff _ _).mp hf
  rw [hf'] at hr
  simp only [Bool.false_eq_true, if_false] at hr
  cases hb : (S.method.body S.rhs).run st with
  | none => rw [hb] at hr; cases hr
  | some p => exact h ⟨p.1, p.2, hb⟩

/-- Stepping without limit never ends when steps always succeed. -/
theorem stepsLoop_hangs {S : Solver α n k X} (hT : ∀ s, ∃ s', Takes S s s') (st : St α n k X) :
    ¬ Halts (S.stepsLoop .inf) st := by
  rintro ⟨r, s', h⟩
  refine stepsLoop.fixpoint_induct S .inf (fun x => ∀ s r s', x.run s = some (r, s') → False)
    (admissible_post _) ?_ st r s' h
  intro loop ih s r s' h
  obtain ⟨s1, h1⟩ := hT s
  rw [run_bind, (pstep_true (S := S) (b := .inf)).mpr ⟨trivial, h1⟩] at h
  simp only [andThen_ok, if_true, run_bind, run_get] at h
  cases hl : loop.run s1 with
  | none => rw [hl] at h; cases h
  | some p => exact ih _ _ _ hl

/-- Without `upto_t`, or with a number of steps, a call makes at most that many steps. -/
theorem counted_returns {S : Solver α n k X} (hb : ∀ s, Halts (S.method.body S.rhs) s) (m : Option Int)
    (u : Option (Bound α)) (hm : m.isSome ∨ u = none) (st : St α n k X) :
    Halts (S.step m u) st ∧ Halts (S.skip m u) st := by
  have hp : ∀ b s, Halts (S.pstep b) s := by
    intro b s
    unfold pstep
    refine Halts.bind (Halts.get _) fun a s1 h1 => ?_
    exact Halts.ite (fun _ => Halts.pure _ _) fun _ => Halts.bind (hb _) fun _ _ _ => Halts.pure _ _
  have h1 : ∀ b m s, Halts (S.nstepsLoop b m) s := by
    intro b m
    induction m with
    | zero => intro s; exact Halts.pure _ _
    | succ m ih =>
      intro s
      rw [nstepsLoop]
      refine Halts.bind (hp b s) fun c s1 _ => Halts.ite (fun _ => Halts.pure _ _) fun _ => ?_
      exact Halts.bind (Halts.get _) fun _ _ _ => Halts.bind (ih _) fun _ _ _ => Halts.pure _ _
  have h2 : ∀ b m s, Halts (S.nskipLoop b m) s := by
    intro b m
    induction m with
    | zero => intro s; exact Halts.pure _ _
    | succ m ih =>
      intro s
      rw [nskipLoop]
      exact Halts.bind (hp b s) fun c s1 _ => Halts.ite (fun _ => Halts.pure _ _) fun _ => ih _
  have h1' : ∀ b m s, Halts (S.nsteps m b) s := fun b m s => by
    unfold nsteps
    exact Halts.ite (fun _ => Halts.throw _ _) fun _ => h1 _ _ _
  have h2' : ∀ b m s, Halts (S.nskip m b) s := fun b m s => h2 _ _ _
  have h3 : ∀ (u : Bound α) s, Halts (S.checkTime u) s := fun u s => by unfold checkTime; returns
  constructor
  · unfold step
    refine Halts.bind (Halts.get _) fun _ s1 _ => Halts.ite (fun _ => Halts.pure _ _) fun _ => ?_
    cases m with
    | none =>
      have hu : u = none := by simpa using hm
      subst hu
      refine Halts.bind (hp _ _) fun c s1 h1 => ?_
      returns
    | some m =>
      cases u with
      | none =>
        refine Halts.bind (h1' _ _ _) fun c s1 h1 => ?_
        returns
      | some u =>
        exact Halts.bind (h3 _ _) fun _ _ _ => Halts.bind (h1' _ _ _) fun _ _ _ => Halts.pure _ _
  · unfold skip
    refine Halts.bind (Halts.get _) fun _ s1 _ => Halts.ite (fun _ => Halts.pure _ _) fun _ => ?_
    cases m with
    | none =>
      have hu : u = none := by simpa using hm
      subst hu
      exact Halts.bind (h2' _ _ _) fun c s1 h1 => Halts.pure _ _
    | some m =>
      cases u with
      | none =>
        refine Halts.bind (h2' _ _ _) fun c s1 h1 => ?_
        returns
      | some u =>
        exact Halts.bind (h3 _ _) fun _ _ _ => Halts.bind (h2' _ _ _) fun _ _ _ => Halts.pure _ _

end
end Nbkode
