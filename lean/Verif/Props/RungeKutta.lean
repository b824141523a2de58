import Verif.Spec.RungeKutta
import Verif.Spec.History
import Verif.Proofs.Records
import Verif.Proofs.Stages
import Verif.Proofs.Adaptive

/-!
# Runge-Kutta steps: C27
-/

set_option autoImplicit false
set_option linter.unusedSectionVars false

namespace Nbkode
open Py Spec Solver

variable {α : Type} [Field α] [LinearOrder α] [IsStrictOrderedRing α] [BEq α]
variable {n s : Nat} {I : Type}

theorem stages_iff {m : Nat} (hm : s + 1 ≤ m) (T : Tableau α s) (hT : Explicit T) (rhs : Rhs α n)
    (t h : α) (y f : Vec α n) (hf : rhs t y = .ok f) (K K' : Fin m → Vec α n) :
    (stages hm T rhs t h y f).run K = some (.ok (), K') ↔
      RKStages T rhs t h y (fun i => K' (Fin.castLE hm i)) ∧
      ∀ j : Fin m, s + 1 ≤ j.val → K' j = K j := by
  have e : ∀ i, y + scale h (rowDot hm T.A K' i) =
      fun d => y d + h * ∑ j, T.A i j * K' (Fin.castLE hm j) d := by
    intro i
    funext d
    simp only [Pi.add_apply, scale]
    rw [rowDot_apply hm T.A hT.upper]
  have e0 : rhs (t + T.C 0 * h) (fun d => y d + h * ∑ j, T.A 0 j * K' (Fin.castLE hm j) d) =
      .ok f := by
    rw [← hf, hT.first]
    congr 1
    · ring
    · funext d
      rw [Finset.sum_eq_zero fun j _ => by rw [hT.upper 0 j (Fin.zero_le _), zero_mul]]
      ring
  rw [stages_ok]
  constructor
  · rintro ⟨h1, h2, h3⟩
    refine ⟨fun i => ?_, h3⟩
    by_cases hi : i = 0
    · subst hi; exact e0.trans (by rw [← h1])
    · have := h2 i hi
      rw [e i, mul_comm] at this
      exact this
  · rintro ⟨h1, h3⟩
    refine ⟨?_, fun i hi => ?_, h3⟩
    · have := h1 0
      rw [e0] at this
      exact (Except.ok.inj this).symm
    · rw [e i, mul_comm]; exact h1 i

theorem rkNew_eq (T : Tableau α s) (h : α) (y : Vec α n) (K : Fin (s + 1) → Vec α n) :
    y + vdot (fun j => h * T.B j) K = rkNew T h y K := by
  funext d
  simp only [Pi.add_apply, rkNew]
  rw [vdot_apply, Finset.mul_sum]
  congr 1
  exact Finset.sum_congr rfl fun j _ => by ring

/-- What a step of an explicit Runge-Kutta solver does, in terms of the model's buffer (`C27_erk_step` states it without). -/
theorem erk_takes_iff (T : Tableau α s) (hT : Explicit T) (rhs : Rhs α n) (b : Bound α)
    (st st' : St α n 0 (ErkAux α n s)) (hf : rhs st.t st.y = .ok st.f) :
    Takes ⟨erk T, rhs, b⟩ st st' ↔
      ∃ K f', RKStages T rhs st.t st.h st.y K ∧
        rhs (st.t + st.h) (rkNew T st.h st.y K) = .ok f' ∧
        st' = ⟨st.cache.push (st.t + st.h) (rkNew T st.h st.y K) f', st.h, K⟩ := by
  unfold Takes
  change (erkBody T rhs).run st = _ ↔ _
  obtain ⟨r, K', hK⟩ := stages_total (le_refl _) T rhs st.t st.h st.y st.f st.aux
  rw [erkBody_run T rhs st hK]
  constructor
  · intro h
    cases r with
    | error e => simp at h
    | ok u =>
      simp only [rkNew_eq] at h
      have hS := (stages_iff (le_refl _) T hT rhs _ _ _ _ hf _ _).mp hK
      split at h
      · simp at h
      · rename_i f' hf'
        cases h
        exact ⟨K', f', hS.1, hf', rfl⟩
  · rintro ⟨K, f', hS, hf', rfl⟩
    have h2 := (stages_iff (le_refl _) T hT rhs st.t st.h st.y st.f hf st.aux K).mpr
      ⟨hS, fun j hj => absurd j.isLt (by omega)⟩
    rw [hK] at h2
    cases h2
    simp only [rkNew_eq]
    rw [hf']

/-- **C27.** A step of an explicit Runge-Kutta solver from a state whose `f` is the derivative of its `y` (C14)
succeeds exactly when there are stages solving the textbook equations and the right-hand side is defined at
the new point; the new point is `(t + h, y + h * sum_j b_j k_j)` and the history receives it with its
derivative. The scratch array `s.aux` does not occur on the right: its previous contents are irrelevant. -/
theorem C27_erk_step (T : Tableau α s) (hT : Explicit T) (rhs : Rhs α n) (b : Bound α)
    (st st' : St α n 0 (ErkAux α n s)) (hf : rhs st.t st.y = .ok st.f) :
    Takes ⟨erk T, rhs, b⟩ st st' ↔
      ∃ K f', RKStages T rhs st.t st.h st.y K ∧
        rhs (st.t + st.h) (rkNew T st.h st.y K) = .ok f' ∧
        Records st.cache st'.cache (st.t + st.h) (rkNew T st.h st.y K) f' ∧ st'.h = st.h ∧ st'.aux = K := by
  rw [erk_takes_iff T hT rhs b st st' hf]
  simp only [state_records_iff]

/-- What a step of the variable-step solvers records, in terms of the model's buffer and of the common part of the
three solvers (`C27_fsal_step` and `C27_dop853_step` state it without). -/
theorem fsalBody_records (lib : Lib α) (o : VarOptions α) (hl : PowLaw lib) (ho : SaneOptions o)
    (ex : α) (hex : 0 ≤ ex) (T : Tableau α s) (hT : Explicit T) (errNorm : ErrNorm α n s)
    (rhs : Rhs α n) (st st' : St α n 0 (FsalAux α n s I)) (hf : rhs st.t st.y = .ok st.f)
    (h : (fsalBody lib o ex T errNorm rhs).run st = some (.ok (), st')) :
    ∃ q K f', 0 < q ∧ q ≤ 1 ∧
      RKStages T rhs st.t (st.h * q) st.y K ∧
      rhs (st.t + st.h * q) (rkNew T (st.h * q) st.y K) = .ok f' ∧
      st'.cache = st.cache.push (st.t + st.h * q) (rkNew T (st.h * q) st.y K) f' ∧
      (∀ i : Fin (s + 1), st'.aux.K i.castSucc = K i) ∧ st'.aux.K (Fin.last _) = f' := by
  have key : ∀ (st : St α n 0 (FsalAux α n s I)) r st',
      (fsalBody lib o ex T errNorm rhs).run st = some (r, st') →
      rhs st.t st.y = .ok st.f → r = .ok () →
      ∃ q K f', 0 < q ∧ q ≤ 1 ∧
      RKStages T rhs st.t (st.h * q) st.y K ∧
      rhs (st.t + st.h * q) (rkNew T (st.h * q) st.y K) = .ok f' ∧
      st'.cache = st.cache.push (st.t + st.h * q) (rkNew T (st.h * q) st.y K) f' ∧
      (∀ i : Fin (s + 1), st'.aux.K i.castSucc = K i) ∧ st'.aux.K (Fin.last _) = f' := by
    refine fsalBody_ind lib o ex T errNorm rhs (fun st r st' => rhs st.t st.y = .ok st.f →
      r = .ok () → ∃ q K f', 0 < q ∧ q ≤ 1 ∧
      RKStages T rhs st.t (st.h * q) st.y K ∧
      rhs (st.t + st.h * q) (rkNew T (st.h * q) st.y K) = .ok f' ∧
      st'.cache = st.cache.push (st.t + st.h * q) (rkNew T (st.h * q) st.y K) f' ∧
      (∀ i : Fin (s + 1), st'.aux.K i.castSucc = K i) ∧ st'.aux.K (Fin.last _) = f') ?_ ?_ ?_ ?_
    · intro st e K' _ _ h; simp at h
    · intro st y' K' e _ _ _ h; simp at h
    · intro st y' K' en h' hstep hr _ _ hf _
      obtain ⟨r, K0, hK⟩ := stages_total (m := s + 2) (by omega) T rhs st.t st.h st.y st.f st.aux.K
      rw [fsalFixedStep_run T rhs st hK] at hstep
      cases r with
      | error e => simp at hstep
      | ok u =>
        have hS := (stages_iff (by omega) T hT rhs _ _ _ _ hf _ _).mp hK
        simp only at hstep
        split at hstep
        · simp at hstep
        · rename_i f' hf'
          simp only [Option.some.injEq, Prod.mk.injEq, Except.ok.injEq, true_and] at hstep
          obtain ⟨rfl, h2⟩ := hstep
          have hK' : Function.update K0 (Fin.last (s + 1)) f' = K' :=
            congrArg (fun x : St α n 0 (FsalAux α n s I) => x.aux.K) h2
          have hlast : K' (Fin.last (s + 1)) = f' := by rw [← hK']; simp
          refine ⟨1, fun i => K0 i.castSucc, f', one_pos, le_refl _, ?_⟩
          rw [rkNew_eq] at hr ⊢
          simp only [mul_one]
          refine ⟨hS.1, by rw [hr, hlast], by rw [hlast], fun i => ?_, hlast⟩
          show K' _ = _
          rw [← hK', Function.update_of_ne (Fin.castSucc_lt_last i).ne]
    · intro st y' K' en h' r st' _ _ _ hu ih hf hr
      obtain ⟨p, hp, hp1, rfl⟩ := stepUpdate_rejected hl ho hex hu
      obtain ⟨q, K, f', hq, hq1, h1, h2, h3, h4⟩ := ih hf hr
      refine ⟨p * q, K, f', by positivity, mul_le_one₀ hp1 hq.le hq1, ?_⟩
      rw [← mul_assoc]
      exact ⟨h1, h2, h3, h4⟩
  exact key st _ st' h hf rfl

/-- **C27** for RungeKutta23 and RungeKutta45: when a step succeeds, the recorded point is a Runge-Kutta step of some
size `h0` (the size tried last, C36) from the previous point; `h0` is the current step size times a factor in
`(0, 1]`. The scratch keeps the stages of that very step, and the last stage is the new derivative. -/
theorem C27_fsal_step {d : Nat} (lib : Lib α) (o : VarOptions α) (hl : PowLaw lib) (ho : SaneOptions o)
    (c : FsalCoef α s d) (hex : 0 ≤ c.errorExponent) (hT : Explicit c.toTableau) (rhs : Rhs α n) (b : Bound α)
    (st st' : St α n 0 (FsalAux α n s (RkItp α n d))) (hf : rhs st.t st.y = .ok st.f)
    (h : Takes ⟨fsal lib o c, rhs, b⟩ st st') :
    ∃ q K f', 0 < q ∧ q ≤ 1 ∧
      RKStages c.toTableau rhs st.t (st.h * q) st.y K ∧
      rhs (st.t + st.h * q) (rkNew c.toTableau (st.h * q) st.y K) = .ok f' ∧
      Records st.cache st'.cache (st.t + st.h * q) (rkNew c.toTableau (st.h * q) st.y K) f' ∧
      (∀ i : Fin (s + 1), st'.aux.K i.castSucc = K i) ∧ st'.aux.K (Fin.last _) = f' := by
  simp only [records_iff]
  exact fsalBody_records lib o hl ho _ hex _ hT _ rhs st st' hf h

/-- **C27** for DOP853. -/
theorem C27_dop853_step (lib : Lib α) (o : VarOptions α) (hl : PowLaw lib) (ho : SaneOptions o)
    (c : DopCoef α) (hex : 0 ≤ c.errorExponent) (hT : Explicit c.toTableau) (rhs : Rhs α n) (b : Bound α)
    (st st' : St α n 0 (FsalAux α n 11 (DopItp α n))) (hf : rhs st.t st.y = .ok st.f)
    (h : Takes ⟨dop853 lib o c, rhs, b⟩ st st') :
    ∃ q K f', 0 < q ∧ q ≤ 1 ∧
      RKStages c.toTableau rhs st.t (st.h * q) st.y K ∧
      rhs (st.t + st.h * q) (rkNew c.toTableau (st.h * q) st.y K) = .ok f' ∧
      Records st.cache st'.cache (st.t + st.h * q) (rkNew c.toTableau (st.h * q) st.y K) f' ∧
      (∀ i : Fin 12, st'.aux.K i.castSucc = K i) ∧ st'.aux.K (Fin.last _) = f' := by
  simp only [records_iff]
  exact fsalBody_records lib o hl ho _ hex _ hT _ rhs st st' hf h

end Nbkode
