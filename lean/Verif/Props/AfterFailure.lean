import Verif.Spec.AfterFailure
import Verif.Props.DenseOutput

/-!
# Dense output after an exception (C104)
-/

set_option autoImplicit false
set_option linter.unusedSectionVars false

namespace Nbkode
open Py Spec Solver

section field
variable {α : Type} [Field α] [LinearOrder α] [IsStrictOrderedRing α] [BEq α] [LawfulBEq α]
variable {n k s d : Nat} {X : Type}

theorem denseAt_congr {S : Solver α n k X} {x y : St α n k X} (hc : x.cache = y.cache)
    (h : ∀ t, x.cache.ts (Buffer.iOld k) ≤ t → t ≤ x.t →
      ∃ r x' y', (S.interpAt t).run x = some (r, x') ∧ (S.interpAt t).run y = some (r, y') ∧ x'.cache = y'.cache) :
    SameDense S x y := by
  intro t
  have ht : y.t = x.t := by simp only [St.t, hc]
  by_cases h1 : x.cache.ts (Buffer.iOld k) ≤ t ∧ t ≤ x.t
  · obtain ⟨r, x', y', e1, e2, e3⟩ := h t h1.1 h1.2
    unfold denseAt
    rw [interpolate_inside h1.1 h1.2, interpolate_inside (hc ▸ h1.1) (ht ▸ h1.2), e1, e2]
    simp [e3]
  · unfold denseAt
    rw [C10_interpolate_outside S t x h1, C10_interpolate_outside S t y (by rw [← hc, ht]; exact h1)]
    rfl

theorem hermite_run_congr (t : α) (x y : St α n k X) (hc : x.cache = y.cache) :
    ∃ r, (hermiteInterp t : Py (St α n k X) _).run x = some (r, x) ∧
      (hermiteInterp t : Py (St α n k X) _).run y = some (r, y) := by
  rw [hermiteInterp_run, hermiteInterp_run, ← hc]
  split
  · exact ⟨_, rfl, rfl⟩
  · split <;> exact ⟨_, rfl, rfl⟩

/-- **C104**, fixed-step classes: what `interpolate` gives depends on the recorded history only. By C15 a call that raises
records completed steps only, so the dense output is that of the completed steps. -/
theorem C104_history (S : Solver α n k X) (hM : IsFixed S.method) (x y : St α n k X) (hc : x.cache = y.cache) :
    SameDense S x y := by
  obtain ⟨M, rhs, b⟩ := S
  refine denseAt_congr hc fun t _ _ => ?_
  cases hM with
  | explicitMultistep c => obtain ⟨r, h1, h2⟩ := hermite_run_congr t x y hc; exact ⟨r, x, y, h1, h2, hc⟩
  | implicitMultistep lib zo c => obtain ⟨r, h1, h2⟩ := hermite_run_congr t x y hc; exact ⟨r, x, y, h1, h2, hc⟩
  | erk T => obtain ⟨r, h1, h2⟩ := hermite_run_congr t x y hc; exact ⟨r, x, y, h1, h2, hc⟩

theorem step_error {S : Solver α n k X} {x x' : St α n k X} {e : Err}
    (h : (S.step none none).run x = some (.error e, x')) : (S.method.body S.rhs).run x = some (.error e, x') := by
  rw [step_none_run] at h
  rcases hp : (S.pstep S.tBound).run x with - | ⟨r, x1⟩
  · rw [hp] at h; simp at h
  · cases r with
    | error e1 =>
      rw [hp] at h
      simp only [andThen_error, Option.some.injEq, Prod.mk.injEq, Except.error.injEq] at h
      obtain ⟨rfl, rfl⟩ := h
      exact (pstep_error.mp hp).2
    | ok c =>
      rw [hp] at h
      simp only [andThen_ok] at h
      split at h <;> simp at h

theorem step_single {S : Solver α n k X} {x x' : St α n k X} {t : α} {r : Ref α n k}
    (h : (S.step none none).run x = some (.ok (.single t r), x')) : Takes S x x' := by
  rw [step_none_run] at h
  rcases hp : (S.pstep S.tBound).run x with - | ⟨r, x1⟩
  · rw [hp] at h; simp at h
  · cases r with
    | error e1 => rw [hp] at h; simp at h
    | ok c =>
      rw [hp] at h
      simp only [andThen_ok] at h
      split at h
      · rename_i hc
        subst hc
        obtain ⟨-, rfl⟩ : _ ∧ x1 = x' := by simpa using h
        exact (pstep_true.mp hp).2
      · simp at h

/-- **C104**, fixed-step classes, `step()`: when it raises, the dense output is what it was before. -/
theorem C104_fixed (S : Solver α n k X) (hM : IsFixed S.method) (x x' : St α n k X) (e : Err)
    (h : (S.step none none).run x = some (.error e, x')) : SameDense S x x' :=
  C104_history S hM x x' ((show IsLibrary S.method from Or.inl hM).shaped.body_err _ _ _ _ (step_error h)).symm

/-! ### RungeKutta23, RungeKutta45 -/

/-- The interpolator was brought up to date no later than at the beginning of the last step, or after that step. -/
def RkClock (st : St α n 0 (FsalAux α n s (RkItp α n d))) : Prop :=
  st.aux.itp.updatedT ≤ st.cache.ts (Buffer.iPrev 0) ∨ st.aux.itp.updatedT = st.cache.ts (Buffer.iLast 0)

theorem rkInterp_clock (P : Fin (s + 2) → Fin d → α) (t : α) (st : St α n 0 (FsalAux α n s (RkItp α n d))) (r) (s')
    (h : (rkInterp P t).run st = some (r, s')) : s'.cache = st.cache ∧
      (s'.aux.itp = st.aux.itp ∨ s'.aux.itp.updatedT = st.cache.ts (Buffer.iLast 0)) ∧
      (st.cache.ts (Buffer.iPrev 0) < t → t < st.cache.ts (Buffer.iLast 0) → RkClock st →
        s'.aux.itp.updatedT = st.cache.ts (Buffer.iLast 0)) := by
  refine ⟨(rkInterp_state P t st r s' h).1, ?_, ?_⟩
  · rw [rkInterp_run] at h
    split at h
    · cases h; exact Or.inl rfl
    · split at h
      · cases h; exact Or.inl rfl
      · simp only at h
        have : (if t < st.aux.itp.updatedT then st else rkFresh P st).aux.itp = st.aux.itp ∨
          (if t < st.aux.itp.updatedT then st else rkFresh P st).aux.itp.updatedT = st.cache.ts (Buffer.iLast 0) := by
          split
          · exact Or.inl rfl
          · exact Or.inr rfl
        split at h <;> (simp only [Option.some.injEq, Prod.mk.injEq] at h; obtain ⟨-, rfl⟩ := h; exact this)
  · intro h1 h2 hw
    rw [rkInterp_run, if_neg (by simpa using h2.ne), if_neg (by simpa using h1.ne')] at h
    simp only at h
    have : (if t < st.aux.itp.updatedT then st else rkFresh P st).aux.itp.updatedT = st.cache.ts (Buffer.iLast 0) := by
      split
      · rename_i hu
        rcases hw with hw | hw
        · exact absurd (hu.trans_le hw) (not_lt.mpr h1.le)
        · exact hw
      · rfl
    split at h <;> (simp only [Option.some.injEq, Prod.mk.injEq] at h; obtain ⟨-, rfl⟩ := h; exact this)

theorem rk_prim {lib : Lib α} {o : VarOptions α} {c : FsalCoef α s d} {rhs : Rhs α n} {b : Bound α}
    (hM : WellConfigured (fsal lib o c : Method α n _ _)) {x x' : St α n 0 (FsalAux α n s (RkItp α n d))}
    (hp : Prim ⟨fsal lib o c, rhs, b⟩ x x')
    (hx : 0 < x.h ∧ x.cache.ts (Buffer.iPrev 0) ≤ x.cache.ts (Buffer.iLast 0) ∧ RkClock x) :
    0 < x'.h ∧ x'.cache.ts (Buffer.iPrev 0) ≤ x'.cache.ts (Buffer.iLast 0) ∧ RkClock x' := by
  obtain ⟨hh, hle, hw⟩ := hx
  cases hp with
  | @body r b' hb hf h =>
    have hi := fsalBody_itp lib o _ _ _ rhs x r x' h
    obtain ⟨⟨p, hp, h1⟩, -⟩ := hM.time _ _ _ _ h
    have hh' : 0 < x'.h := by rw [h1]; exact mul_pos hh hp
    cases r with
    | error e =>
      have hc : x'.cache = x.cache := fsalBody_shape lib o _ _ _ rhs x _ x' h
      exact ⟨hh', by rw [hc]; exact hle, by unfold RkClock; rw [hc, hi]; exact hw⟩
    | ok u =>
      have hpr := fsalBody_prev lib o _ _ _ rhs x x' h
      have hlt := (C11_step_increases (⟨fsal lib o c, rhs, b⟩ : Solver α n _ _) hM x x' hh h).1
      refine ⟨hh', by rw [hpr]; exact hlt.le, Or.inl ?_⟩
      rw [hpr, hi]
      rcases hw with hw | hw
      · exact hw.trans hle
      · exact hw.le
  | @interp r t h =>
    obtain ⟨hc, hi, -⟩ := rkInterp_clock c.P t x r x' h
    have hh' : x'.h = x.h := (hM.library.shaped.interp _ _ _ _ _ h).2
    refine ⟨by rw [hh']; exact hh, by rw [hc]; exact hle, ?_⟩
    unfold RkClock
    rw [hc]
    rcases hi with hi | hi
    · rw [hi]; exact hw
    · exact Or.inr hi

theorem rk_session {lib : Lib α} {o : VarOptions α} {c : FsalCoef α s d} {rhs : Rhs α n} {b : Bound α}
    (hM : WellConfigured (fsal lib o c : Method α n _ _)) {bo : BisectOpts α} {argsort : List α → List Nat}
    {sel : Rhs α n → α → Vec α n → Vec α n → Except Err α} {g : Buffer α n 0} {K0 : Fin (s + 2) → Vec α n}
    {itp : RkItp α n d} {t0 : α} {y0 : Vec α n} {h first : Option α}
    {s0 st : St α n 0 (FsalAux α n s (RkItp α n d))}
    (hs0 : fsalInit c.P o sel g K0 itp rhs t0 y0 h first = .ok s0) (hh : 0 < s0.h)
    (hs : Session ⟨fsal lib o c, rhs, b⟩ bo argsort s0 st) :
    0 < st.h ∧ st.cache.ts (Buffer.iPrev 0) ≤ st.cache.ts (Buffer.iLast 0) ∧ RkClock st := by
  have ht0 := fsalInit_times hs0
  refine session_invariant (S := ⟨fsal lib o c, rhs, b⟩) _ (fun _ _ hp hx => rk_prim hM hp hx) hs
    ⟨hh, by rw [ht0, ht0], ?_⟩
  rcases fsalInit_fresh hs0 with hf | ⟨hf, -⟩
  · exact Or.inl hf
  · exact Or.inr hf

/-- **C104**, RungeKutta23/45 (any coefficients; partial: only if the dense output was used since the last step). After any
history of calls, with or without exceptions: if `interpolate` was called at a time inside the last step, and then `step()`
raises, the dense output is what it was. Missing: without that call it may change (`C104_refuted`). -/
theorem C104_used_partial (lib : Lib α) (o : VarOptions α) (c : FsalCoef α s d) (hl : PowLaw lib) (ho : SaneOptions o)
    (hex : 0 ≤ c.errorExponent) (rhs : Rhs α n) (b : Bound α) (bo : BisectOpts α) (argsort : List α → List Nat)
    (sel : Rhs α n → α → Vec α n → Vec α n → Except Err α) (g : Buffer α n 0) (K0 : Fin (s + 2) → Vec α n)
    (itp : RkItp α n d) (t0 : α) (y0 : Vec α n) (h first : Option α)
    (s0 st st1 st2 : St α n 0 (FsalAux α n s (RkItp α n d)))
    (hs0 : fsalInit c.P o sel g K0 itp rhs t0 y0 h first = .ok s0) (hh : 0 < s0.h)
    (hs : Session ⟨fsal lib o c, rhs, b⟩ bo argsort s0 st) (t1 : α) (r1 : Ref α n 0)
    (ht1 : st.cache.ts (Buffer.iPrev 0) < t1) (ht1' : t1 < st.t)
    (h1 : (Solver.interpolate ⟨fsal lib o c, rhs, b⟩ t1).run st = some (.ok r1, st1)) (e : Err)
    (h2 : (Solver.step ⟨fsal lib o c, rhs, b⟩ none none).run st1 = some (.error e, st2)) :
    SameDense ⟨fsal lib o c, rhs, b⟩ st1 st2 := by
  have hM : WellConfigured (fsal lib o c : Method α n _ _) := Or.inr ⟨lib, o, _, .fsal c, hl, ho, hex⟩
  obtain ⟨-, -, hw⟩ := rk_session hM hs0 hh hs
  rw [interpolate_inside (S := ⟨fsal lib o c, rhs, b⟩) (k := 0) ht1.le ht1'.le] at h1
  obtain ⟨hc1, -, hu⟩ := rkInterp_clock c.P t1 st _ st1 h1
  replace hu := hu ht1 ht1' hw
  have hb := step_error h2
  have hi : st2.aux.itp = st1.aux.itp := fsalBody_itp lib o _ _ _ rhs st1 _ st2 hb
  have hc2 : st2.cache = st1.cache := fsalBody_shape lib o _ _ _ rhs st1 _ st2 hb
  refine denseAt_congr hc2.symm fun t h3 h4 => ?_
  show ∃ r x' y', (rkInterp c.P t).run st1 = some (r, x') ∧ (rkInterp c.P t).run st2 = some (r, y') ∧ _
  rw [rkInterp_run, rkInterp_run, hc2, hi]
  simp only [beq_iff_eq]
  split
  · exact ⟨_, _, _, rfl, rfl, hc2.symm⟩
  · rename_i hne
    split
    · exact ⟨_, _, _, rfl, rfl, hc2.symm⟩
    · have hlt : t < st1.aux.itp.updatedT := by
        rw [hu, ← hc1]; exact lt_of_le_of_ne h4 hne
      simp only [if_pos hlt, hi]
      split
      · exact ⟨_, _, _, rfl, rfl, hc2.symm⟩
      · exact ⟨_, _, _, rfl, rfl, hc2.symm⟩

theorem rk_formula {lib : Lib α} {o : VarOptions α} {c : FsalCoef α s d} {rhs : Rhs α n} {b : Bound α}
    {st : St α n 0 (FsalAux α n s (RkItp α n d))} (hc : RkCoh c.P st) (hlt : st.cache.ts (Buffer.iPrev 0) < st.t)
    (hL : LastStages c.toTableau rhs st.cache st.aux.K) : DenseOfLastStep lib o c rhs b st := by
  refine ⟨st.aux.K, hL, fun t h1 h2 => ?_⟩
  have hd : st.cache.ts (Buffer.iLast 0) - st.cache.ts (Buffer.iPrev 0) ≠ 0 := (sub_pos.mpr hlt).ne'
  have hval : RkVal c.P st.cache st.aux.K t fun i => st.cache.ys (Buffer.iPrev 0) i +
            (st.t - st.cache.ts (Buffer.iPrev 0)) * ∑ j : Fin d, (∑ m, c.P m j * st.aux.K m i) *
              ((t - st.cache.ts (Buffer.iPrev 0)) / (st.t - st.cache.ts (Buffer.iPrev 0))) ^ (j.val + 1) := by
    unfold RkVal
    simp only [if_neg (show ¬ t = st.cache.ts (Buffer.iLast 0) from h2.ne)]
    split
    · rename_i he
      funext i
      rw [he, sub_self, zero_div]
      simp
    · exact ⟨_, pyDiv_ne hd, funext fun i => (rkEval_apply _ _ _ _ _ _).symm⟩
  obtain ⟨r, st', hr, e⟩ := (rkInterp_iff c.P t st _ hc h1 h2.le).mpr hval
  unfold denseAt
  rw [interpolate_inside (S := ⟨fsal lib o c, rhs, b⟩) (k := 0) h1 h2.le]
  have hr' : (Solver.interpAt ⟨fsal lib o c, rhs, b⟩ t).run st = some (.ok r, st') := hr
  rw [hr']
  simp only [Option.map_some, Except.map, (rkInterp_state c.P t st _ st' hr).1, e]

/-- **C104**, RungeKutta23/45 (any coefficients). Whatever was raised before: once a step has been completed, the dense output is
that of this step. -/
theorem C104_recovers (lib : Lib α) (o : VarOptions α) (c : FsalCoef α s d) (hT : Explicit c.toTableau) (hl : PowLaw lib)
    (ho : SaneOptions o) (hex : 0 ≤ c.errorExponent) (rhs : Rhs α n) (b : Bound α) (bo : BisectOpts α)
    (argsort : List α → List Nat) (sel : Rhs α n → α → Vec α n → Vec α n → Except Err α) (g : Buffer α n 0)
    (K0 : Fin (s + 2) → Vec α n) (itp : RkItp α n d) (t0 : α) (y0 : Vec α n) (h first : Option α)
    (s0 st st1 : St α n 0 (FsalAux α n s (RkItp α n d)))
    (hs0 : fsalInit c.P o sel g K0 itp rhs t0 y0 h first = .ok s0) (hh : 0 < s0.h)
    (hs : Session ⟨fsal lib o c, rhs, b⟩ bo argsort s0 st) (t1 : α) (r1 : Ref α n 0)
    (h1 : (Solver.step ⟨fsal lib o c, rhs, b⟩ none none).run st = some (.ok (.single t1 r1), st1)) :
    DenseOfLastStep lib o c rhs b st1 := by
  have hM : WellConfigured (fsal lib o c : Method α n _ _) := Or.inr ⟨lib, o, _, .fsal c, hl, ho, hex⟩
  obtain ⟨hpos, hle, hw⟩ := rk_session hM hs0 hh hs
  have ht : Takes ⟨fsal lib o c, rhs, b⟩ st st1 := step_single h1
  have hlt := (C11_step_increases (⟨fsal lib o c, rhs, b⟩ : Solver α n _ _) hM st st1 hpos ht).1
  have hpr := fsalBody_prev lib o _ _ _ rhs st st1 ht
  have hcons := (C14_f_is_derivative (⟨fsal lib o c, rhs, b⟩ : Solver α n _ _) hM.library bo argsort s0 st
    (C14_construction_fsal _ _ _ _ _ _ _ _ _ _ _ _ hs0).1 hs).2
  refine rk_formula (Or.inl ?_) (by rw [hpr]; exact hlt)
    (fsalBody_lastStages lib o hl ho _ hex _ hT _ rhs st st1 hcons ht)
  rw [hpr, fsalBody_itp lib o _ _ _ rhs st _ st1 ht]
  rcases hw with hw | hw
  · exact hw.trans hle
  · exact hw.le

/-! ### DOP853 -/

/-- The interpolator was brought up to date no later than at the beginning of the last step, or after that step. -/
def DopClock (st : St α n 0 (FsalAux α n 11 (DopItp α n))) : Prop :=
  st.aux.itp.updatedT ≤ st.cache.ts (Buffer.iPrev 0) ∨ st.aux.itp.updatedT = st.cache.ts (Buffer.iLast 0)

theorem dopRefresh_clock (D : DopDense α) (rhs : Rhs α n) (t : α) (st : St α n 0 (FsalAux α n 11 (DopItp α n))) :
    ∃ (r : Except Err Unit) (st1 : _), (if t < st.aux.itp.updatedT then some (.ok (), st) else (dopUpdate D rhs).run st) =
        some (r, st1) ∧ st1.cache = st.cache ∧
      (st1.aux.itp.updatedT = st.aux.itp.updatedT ∨ st1.aux.itp.updatedT = st.cache.ts (Buffer.iLast 0)) ∧
      (r = .ok () → ¬ t < st.aux.itp.updatedT → st1.aux.itp.updatedT = st.cache.ts (Buffer.iLast 0)) := by
  split
  · rename_i hu
    exact ⟨_, _, rfl, rfl, Or.inl rfl, fun _ h => absurd hu h⟩
  · rcases dopUpdate_run D rhs st with ⟨Kx, -, h⟩ | ⟨-, e, Kx, h⟩
    · exact ⟨_, _, h, rfl, Or.inr rfl, fun _ _ => rfl⟩
    · exact ⟨_, _, h, rfl, Or.inl rfl, fun h => by simp at h⟩

theorem dopInterp_clock (D : DopDense α) (rhs : Rhs α n) (t : α) (st : St α n 0 (FsalAux α n 11 (DopItp α n))) (r) (s')
    (h : (dopInterp D rhs t).run st = some (r, s')) : s'.cache = st.cache ∧
      (s'.aux.itp.updatedT = st.aux.itp.updatedT ∨ s'.aux.itp.updatedT = st.cache.ts (Buffer.iLast 0)) ∧
      (st.cache.ts (Buffer.iPrev 0) < t → t < st.cache.ts (Buffer.iLast 0) → DopClock st → (∃ v, r = .ok v) →
        s'.aux.itp.updatedT = st.cache.ts (Buffer.iLast 0)) := by
  rw [dopInterp_run] at h
  split at h
  · rename_i hc
    cases h
    exact ⟨rfl, Or.inl rfl, fun _ h2 => absurd (by simpa using hc) h2.ne⟩
  · split at h
    · rename_i hc
      cases h
      exact ⟨rfl, Or.inl rfl, fun h1 => absurd (by simpa using hc) h1.ne'⟩
    · obtain ⟨r0, st1, e, hc, hu, hn⟩ := dopRefresh_clock D rhs t st
      rw [e] at h
      have key : st.cache.ts (Buffer.iPrev 0) < t → DopClock st → r0 = .ok () →
          st1.aux.itp.updatedT = st.cache.ts (Buffer.iLast 0) := by
        intro h1 hw hr
        by_cases ht : t < st.aux.itp.updatedT
        · rcases hu with hu | hu
          · rw [hu]
            rcases hw with hw | hw
            · exact absurd (ht.trans_le hw) (not_lt.mpr h1.le)
            · exact hw
          · exact hu
        · exact hn hr ht
      cases r0 with
      | error e' =>
        simp only [andThen_error, Option.some.injEq, Prod.mk.injEq] at h
        obtain ⟨rfl, rfl⟩ := h
        exact ⟨hc, hu, fun _ _ _ ⟨v, hv⟩ => by simp at hv⟩
      | ok _ =>
        simp only [andThen_ok] at h
        have : s' = st1 := by
          split at h <;> (simp only [Option.some.injEq, Prod.mk.injEq] at h; exact h.2.symm)
        subst this
        exact ⟨hc, hu, fun h1 _ hw _ => key h1 hw rfl⟩

theorem dop_prim {lib : Lib α} {o : VarOptions α} {c : DopCoef α} {rhs : Rhs α n} {b : Bound α}
    (hM : WellConfigured (dop853 lib o c : Method α n _ _)) {x x' : St α n 0 (FsalAux α n 11 (DopItp α n))}
    (hp : Prim ⟨dop853 lib o c, rhs, b⟩ x x')
    (hx : 0 < x.h ∧ x.cache.ts (Buffer.iPrev 0) ≤ x.cache.ts (Buffer.iLast 0) ∧ DopClock x) :
    0 < x'.h ∧ x'.cache.ts (Buffer.iPrev 0) ≤ x'.cache.ts (Buffer.iLast 0) ∧ DopClock x' := by
  obtain ⟨hh, hle, hw⟩ := hx
  cases hp with
  | @body r b' hb hf h =>
    have hi := fsalBody_itp lib o _ _ _ rhs x r x' h
    obtain ⟨⟨p, hp, h1⟩, -⟩ := hM.time _ _ _ _ h
    have hh' : 0 < x'.h := by rw [h1]; exact mul_pos hh hp
    cases r with
    | error e =>
      have hc : x'.cache = x.cache := fsalBody_shape lib o _ _ _ rhs x _ x' h
      exact ⟨hh', by rw [hc]; exact hle, by unfold DopClock; rw [hc, hi]; exact hw⟩
    | ok u =>
      have hpr := fsalBody_prev lib o _ _ _ rhs x x' h
      have hlt := (C11_step_increases (⟨dop853 lib o c, rhs, b⟩ : Solver α n _ _) hM x x' hh h).1
      refine ⟨hh', by rw [hpr]; exact hlt.le, Or.inl ?_⟩
      rw [hpr, hi]
      rcases hw with hw | hw
      · exact hw.trans hle
      · exact hw.le
  | @interp r t h =>
    obtain ⟨hc, hi, -⟩ := dopInterp_clock c.toDopDense rhs t x r x' h
    have hh' : x'.h = x.h := (hM.library.shaped.interp _ _ _ _ _ h).2
    refine ⟨by rw [hh']; exact hh, by rw [hc]; exact hle, ?_⟩
    unfold DopClock
    rw [hc]
    rcases hi with hi | hi
    · rw [hi]; exact hw
    · exact Or.inr hi

theorem dop_session {lib : Lib α} {o : VarOptions α} {c : DopCoef α} {rhs : Rhs α n} {b : Bound α}
    (hM : WellConfigured (dop853 lib o c : Method α n _ _)) {bo : BisectOpts α} {argsort : List α → List Nat}
    {sel : Rhs α n → α → Vec α n → Vec α n → Except Err α} {g : Buffer α n 0} {K0 : Fin 13 → Vec α n}
    {itp : DopItp α n} {t0 : α} {y0 : Vec α n} {h first : Option α} {s0 st : St α n 0 (FsalAux α n 11 (DopItp α n))}
    (hs0 : dopInit c.toDopDense o sel g K0 itp rhs t0 y0 h first = .ok s0) (hh : 0 < s0.h)
    (hs : Session ⟨dop853 lib o c, rhs, b⟩ bo argsort s0 st) :
    0 < st.h ∧ st.cache.ts (Buffer.iPrev 0) ≤ st.cache.ts (Buffer.iLast 0) ∧ DopClock st := by
  have ht0 := dopInit_times hs0
  refine session_invariant (S := ⟨dop853 lib o c, rhs, b⟩) _ (fun _ _ hp hx => dop_prim hM hp hx) hs
    ⟨hh, by rw [ht0, ht0], ?_⟩
  rcases dopInit_fresh hs0 with hf | ⟨hf, -⟩
  · exact Or.inl hf
  · exact Or.inr hf

/-- **C104**, DOP853 (any coefficients; partial: only if the dense output was used since the last step), as
`C104_used_partial`. -/
theorem C104_used_dop853_partial (lib : Lib α) (o : VarOptions α) (c : DopCoef α) (hl : PowLaw lib) (ho : SaneOptions o)
    (hex : 0 ≤ c.errorExponent) (rhs : Rhs α n) (b : Bound α) (bo : BisectOpts α) (argsort : List α → List Nat)
    (sel : Rhs α n → α → Vec α n → Vec α n → Except Err α) (g : Buffer α n 0) (K0 : Fin 13 → Vec α n)
    (itp : DopItp α n) (t0 : α) (y0 : Vec α n) (h first : Option α)
    (s0 st st1 st2 : St α n 0 (FsalAux α n 11 (DopItp α n)))
    (hs0 : dopInit c.toDopDense o sel g K0 itp rhs t0 y0 h first = .ok s0) (hh : 0 < s0.h)
    (hs : Session ⟨dop853 lib o c, rhs, b⟩ bo argsort s0 st) (t1 : α) (r1 : Ref α n 0)
    (ht1 : st.cache.ts (Buffer.iPrev 0) < t1) (ht1' : t1 < st.t)
    (h1 : (Solver.interpolate ⟨dop853 lib o c, rhs, b⟩ t1).run st = some (.ok r1, st1)) (e : Err)
    (h2 : (Solver.step ⟨dop853 lib o c, rhs, b⟩ none none).run st1 = some (.error e, st2)) :
    SameDense ⟨dop853 lib o c, rhs, b⟩ st1 st2 := by
  have hM : WellConfigured (dop853 lib o c : Method α n _ _) := Or.inr ⟨lib, o, _, .dop853 c, hl, ho, hex⟩
  obtain ⟨-, -, hw⟩ := dop_session hM hs0 hh hs
  rw [interpolate_inside (S := ⟨dop853 lib o c, rhs, b⟩) (k := 0) ht1.le ht1'.le] at h1
  obtain ⟨hc1, -, hu⟩ := dopInterp_clock c.toDopDense rhs t1 st _ st1 h1
  replace hu := hu ht1 ht1' hw ⟨_, rfl⟩
  have hb := step_error h2
  have hi : st2.aux.itp = st1.aux.itp := fsalBody_itp lib o _ _ _ rhs st1 _ st2 hb
  have hc2 : st2.cache = st1.cache := fsalBody_shape lib o _ _ _ rhs st1 _ st2 hb
  refine denseAt_congr hc2.symm fun t h3 h4 => ?_
  show ∃ r x' y', (dopInterp c.toDopDense rhs t).run st1 = some (r, x') ∧ (dopInterp c.toDopDense rhs t).run st2 = some (r, y') ∧ _
  rw [dopInterp_run, dopInterp_run, hc2, hi]
  simp only [beq_iff_eq]
  split
  · exact ⟨_, _, _, rfl, rfl, hc2.symm⟩
  · rename_i hne
    split
    · exact ⟨_, _, _, rfl, rfl, hc2.symm⟩
    · have hlt : t < st1.aux.itp.updatedT := by
        rw [hu, ← hc1]; exact lt_of_le_of_ne h4 hne
      simp only [if_pos hlt, hi, hc2, andThen_ok]
      split
      · exact ⟨_, _, _, rfl, rfl, hc2.symm⟩
      · exact ⟨_, _, _, rfl, rfl, hc2.symm⟩

/-- **C104**, DOP853 (any coefficients). Whatever was raised before: once a step has been completed, the dense output is that of
this step. -/
theorem C104_recovers_dop853 (lib : Lib α) (o : VarOptions α) (c : DopCoef α) (hT : Explicit c.toTableau) (hl : PowLaw lib)
    (ho : SaneOptions o) (hex : 0 ≤ c.errorExponent) (rhs : Rhs α n) (b : Bound α) (bo : BisectOpts α)
    (argsort : List α → List Nat) (sel : Rhs α n → α → Vec α n → Vec α n → Except Err α) (g : Buffer α n 0)
    (K0 : Fin 13 → Vec α n) (itp : DopItp α n) (t0 : α) (y0 : Vec α n) (h first : Option α)
    (s0 st st1 : St α n 0 (FsalAux α n 11 (DopItp α n)))
    (hs0 : dopInit c.toDopDense o sel g K0 itp rhs t0 y0 h first = .ok s0) (hh : 0 < s0.h)
    (hs : Session ⟨dop853 lib o c, rhs, b⟩ bo argsort s0 st) (t1 : α) (r1 : Ref α n 0)
    (h1 : (Solver.step ⟨dop853 lib o c, rhs, b⟩ none none).run st = some (.ok (.single t1 r1), st1)) :
    DopDenseOfLastStep lib o c rhs b st1 := by
  have hM : WellConfigured (dop853 lib o c : Method α n _ _) := Or.inr ⟨lib, o, _, .dop853 c, hl, ho, hex⟩
  obtain ⟨hpos, hle, hw⟩ := dop_session hM hs0 hh hs
  have ht : Takes ⟨dop853 lib o c, rhs, b⟩ st st1 := step_single h1
  have hlt := (C11_step_increases (⟨dop853 lib o c, rhs, b⟩ : Solver α n _ _) hM st st1 hpos ht).1
  have hpr := fsalBody_prev lib o _ _ _ rhs st st1 ht
  have hcons := (C14_f_is_derivative (⟨dop853 lib o c, rhs, b⟩ : Solver α n _ _) hM.library bo argsort s0 st
    (C14_construction_dop853 _ _ _ _ _ _ _ _ _ _ _ _ hs0).1 hs).2
  have hL := fsalBody_lastStages lib o hl ho _ hex _ hT _ rhs st st1 hcons ht
  have hlt1 : st1.cache.ts (Buffer.iPrev 0) < st1.t := by rw [hpr]; exact hlt
  have hcoh : DopCoh c.toDopDense rhs st1 := by
    refine Or.inl ?_
    rw [hpr, fsalBody_itp lib o _ _ _ rhs st _ st1 ht]
    rcases hw with hw | hw
    · exact hw.trans hle
    · exact hw.le
  refine ⟨st1.aux.K, hL, fun t h1 h2 v hr => ?_⟩
  have hd : st1.cache.ts (Buffer.iLast 0) - st1.cache.ts (Buffer.iPrev 0) ≠ 0 := (sub_pos.mpr hlt1).ne'
  unfold denseAt at hr
  rw [interpolate_inside (S := ⟨dop853 lib o c, rhs, b⟩) (k := 0) h1.le h2.le] at hr
  obtain ⟨⟨r, x⟩, hr, hv⟩ := Option.map_eq_some_iff.mp hr
  cases r with
  | error e => simp [Except.map] at hv
  | ok r =>
    have hr' : (dopInterp c.toDopDense rhs t).run st1 = some (.ok r, x) := hr
    have hx : x.cache = st1.cache := (dopInterp_clock _ _ _ _ _ _ hr').1
    simp only [Except.map, hx, Except.ok.injEq] at hv
    have hv := (dopInterp_iff c.toDopDense rhs t st1 v hcoh h1.le h2.le).mp ⟨r, x, hr', hv⟩
    unfold DopVal at hv
    rw [if_neg (show ¬ t = st1.cache.ts (Buffer.iLast 0) from h2.ne), if_neg h1.ne'] at hv
    obtain ⟨x, Kx, hx, hK, hv⟩ := hv
    rw [pyDiv_ne hd, Except.ok.injEq] at hx
    refine ⟨Kx, extraStages_of hK, fun i => ?_⟩
    have hK0 : Kx 0 = st1.cache.fs (Buffer.iPrev 0) := by rw [hK.1 0 (by decide), ← hL.first]; rfl
    rw [hv, dopEval_apply, ← hx]
    simp only [dopF, scale, vdot_apply, Pi.add_apply, Pi.sub_apply, hK0, Nat.cast_ofNat]
    rfl

end field

/-! ### The refutation, and concrete cases -/

section fail
variable {α : Type} [Field α] [LinearOrder α] [IsStrictOrderedRing α] [BEq α] [LawfulBEq α] {n s : Nat} {I : Type}

/-- When the first evaluation of a step raises, the first stage has already been overwritten. -/
theorem fsalBody_fails (lib : Lib α) (o : VarOptions α) (ex : α) (T : Tableau α (s + 1)) (errNorm : ErrNorm α n (s + 1))
    (rhs : Rhs α n) (st : St α n 0 (FsalAux α n (s + 1) I)) (e : Err) (h : ∀ y, rhs (st.t + st.h * T.C 1) y = .error e) :
    (fsalBody lib o ex T errNorm rhs).run st =
      some (.error e, { st with aux := { st.aux with K := Function.update st.aux.K 0 st.f } }) := by
  have hK : (stages (m := s + 3) (by omega) T rhs st.t st.h st.y st.f).run st.aux.K =
      some (.error e, Function.update st.aux.K 0 st.f) := by
    unfold stages
    rw [List.finRange_succ, List.tail_cons, List.finRange_succ, List.map_cons]
    simp only [run_bind, run_modify, andThen_ok, stageLoop, run_get, run_ofExcept]
    rw [show (Fin.succ 0 : Fin (s + 2)) = 1 from rfl, h]
    rfl
  rw [fsalBody_run, fsalFixedStep_run T rhs st hK]
  rfl

end fail

namespace Demo

noncomputable section

/-- `y' = t`; raises for `t > 1`. -/
def untilOne : Rhs ℝ 1 := fun t _ => if 1 < t then .error (.user 7) else .ok fun _ => t

/-- RungeKutta23 on `y' = t` for `t ≤ 1`. -/
def rkUntil : Solver ℝ 1 0 (FsalAux ℝ 1 2 (RkItp ℝ 1 3)) := ⟨fsal realLib coarse RungeKutta23, untilOne, .inf⟩

theorem untilOne_stages (y : Vec ℝ 1) :
    RKStages (withLast (RungeKutta23 : FsalCoef ℝ 2 3).toTableau) untilOne 0 1 y (rk23K (fun t => t) 0 1) := by
  intro i
  rw [← rk23_stages (fun t => t) 0 1 y i]
  unfold untilOne timeRhs pureRhs
  rw [if_neg]
  fin_cases i <;> simp [withLast, RungeKutta23, q] <;> norm_num

theorem until_init (sel : Rhs ℝ 1 → ℝ → Vec ℝ 1 → Vec ℝ 1 → Except Err ℝ) (gb : Buffer ℝ 1 0) :
    fsalInit (RungeKutta23 : FsalCoef ℝ 2 3).P coarse sel gb (fun _ _ => 0) ⟨fun _ _ => 0, 0⟩ untilOne 0
      (fun _ => 0) none (some 1) = .ok (rk23Start (fun t => t) 1) := by
  rw [← rk23Start_init coarse (Or.inl rfl) rfl sel gb (fun t => t) 1]
  have : untilOne 0 (fun _ => 0) = timeRhs (fun t => t) 0 fun _ => 0 := by
    unfold untilOne timeRhs pureRhs
    rw [if_neg (by norm_num)]
  unfold fsalInit variableInit solverInit
  simp only [this]

/-- After one step. -/
def u1 : St ℝ 1 0 (FsalAux ℝ 1 2 (RkItp ℝ 1 3)) :=
  ⟨(rk23Start (fun t => t) 1).cache.push (0 + 1)
    (proposal (RungeKutta23 : FsalCoef ℝ 2 3).toTableau 1 (fun _ => 0) (rk23K (fun t => t) 0 1)) (rk23K (fun t => t) 0 1 (Fin.last _)),
    1 * 10, ⟨rk23K (fun t => t) 0 1, ⟨fun _ _ => 0, 0⟩⟩⟩

/-- After the next step, which raises. -/
def u2 : St ℝ 1 0 (FsalAux ℝ 1 2 (RkItp ℝ 1 3)) :=
  { u1 with aux := { u1.aux with K := Function.update u1.aux.K 0 u1.f } }

theorem until_first : Takes rkUntil (rk23Start (fun t => t) 1) u1 := by
  refine (fsal_takes_iff realLib coarse RungeKutta23 RungeKutta23_conditions.explicit _ .inf _ _ ?_).mpr
    ⟨[⟨1, 0⟩], ⟨1, 0⟩, _, rk23K (fun t => t) 0 1, .accept (untilOne_stages _) ?_ (Or.inl rfl) (Or.inl ⟨rfl, rfl⟩), rfl, rfl⟩
  · show untilOne 0 _ = .ok fun _ => 0
    unfold untilOne
    rw [if_neg (by norm_num)]
  · show rkNorm realLib coarse _ 1 (rk23K (fun t => t) 0 1) _ _ = _
    rw [rk23_norm coarse rfl rfl]; norm_num

theorem u1_t : u1.t = 1 := by
  refine (push_t _ _ _ _).trans ?_
  norm_num

theorem until_second : (rkUntil.step none none).run u1 = some (.error (.user 7), u2) := by
  rw [step_none_run]
  have : (rkUntil.pstep .inf).run u1 = some (.error (.user 7), u2) := by
    refine pstep_error.mpr ⟨trivial, ?_⟩
    refine fsalBody_fails _ _ _ _ _ _ u1 _ fun y => ?_
    show untilOne _ y = _
    unfold untilOne
    rw [if_pos]
    rw [u1_t]
    show (1 : ℝ) < 1 + 1 * 10 * _
    simp [RungeKutta23, q]
  show andThen ((rkUntil.pstep .inf).run u1) _ = _
  rw [this]
  rfl

theorem until_dense (K : Fin 4 → Vec ℝ 1) :
    denseAt rkUntil (1 / 2) { u1 with aux := { u1.aux with K := K } } =
      some (.ok fun _ => 17 / 72 * K 0 0 + 1 / 6 * K 1 0 + 2 / 9 * K 2 0 - 1 / 8 * K 3 0) := by
  have e1 : u1.cache.ts (Buffer.iLast 0) = 1 := u1_t
  have e2 : u1.cache.ts (Buffer.iPrev 0) = 0 := rfl
  have e3 : u1.cache.ys (Buffer.iPrev 0) = fun _ => 0 := rfl
  unfold denseAt
  rw [interpolate_inside (by show u1.cache.ts (Buffer.iPrev 0) ≤ _; rw [e2]; norm_num) (by show _ ≤ u1.t; rw [u1_t]; norm_num)]
  show Option.map _ ((rkInterp _ _).run _) = _
  rw [rkInterp_run]
  simp only [beq_iff_eq, e1, e2, e3]
  rw [if_neg (by norm_num), if_neg (by norm_num), if_neg (by show ¬ (1 / 2 : ℝ) < 0; norm_num)]
  rw [pyDiv_ne (by norm_num)]
  simp only [Option.map_some, Except.map, Ref.deref]
  congr 2
  funext i
  show rkEval (fun j => vdot (fun i => (RungeKutta23 : FsalCoef ℝ 2 3).P i j) K) _ _ _ i = _
  rw [rkEval_apply]
  obtain rfl : i = 0 := Subsingleton.elim _ _
  simp [Fin.sum_univ_succ, RungeKutta23, q]
  ring

end
end Demo

/-- **C104** is false for RungeKutta23: on `y' = t` a first step goes from `(0, 0)` to `t = 1`; a second `step()` raises, because
the right-hand side does. No step has been recorded, but `interpolate(1/2)`, which was `1/8`, is now `13/36`. -/
theorem C104_refuted (bo : BisectOpts ℝ) (argsort : List ℝ → List Nat)
    (sel : Rhs ℝ 1 → ℝ → Vec ℝ 1 → Vec ℝ 1 → Except Err ℝ) (gb : Buffer ℝ 1 0) :
    ∃ (rhs : Rhs ℝ 1) (s0 s1 s2 : St ℝ 1 0 (FsalAux ℝ 1 2 (RkItp ℝ 1 3))) (e : Err),
      let S : Solver ℝ 1 0 (FsalAux ℝ 1 2 (RkItp ℝ 1 3)) := ⟨fsal Demo.realLib coarse RungeKutta23, rhs, .inf⟩
      fsalInit (RungeKutta23 : FsalCoef ℝ 2 3).P coarse sel gb (fun _ _ => 0) ⟨fun _ _ => 0, 0⟩ rhs 0 (fun _ => 0) none
        (some 1) = .ok s0 ∧
      CleanSession S bo argsort s0 s1 ∧ (S.step none none).run s1 = some (.error e, s2) ∧ s2.cache = s1.cache ∧
      denseAt S (1 / 2) s1 = some (.ok fun _ => 1 / 8) ∧ denseAt S (1 / 2) s2 = some (.ok fun _ => 13 / 36) := by
  refine ⟨Demo.untilOne, _, Demo.u1, Demo.u2, _, Demo.until_init sel gb,
    Demo.clean_step (S := Demo.rkUntil) (.start _) trivial Demo.until_first, Demo.until_second, rfl, ?_, ?_⟩
  · refine (Demo.until_dense Demo.u1.aux.K).trans ?_
    congr 3
    funext _
    show (17 / 72 * 0 + 1 / 6 * (0 + 1 / 2) + 2 / 9 * (0 + 3 / 4 * 1) - 1 / 8 * (0 + 1) : ℝ) = 1 / 8
    norm_num
  · refine (Demo.until_dense _).trans ?_
    congr 3
    funext _
    show (17 / 72 * (0 + 1) + 1 / 6 * (0 + 1 / 2) + 2 / 9 * (0 + 3 / 4 * 1) - 1 / 8 * (0 + 1) : ℝ) = 13 / 36
    norm_num

namespace Demo

noncomputable section

/-- `interpolate(1/2)` after the first step. -/
theorem until_asks : ∃ r x, (rkUntil.interpolate (1 / 2)).run u1 = some (.ok r, x) := by
  have := until_dense u1.aux.K
  unfold denseAt at this
  obtain ⟨⟨r, x⟩, h, h'⟩ := Option.map_eq_some_iff.mp this
  cases r with
  | error e => simp [Except.map] at h'
  | ok r => exact ⟨r, x, h⟩

/-- `C104_used_partial` applies after the first step when `interpolate(1/2)` is called before the step that raises. -/
example (bo : BisectOpts ℝ) (argsort : List ℝ → List Nat) (sel : Rhs ℝ 1 → ℝ → Vec ℝ 1 → Vec ℝ 1 → Except Err ℝ)
    (gb : Buffer ℝ 1 0) : ∃ r x1 x2, (rkUntil.interpolate (1 / 2)).run u1 = some (.ok r, x1) ∧
      (rkUntil.step none none).run x1 = some (.error (.user 7), x2) ∧ SameDense rkUntil x1 x2 := by
  obtain ⟨r, x1, h1⟩ := until_asks
  have hs : Session rkUntil bo argsort (rk23Start (fun t => t) 1) u1 :=
    clean_session (clean_step (.start _) trivial until_first)
  have hin : (rkUntil.interpAt (1 / 2)).run u1 = some (.ok r, x1) := by
    rw [← interpolate_inside (by show (0 : ℝ) ≤ _; norm_num) (by rw [u1_t]; norm_num)]; exact h1
  have hst := rkInterp_state (RungeKutta23 : FsalCoef ℝ 2 3).P (1 / 2) u1 _ x1 hin
  have ht : x1.t = 1 := by rw [St.t, hst.1]; exact u1_t
  have hh : x1.h = 1 * 10 := hst.2.1
  have h2 : (rkUntil.step none none).run x1 = some (.error (.user 7),
      { x1 with aux := { x1.aux with K := Function.update x1.aux.K 0 x1.f } }) := by
    rw [step_none_run]
    have : (rkUntil.pstep .inf).run x1 = some (.error (.user 7),
        { x1 with aux := { x1.aux with K := Function.update x1.aux.K 0 x1.f } }) := by
      refine pstep_error.mpr ⟨trivial, ?_⟩
      refine fsalBody_fails _ _ _ _ _ _ x1 _ fun y => ?_
      show untilOne _ y = _
      unfold untilOne
      rw [if_pos]
      rw [ht, hh]
      simp [RungeKutta23, q]
    show andThen ((rkUntil.pstep .inf).run x1) _ = _
    rw [this]
    rfl
  exact ⟨r, x1, _, h1, h2, C104_used_partial realLib coarse RungeKutta23 realLib_powLaw coarse_sane
    (by simp [RungeKutta23, q]) untilOne .inf bo argsort sel gb _ _ _ _ none (some 1) _ u1 x1 _ (until_init sel gb)
    (by show (0 : ℝ) < 1; norm_num) hs (1 / 2) r (by show (0 : ℝ) < _; norm_num) (by rw [u1_t]; norm_num) h1 _ h2⟩

/-- `C104_recovers` applies to the first step. -/
example (bo : BisectOpts ℝ) (argsort : List ℝ → List Nat) (sel : Rhs ℝ 1 → ℝ → Vec ℝ 1 → Vec ℝ 1 → Except Err ℝ)
    (gb : Buffer ℝ 1 0) : DenseOfLastStep realLib coarse RungeKutta23 untilOne .inf u1 :=
  C104_recovers realLib coarse RungeKutta23 RungeKutta23_conditions.explicit realLib_powLaw coarse_sane
    (by simp [RungeKutta23, q]) untilOne .inf bo argsort sel gb _ _ _ _ none (some 1) _ (rk23Start (fun t => t) 1) u1
    (until_init sel gb) (by show (0 : ℝ) < 1; norm_num) (.start _) u1.t (.row (Buffer.iLast 0)) (by
      rw [step_none_run]
      show andThen ((rkUntil.pstep .inf).run _) _ = _
      rw [(pstep_true (S := rkUntil) (b := .inf)).mpr ⟨trivial, until_first⟩]
      rfl)

/-- The pulse; raises for `t > 1`. -/
def pulseUntil : Rhs ℝ 1 := fun t y => if 1 < t then .error (.user 7) else timeRhs pulse t y

/-- DOP853 on the pulse for `t ≤ 1`. -/
def dopUntil : Solver ℝ 1 0 (FsalAux ℝ 1 11 (DopItp ℝ 1)) := ⟨dop853 realLib coarse DOP853, pulseUntil, .inf⟩

theorem pulseUntil_of {t : ℝ} (h : t ≤ 1) (y : Vec ℝ 1) : pulseUntil t y = timeRhs pulse t y := if_neg (not_lt.mpr h)

theorem dopUntil_extra (h : ℝ) (h0 : 0 ≤ h) (h1 : h ≤ 1) (y : Vec ℝ 1) (K : Fin 13 → Vec ℝ 1) :
    ∃ Kx, DopStages (DOP853 : DopCoef ℝ).toDopDense pulseUntil 0 h y K Kx := by
  obtain ⟨Kx, hK⟩ := dopStages_exist (DOP853 : DopCoef ℝ).toDopDense (timeRhs pulse) (timeRhs_total _) 0 h y K
  refine ⟨Kx, hK.1, fun e => ?_⟩
  rw [pulseUntil_of, hK.2 e]
  have : (DOP853 : DopCoef ℝ).CExtra e ≤ 1 := by
    fin_cases e <;> simp [DOP853, dopC, q] <;> norm_num
  nlinarith

theorem dopUntil_init (sel : Rhs ℝ 1 → ℝ → Vec ℝ 1 → Vec ℝ 1 → Except Err ℝ) (gb : Buffer ℝ 1 0) (K : Fin 13 → Vec ℝ 1)
    (itp : DopItp ℝ 1) : ∃ st, dopInit (DOP853 : DopCoef ℝ).toDopDense coarse sel gb K itp pulseUntil 0 (fun _ => 0)
      none (some 1) = .ok st ∧ st.h = 1 ∧ st.t = 0 ∧ st.f = fun _ => 0 := by
  have hp : pulseUntil 0 (fun _ => 0) = .ok fun _ => 0 := by
    rw [pulseUntil_of zero_le_one]; simp [timeRhs, pureRhs, pulse]
  have h1 : variableInit coarse sel gb (⟨K, itp⟩ : FsalAux ℝ 1 11 (DopItp ℝ 1)) pulseUntil 0 (fun _ => 0) none
      (some 1) = .ok ⟨Buffer.init gb 0 (fun _ => 0) (fun _ => 0), 1, ⟨K, itp⟩⟩ := by
    unfold variableInit solverInit
    rw [hp]
    simp only [bind, Except.bind, pure, Except.pure]
    have ha : ¬ (coarse.atol < 0) := by simp [coarse]
    have fin : ∀ c : Bool, c = true → ∀ e v : Except Err (St ℝ 1 0 (FsalAux ℝ 1 11 (DopItp ℝ 1))),
        (if (!c) = true then e else v) = v := by
      intro c hc e v; rw [hc]; rfl
    rw [fin _ (by rfl), if_neg ha]
  unfold dopInit
  rw [h1]
  simp only [bind, Except.bind, pure, Except.pure]
  rcases dopUpdate_run (DOP853 : DopCoef ℝ).toDopDense pulseUntil
    ⟨Buffer.init gb 0 (fun _ => 0) (fun _ => 0), 1, ⟨K, itp⟩⟩ with ⟨Kx, -, hu⟩ | ⟨hno, -⟩
  · rw [hu]
    exact ⟨_, rfl, rfl, init_ts _ _ _ _ _, init_fs _ _ _ _ _⟩
  · refine absurd ?_ hno
    simp only [init_ts, sub_self]
    exact dopUntil_extra 0 le_rfl zero_le_one _ _

theorem dopUntil_step (st : St ℝ 1 0 (FsalAux ℝ 1 11 (DopItp ℝ 1))) (hh : st.h = 1) (ht : st.t = 0)
    (hf : st.f = fun _ => 0) : ∃ st', Takes dopUntil st st' ∧ st'.t = 1 ∧ st'.cache.ts (Buffer.iPrev 0) = 0 := by
  obtain ⟨en, h1, h2, h3⟩ := dopK_norm (proposal (DOP853 : DopCoef ℝ).toTableau 1 st.y dopK) st.y
  have hr : pulseUntil st.t st.y = .ok st.f := by
    rw [pulseUntil_of (by rw [ht]; norm_num), hf, ht]; simp [timeRhs, pureRhs, pulse]
  refine ⟨_, (dop853_takes_iff realLib coarse DOP853 DOP853_explicit _ .inf _ _
      hr).mpr ⟨[⟨st.h, en⟩], ⟨st.h, en⟩, _, dopK,
        .accept ?_ ?_ (Or.inr h3) (Or.inr ⟨h2.ne', (realLib_powLaw.pos _ _ h2).ne', rfl⟩), rfl, rfl⟩, ?_, ht⟩
  · rw [hh, ht]
    intro i
    rw [pulseUntil_of, dopK_stages _ i]
    fin_cases i <;> simp [withLast, DOP853, dopC, q] <;> norm_num
  · rw [hh]; exact h1
  · refine (push_t _ _ _ _).trans ?_
    rw [hh, ht, zero_add]

/-- `C104_used_dop853_partial` applies to DOP853 after a step to `t = 1` and `interpolate(1/2)`; the next step raises. -/
example (bo : BisectOpts ℝ) (argsort : List ℝ → List Nat) (sel : Rhs ℝ 1 → ℝ → Vec ℝ 1 → Vec ℝ 1 → Except Err ℝ)
    (gb : Buffer ℝ 1 0) (K : Fin 13 → Vec ℝ 1) (itp : DopItp ℝ 1) : ∃ x r x1 x2,
      x.t = 1 ∧ (dopUntil.interpolate (1 / 2)).run x = some (.ok r, x1) ∧
      (dopUntil.step none none).run x1 = some (.error (.user 7), x2) ∧ SameDense dopUntil x1 x2 := by
  have hM : WellConfigured (dop853 realLib coarse DOP853 : Method ℝ 1 _ _) :=
    Or.inr ⟨realLib, coarse, _, .dop853 DOP853, realLib_powLaw, coarse_sane, by simp [DOP853, q]⟩
  obtain ⟨s0, hi, hh, ht, hf⟩ := dopUntil_init sel gb K itp
  obtain ⟨x, h1, h2, h3⟩ := dopUntil_step s0 hh ht hf
  have hh0 : 0 < s0.h := by rw [hh]; exact one_pos
  have hs : Session dopUntil bo argsort s0 x := clean_session (clean_step (.start _) trivial h1)
  have hxh : 0 < x.h := by
    obtain ⟨⟨p, hp, h⟩, -⟩ := hM.time _ _ _ _ h1
    rw [h]; exact mul_pos hh0 hp
  have a1 : x.cache.ts (Buffer.iLast 0) = 1 := h2
  have hask : ∃ r x1, (dopUntil.interpolate (1 / 2)).run x = some (.ok r, x1) ∧ x1.cache = x.cache ∧ x1.h = x.h := by
    have key : ∃ r x1, (dopInterp (DOP853 : DopCoef ℝ).toDopDense pulseUntil (1 / 2)).run x = some (.ok r, x1) := by
      rw [dopInterp_run, a1, h3]
      simp only [beq_iff_eq]
      rw [if_neg (by norm_num), if_neg (by norm_num)]
      have e : ∃ x1, (if (1 / 2 : ℝ) < x.aux.itp.updatedT then some (.ok (), x) else
          (dopUpdate (DOP853 : DopCoef ℝ).toDopDense pulseUntil).run x) = some (.ok (), x1) ∧ x1.cache = x.cache := by
        split
        · exact ⟨_, rfl, rfl⟩
        · rcases dopUpdate_run (DOP853 : DopCoef ℝ).toDopDense pulseUntil x with ⟨Kx, -, hu⟩ | ⟨hno, -⟩
          · exact ⟨_, hu, rfl⟩
          · refine absurd ?_ hno
            rw [a1, h3]
            exact dopUntil_extra _ (by norm_num) (by norm_num) _ _
      obtain ⟨x1, e, hc⟩ := e
      rw [e]
      simp only [andThen_ok, hc, a1, h3]
      rw [pyDiv_ne (by norm_num)]
      exact ⟨_, _, rfl⟩
    obtain ⟨r, x1, hr⟩ := key
    refine ⟨r, x1, ?_, (dopInterp_clock _ _ _ _ _ _ hr).1, (hM.library.shaped.interp _ _ _ _ _ hr).2⟩
    rw [interpolate_inside (by show x.cache.ts (Buffer.iPrev 0) ≤ _; rw [h3]; norm_num) (by rw [h2]; norm_num)]
    exact hr
  obtain ⟨r, x1, hr, hc, hh1⟩ := hask
  have h4 : (dopUntil.step none none).run x1 = some (.error (.user 7),
      { x1 with aux := { x1.aux with K := Function.update x1.aux.K 0 x1.f } }) := by
    rw [step_none_run]
    have : (dopUntil.pstep .inf).run x1 = some (.error (.user 7),
        { x1 with aux := { x1.aux with K := Function.update x1.aux.K 0 x1.f } }) := by
      refine pstep_error.mpr ⟨trivial, ?_⟩
      refine fsalBody_fails _ _ _ _ _ _ x1 _ fun y => ?_
      show pulseUntil _ y = _
      unfold pulseUntil
      rw [if_pos]
      have : x1.t = 1 := by rw [St.t, hc]; exact h2
      rw [this, hh1]
      have hC : (0 : ℝ) < (DOP853 : DopCoef ℝ).C 1 := by simp [DOP853, dopC, q]
      have := mul_pos hxh hC
      linarith
    show andThen ((dopUntil.pstep .inf).run x1) _ = _
    rw [this]
    rfl
  exact ⟨x, r, x1, _, h2, hr, h4, C104_used_dop853_partial realLib coarse DOP853 realLib_powLaw coarse_sane
    (by simp [DOP853, q]) pulseUntil .inf bo argsort sel gb K itp 0 _ none (some 1) s0 x x1 _ hi hh0 hs (1 / 2) r
    (by rw [h3]; norm_num) (by rw [h2]; norm_num) hr _ h4⟩

/-- `C104_recovers_dop853` applies to the first step. -/
example (bo : BisectOpts ℝ) (argsort : List ℝ → List Nat) (sel : Rhs ℝ 1 → ℝ → Vec ℝ 1 → Vec ℝ 1 → Except Err ℝ)
    (gb : Buffer ℝ 1 0) (K : Fin 13 → Vec ℝ 1) (itp : DopItp ℝ 1) : ∃ s0 x, Takes dopUntil s0 x ∧ x.t = 1 ∧
      DopDenseOfLastStep realLib coarse DOP853 pulseUntil .inf x := by
  obtain ⟨s0, hi, hh, ht, hf⟩ := dopUntil_init sel gb K itp
  obtain ⟨x, h1, h2, h3⟩ := dopUntil_step s0 hh ht hf
  refine ⟨s0, x, h1, h2, C104_recovers_dop853 realLib coarse DOP853 DOP853_explicit realLib_powLaw coarse_sane
    (by simp [DOP853, q]) pulseUntil .inf bo argsort sel gb K itp 0 _ none (some 1) s0 s0 x hi
    (by rw [hh]; exact one_pos) (.start _) x.t (.row (Buffer.iLast 0)) ?_⟩
  rw [step_none_run]
  show andThen ((dopUntil.pstep .inf).run _) _ = _
  rw [(pstep_true (S := dopUntil) (b := .inf)).mpr ⟨trivial, h1⟩]
  rfl

end

/-- ForwardEuler on a right-hand side that raises for `t > 3/4`: the step from `t = 1/2` does. -/
example : ∃ x', (eulerFailing.step none none).run (st2 0 1 1 (1 / 2) (3 / 2) (3 / 2)) = some (.error (.user 7), x') ∧
    SameDense eulerFailing (st2 0 1 1 (1 / 2) (3 / 2) (3 / 2)) x' := by
  have h : (eulerFailing.step none none).run (st2 0 1 1 (1 / 2) (3 / 2) (3 / 2)) =
      some (.error (.user 7), st2 0 1 1 (1 / 2) (3 / 2) (3 / 2)) := by
    rw [step_none_run]
    have : (eulerFailing.pstep .inf).run (st2 0 1 1 (1 / 2) (3 / 2) (3 / 2)) =
        some (.error (.user 7), st2 0 1 1 (1 / 2) (3 / 2) (3 / 2)) := by
      refine pstep_error.mpr ⟨trivial, ?_⟩
      show (explicitMultistepBody ForwardEuler failing).run _ = _
      rw [explicitMultistepBody_run]
      have : failing ((st2 0 1 1 (1 / 2) (3 / 2) (3 / 2)).t + (st2 0 1 1 (1 / 2) (3 / 2) (3 / 2)).h)
          (multistepK (ForwardEuler (α := ℚ)) (st2 0 1 1 (1 / 2) (3 / 2) (3 / 2)).cache
            (st2 0 1 1 (1 / 2) (3 / 2) (3 / 2)).h) = .error (.user 7) := by
        unfold failing
        rw [if_pos]
        decide +kernel
      rw [this]
    show andThen ((eulerFailing.pstep .inf).run _) _ = _
    rw [this]
    rfl
  exact ⟨_, h, C104_fixed eulerFailing (.explicitMultistep _) _ _ _ h⟩

end Demo
end Nbkode
