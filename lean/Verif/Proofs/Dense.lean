import Verif.Proofs.MethodShape
import Verif.Proofs.Stages
import Verif.Spec.Run

/-! Dense output: the interpolator objects refresh their coefficients lazily; on coherent states they compute a function of
the history and the stages only. -/

set_option autoImplicit false
set_option linter.unusedSectionVars false

namespace Nbkode
open Py Spec

section lawless
variable {α : Type}
variable [Add α] [Sub α] [Mul α] [Div α] [Neg α] [Zero α] [One α] [NatCast α] [BEq α]
variable [LT α] [DecidableLT α] [LE α] [DecidableLE α]
variable {n k : Nat} {X : Type}

/-! ### `fsalBody` does not look at the interpolator -/

section fsal
variable {s : Nat} {I : Type}

/-- Replace the interpolator. -/
def setItp (i : I) (st : St α n 0 (FsalAux α n s I)) : St α n 0 (FsalAux α n s I) :=
  { st with aux := { st.aux with itp := i } }

theorem fsalFixedStep_setItp (T : Tableau α s) (rhs : Rhs α n) (i : I) (st : St α n 0 (FsalAux α n s I)) :
    (fsalFixedStep T rhs).run (setItp i st) =
      ((fsalFixedStep T rhs).run st).map fun p => (p.1, setItp i p.2) := by
  obtain ⟨r, K', hK⟩ := stages_total (m := s + 2) (by omega) T rhs st.t st.h st.y st.f st.aux.K
  have hK' : (stages (by omega) T rhs (setItp i st).t (setItp i st).h (setItp i st).y (setItp i st).f).run
      (setItp i st).aux.K = some (r, K') := hK
  rw [fsalFixedStep_run T rhs st hK, fsalFixedStep_run T rhs _ hK']
  cases r with
  | error e => rfl
  | ok u =>
    have e1 : (setItp i st).t = st.t := rfl
    have e2 : (setItp i st).h = st.h := rfl
    have e3 : (setItp i st).y = st.y := rfl
    simp only [e1, e2, e3]
    split <;> rfl

theorem fsalBody_setItp_some (lib : Lib α) (o : VarOptions α) (ex : α) (T : Tableau α s)
    (errNorm : ErrNorm α n s) (rhs : Rhs α n) :
    ∀ (st : St α n 0 (FsalAux α n s I)) r s', (fsalBody lib o ex T errNorm rhs).run st = some (r, s') →
      ∀ i, (fsalBody lib o ex T errNorm rhs).run (setItp i st) = some (r, setItp i s') := by
  refine fsalBody_ind lib o ex T errNorm rhs (fun st r s' =>
    ∀ i, (fsalBody lib o ex T errNorm rhs).run (setItp i st) = some (r, setItp i s')) ?_ ?_ ?_ ?_
  · intro st e K' h i
    rw [fsalBody_run, fsalFixedStep_setItp, h]
    rfl
  · intro st y' K' e h hn i
    rw [fsalBody_run, fsalFixedStep_setItp, h]
    simp only [Option.map_some, andThen_ok]
    have e1 : (setItp i { st with aux := { st.aux with K := K' } }).h = st.h := rfl
    have e2 : (setItp i { st with aux := { st.aux with K := K' } }).y = st.y := rfl
    have e3 : (setItp i { st with aux := { st.aux with K := K' } }).aux.K = K' := rfl
    simp only [e1, e2, e3]
    rcases hn with hn | ⟨en, hn, hu⟩
    · rw [hn]
    · rw [hn]; simp only [hu]
  · intro st y' K' en h' h _ hn hu i
    rw [fsalBody_run, fsalFixedStep_setItp, h]
    simp only [Option.map_some, andThen_ok]
    have e1 : (setItp i { st with aux := { st.aux with K := K' } }).h = st.h := rfl
    have e2 : (setItp i { st with aux := { st.aux with K := K' } }).y = st.y := rfl
    have e3 : (setItp i { st with aux := { st.aux with K := K' } }).aux.K = K' := rfl
    simp only [e1, e2, e3]
    rw [hn]; simp only [hu, if_true]
    rfl
  · intro st y' K' en h' r s' h _ hn hu ih i
    rw [fsalBody_run, fsalFixedStep_setItp, h]
    simp only [Option.map_some, andThen_ok]
    have e1 : (setItp i { st with aux := { st.aux with K := K' } }).h = st.h := rfl
    have e2 : (setItp i { st with aux := { st.aux with K := K' } }).y = st.y := rfl
    have e3 : (setItp i { st with aux := { st.aux with K := K' } }).aux.K = K' := rfl
    simp only [e1, e2, e3]
    rw [hn]; simp only [hu, Bool.false_eq_true, if_false]
    exact ih i

theorem fsalBody_itp (lib : Lib α) (o : VarOptions α) (ex : α) (T : Tableau α s)
    (errNorm : ErrNorm α n s) (rhs : Rhs α n) :
    ∀ (st : St α n 0 (FsalAux α n s I)) r s', (fsalBody lib o ex T errNorm rhs).run st = some (r, s') →
      s'.aux.itp = st.aux.itp := by
  refine fsalBody_ind lib o ex T errNorm rhs (fun st r s' => s'.aux.itp = st.aux.itp) ?_ ?_ ?_ ?_
  · intros; rfl
  · intros; rfl
  · intros; rfl
  · intro st y' K' en h' r s' _ _ _ _ h; exact h

end fsal

/-! ### Evaluation of the interpolators -/

theorem hermiteInterp_run (t : α) (s : St α n k X) :
    (hermiteInterp t : Py (St α n k X) _).run s =
      if (t == s.cache.ts (Buffer.iOld k)) = true then some (.ok (.row (Buffer.iOld k)), s)
      else match pyDiv (t - s.cache.ts (Buffer.iOld k)) (s.cache.t - s.cache.ts (Buffer.iOld k)) with
        | .error e => some (.error e, s)
        | .ok T => some (.ok (.own (s.cache.ys (Buffer.iOld k) + scale T (s.cache.y - s.cache.ys (Buffer.iOld k))
            + scale (T * (T - 1)) (scale (1 - ((2 : Nat) : α) * T) (s.cache.y - s.cache.ys (Buffer.iOld k))
              + scale (s.cache.t - s.cache.ts (Buffer.iOld k))
                (scale (T - 1) (s.cache.fs (Buffer.iOld k)) + scale T s.cache.f)))), s) := by
  unfold hermiteInterp
  simp only [run_bind, run_get, andThen_ok, run_ite, run_pure, run_ofExcept]
  split
  · rfl
  · cases pyDiv (t - s.cache.ts (Buffer.iOld k)) (s.cache.t - s.cache.ts (Buffer.iOld k)) <;> rfl

section rk
variable {s d : Nat}

/-- The interpolator after `update`. -/
def rkFresh (P : Fin (s + 2) → Fin d → α) (st : St α n 0 (FsalAux α n s (RkItp α n d))) :
    St α n 0 (FsalAux α n s (RkItp α n d)) :=
  setItp { Q := fun j => vdot (fun i => P i j) st.aux.K, updatedT := st.cache.t } st

theorem rkInterp_run (P : Fin (s + 2) → Fin d → α) (t : α) (st : St α n 0 (FsalAux α n s (RkItp α n d))) :
    (rkInterp P t).run st =
      if (t == st.cache.ts (Buffer.iLast 0)) = true then some (.ok (.row (Buffer.iLast 0)), st)
      else if (t == st.cache.ts (Buffer.iPrev 0)) = true then some (.ok (.row (Buffer.iPrev 0)), st)
      else
        let st1 := if t < st.aux.itp.updatedT then st else rkFresh P st
        match pyDiv (t - st.cache.ts (Buffer.iPrev 0))
          (st.cache.ts (Buffer.iLast 0) - st.cache.ts (Buffer.iPrev 0)) with
        | .error e => some (.error e, st1)
        | .ok x => some (.ok (.own (rkEval st1.aux.itp.Q
            (st.cache.ts (Buffer.iLast 0) - st.cache.ts (Buffer.iPrev 0)) x
            (st.cache.ys (Buffer.iPrev 0)))), st1) := by
  unfold rkInterp
  simp only [run_bind, run_get, andThen_ok, run_ite, run_pure, run_ofExcept, rkUpdate, run_modify]
  split
  · rfl
  · split
    · rfl
    · by_cases h : t < st.aux.itp.updatedT
      · simp only [h, decide_true, Bool.not_true, Bool.false_eq_true, if_false, if_true]
        cases pyDiv (t - st.cache.ts (Buffer.iPrev 0))
          (st.cache.ts (Buffer.iLast 0) - st.cache.ts (Buffer.iPrev 0)) <;> rfl
      · simp only [h, decide_false, Bool.not_false, if_true, if_false]
        show andThen (some (pyDiv (t - st.cache.ts (Buffer.iPrev 0))
          (st.cache.ts (Buffer.iLast 0) - st.cache.ts (Buffer.iPrev 0)), _)) _ = _
        cases pyDiv (t - st.cache.ts (Buffer.iPrev 0))
          (st.cache.ts (Buffer.iLast 0) - st.cache.ts (Buffer.iPrev 0)) <;> rfl

end rk

section dop

/-- The extra stages of the DOP853 dense output, as equations. -/
def DopStages (d : DopDense α) (rhs : Rhs α n) (tOld h : α) (yOld : Vec α n) (K : Fin 13 → Vec α n)
    (Kx : Fin 16 → Vec α n) : Prop :=
  (∀ (i : Fin 16) (hi : i.val < 13), Kx i = K ⟨i.val, hi⟩) ∧
  ∀ e : Fin 3, rhs (tOld + d.CExtra e * h)
    (yOld + fun i =>
      (vdot (fun j : Fin (13 + e.val) => d.AExtra e ⟨j.val, by have := j.isLt; have := e.isLt; omega⟩)
        (fun j : Fin (13 + e.val) => Kx ⟨j.val, by have := j.isLt; have := e.isLt; omega⟩)) i * h) =
    .ok (Kx ⟨13 + e.val, by have := e.isLt; omega⟩)

/-- `dy` of the extra stage `e`. -/
def dopDy (d : DopDense α) (h : α) (K : Fin 16 → Vec α n) (e : Fin 3) : Vec α n := fun i =>
  (vdot (fun j : Fin (13 + e.val) => d.AExtra e ⟨j.val, by have := j.isLt; have := e.isLt; omega⟩)
    (fun j : Fin (13 + e.val) => K ⟨j.val, by have := j.isLt; have := e.isLt; omega⟩)) i * h

theorem dopDy_congr (d : DopDense α) (h : α) {K K' : Fin 16 → Vec α n} {e : Fin 3}
    (hK : ∀ i : Fin 16, i.val < 13 + e.val → K i = K' i) : dopDy d h K e = dopDy d h K' e := by
  unfold dopDy
  have : (fun j : Fin (13 + e.val) => K ⟨j.val, by have := j.isLt; have := e.isLt; omega⟩) =
      fun j : Fin (13 + e.val) => K' ⟨j.val, by have := j.isLt; have := e.isLt; omega⟩ :=
    funext fun j => hK _ j.isLt
  rw [this]

theorem dopExtra_cons (d : DopDense α) (rhs : Rhs α n) (tOld h : α) (yOld : Vec α n) (e : Fin 3)
    (l : List (Fin 3)) (K : Fin 16 → Vec α n) :
    (dopExtra d rhs tOld h yOld (e :: l)).run K =
      match rhs (tOld + d.CExtra e * h) (yOld + dopDy d h K e) with
      | .error x => some (.error x, K)
      | .ok ks => (dopExtra d rhs tOld h yOld l).run
          (Function.update K ⟨13 + e.val, by have := e.isLt; omega⟩ ks) := by
  rw [dopExtra]
  simp only [run_bind, run_get, andThen_ok, run_ofExcept, run_modify]
  show andThen (some (rhs (tOld + d.CExtra e * h) (yOld + dopDy d h K e), K)) _ = _
  cases rhs (tOld + d.CExtra e * h) (yOld + dopDy d h K e) <;> rfl

theorem dopExtra_ok (d : DopDense α) (rhs : Rhs α n) (tOld h : α) (yOld : Vec α n)
    (l : List (Fin 3)) (hl : l.Pairwise (· < ·)) (K K' : Fin 16 → Vec α n) :
    (dopExtra d rhs tOld h yOld l).run K = some (.ok (), K') ↔
      (∀ i : Fin 16, (∀ e ∈ l, i.val ≠ 13 + e.val) → K' i = K i) ∧
      ∀ e ∈ l, rhs (tOld + d.CExtra e * h) (yOld + dopDy d h K' e) =
        .ok (K' ⟨13 + e.val, by have := e.isLt; omega⟩) := by
  induction l generalizing K with
  | nil =>
    rw [dopExtra]
    simp only [run_pure, Option.some.injEq, Prod.mk.injEq, true_and, List.not_mem_nil, false_imp_iff,
      implies_true, and_true]
    exact ⟨fun h => by rw [h]; simp, fun h => funext fun i => (h i (by simp)).symm⟩
  | cons e l ih =>
    obtain ⟨hl1, hl2⟩ := List.pairwise_cons.mp hl
    rw [dopExtra_cons]
    constructor
    · intro hr
      cases hk : rhs (tOld + d.CExtra e * h) (yOld + dopDy d h K e) with
      | error x => rw [hk] at hr; simp at hr
      | ok ks =>
        rw [hk] at hr
        obtain ⟨h1, h2⟩ := (ih hl2 _).mp hr
        have hkeep : ∀ i : Fin 16, (∀ e' ∈ e :: l, i.val ≠ 13 + e'.val) → K' i = K i := by
          intro i hi
          rw [h1 i fun e' he' => hi e' (List.mem_cons_of_mem _ he'), Function.update_of_ne]
          intro he
          exact hi e List.mem_cons_self (congrArg Fin.val he)
        have hnew : K' ⟨13 + e.val, by have := e.isLt; omega⟩ = ks := by
          rw [h1 _ (by
            intro e' he' heq
            have := hl1 e' he'
            rw [Fin.lt_def] at this
            simp only at heq
            omega), Function.update_self]
        refine ⟨hkeep, ?_⟩
        intro e' he'
        rcases List.mem_cons.mp he' with rfl | he'
        · rw [hnew, ← hk]
          congr 2
          refine dopDy_congr d h fun i hi => hkeep i ?_
          intro e'' he'' heq
          rcases List.mem_cons.mp he'' with rfl | he''
          · omega
          · have := hl1 e'' he''
            rw [Fin.lt_def] at this
            omega
        · exact h2 e' he'
    · rintro ⟨h1, h2⟩
      have e1 : dopDy d h K e = dopDy d h K' e := by
        refine dopDy_congr d h fun i hi => (h1 i ?_).symm
        intro e'' he'' heq
        rcases List.mem_cons.mp he'' with rfl | he''
        · omega
        · have := hl1 e'' he''
          rw [Fin.lt_def] at this
          omega
      rw [e1, h2 e List.mem_cons_self]
      refine (ih hl2 _).mpr ⟨?_, fun e' he' => h2 e' (List.mem_cons_of_mem _ he')⟩
      intro i hi
      by_cases hie : i = ⟨13 + e.val, by have := e.isLt; omega⟩
      · rw [hie, Function.update_self]
      · rw [Function.update_of_ne hie]
        refine h1 i ?_
        intro e' he'
        rcases List.mem_cons.mp he' with rfl | he'
        · intro hh; exact hie (Fin.ext hh)
        · exact hi e' he'

/-- `K_extended[:13] = K`. -/
def dopCopy (K : Fin 13 → Vec α n) (Kext : Fin 16 → Vec α n) : Fin 16 → Vec α n :=
  fun i => if hi : i.val < 13 then K ⟨i.val, hi⟩ else Kext i

theorem dopExtra_stages (d : DopDense α) (rhs : Rhs α n) (tOld h : α) (yOld : Vec α n)
    (K : Fin 13 → Vec α n) (Kext Kx : Fin 16 → Vec α n) :
    (dopExtra d rhs tOld h yOld (List.finRange 3)).run (dopCopy K Kext) = some (.ok (), Kx) ↔
      DopStages d rhs tOld h yOld K Kx := by
  rw [dopExtra_ok d rhs tOld h yOld _ (List.pairwise_lt_finRange 3)]
  have hsmall : ∀ i : Fin 16, (∀ e ∈ List.finRange 3, i.val ≠ 13 + e.val) ↔ i.val < 13 := by
    intro i
    constructor
    · intro h
      by_contra hc
      refine h ⟨i.val - 13, by have := i.isLt; omega⟩ (List.mem_finRange _) ?_
      simp only; omega
    · intro h e _; omega
  constructor
  · rintro ⟨h1, h2⟩
    refine ⟨fun i hi => ?_, fun e => h2 e (List.mem_finRange e)⟩
    rw [h1 i ((hsmall i).mpr hi)]
    unfold dopCopy
    rw [dif_pos hi]
  · rintro ⟨h1, h2⟩
    refine ⟨fun i hi => ?_, fun e _ => h2 e⟩
    have hi := (hsmall i).mp hi
    rw [h1 i hi]
    unfold dopCopy
    rw [dif_pos hi]

/-- A successful `update` computes the coefficients from the stages and the history. -/
theorem dopUpdate_run (d : DopDense α) (rhs : Rhs α n) (st : St α n 0 (FsalAux α n 11 (DopItp α n))) :
    (∃ Kx, DopStages d rhs (st.cache.ts (Buffer.iPrev 0))
        (st.cache.ts (Buffer.iLast 0) - st.cache.ts (Buffer.iPrev 0)) (st.cache.ys (Buffer.iPrev 0)) st.aux.K Kx ∧
      (dopUpdate d rhs).run st = some (.ok (), setItp
        { F := dopF d (st.cache.ts (Buffer.iLast 0) - st.cache.ts (Buffer.iPrev 0))
            (st.cache.ys (Buffer.iPrev 0)) (st.cache.ys (Buffer.iLast 0)) st.cache.f Kx
          Kext := Kx, updatedT := st.cache.ts (Buffer.iLast 0) } st)) ∨
    ((¬ ∃ Kx, DopStages d rhs (st.cache.ts (Buffer.iPrev 0))
        (st.cache.ts (Buffer.iLast 0) - st.cache.ts (Buffer.iPrev 0)) (st.cache.ys (Buffer.iPrev 0)) st.aux.K Kx) ∧
      ∃ e Kx, (dopUpdate d rhs).run st = some (.error e, setItp { st.aux.itp with Kext := Kx } st)) := by
  unfold dopUpdate
  simp only [run_bind, run_get, andThen_ok, run_modify, run_zoom]
  have hc : (fun i : Fin 16 => if hi : i.val < 13 then st.aux.K ⟨i.val, hi⟩ else st.aux.itp.Kext i) =
      dopCopy st.aux.K st.aux.itp.Kext := rfl
  simp only [hc]
  obtain ⟨r, Kx, hx⟩ := dopExtra_total d rhs (st.cache.ts (Buffer.iPrev 0))
    (st.cache.ts (Buffer.iLast 0) - st.cache.ts (Buffer.iPrev 0)) (st.cache.ys (Buffer.iPrev 0))
    (List.finRange 3) (dopCopy st.aux.K st.aux.itp.Kext)
  rw [hx]
  cases r with
  | error e =>
    right
    refine ⟨?_, e, Kx, rfl⟩
    rintro ⟨Kx', h'⟩
    rw [← dopExtra_stages d rhs _ _ _ _ st.aux.itp.Kext, hx] at h'
    simp at h'
  | ok u =>
    left
    exact ⟨Kx, (dopExtra_stages d rhs _ _ _ _ _ _).mp hx, rfl⟩

theorem dopInterp_run (d : DopDense α) (rhs : Rhs α n) (t : α) (st : St α n 0 (FsalAux α n 11 (DopItp α n))) :
    (dopInterp d rhs t).run st =
      if (t == st.cache.ts (Buffer.iLast 0)) = true then some (.ok (.row (Buffer.iLast 0)), st)
      else if (t == st.cache.ts (Buffer.iPrev 0)) = true then some (.ok (.row (Buffer.iPrev 0)), st)
      else andThen (if t < st.aux.itp.updatedT then some (.ok (), st) else (dopUpdate d rhs).run st) fun _ st1 =>
        match pyDiv (t - st1.cache.ts (Buffer.iPrev 0))
          (st1.cache.ts (Buffer.iLast 0) - st1.cache.ts (Buffer.iPrev 0)) with
        | .error e => some (.error e, st1)
        | .ok x => some (.ok (.own (dopEval st1.aux.itp.F x (st1.cache.ys (Buffer.iPrev 0)))), st1) := by
  unfold dopInterp
  simp only [run_bind, run_get, andThen_ok, run_ite, run_pure, run_ofExcept]
  split
  · rfl
  · split
    · rfl
    · have key : ∀ st1 : St α n 0 (FsalAux α n 11 (DopItp α n)),
          (andThen (some (pyDiv (t - st1.cache.ts (Buffer.iPrev 0))
            (st1.cache.ts (Buffer.iLast 0) - st1.cache.ts (Buffer.iPrev 0)), st1)) fun x s' =>
            (some (.ok (.own (dopEval st1.aux.itp.F x (st1.cache.ys (Buffer.iPrev 0)))), s') :
              Option (Except Err (Ref α n 0) × _))) =
          match pyDiv (t - st1.cache.ts (Buffer.iPrev 0))
            (st1.cache.ts (Buffer.iLast 0) - st1.cache.ts (Buffer.iPrev 0)) with
          | .error e => some (.error e, st1)
          | .ok x => some (.ok (.own (dopEval st1.aux.itp.F x (st1.cache.ys (Buffer.iPrev 0)))), st1) := by
        intro st1
        cases pyDiv (t - st1.cache.ts (Buffer.iPrev 0))
          (st1.cache.ts (Buffer.iLast 0) - st1.cache.ts (Buffer.iPrev 0)) <;> rfl
      by_cases h : t < st.aux.itp.updatedT
      · simp only [h, decide_true, Bool.not_true, Bool.false_eq_true, if_false, if_true, andThen_ok]
        exact key st
      · simp only [h, decide_false, Bool.not_false, if_true, if_false]
        congr 1
        funext _ st1
        exact key st1

end dop

end lawless
end Nbkode
