import Verif.Proofs.Dense

/-! Every method of the library has a well-behaved dense output. -/

set_option autoImplicit false
set_option linter.unusedSectionVars false

namespace Nbkode
open Py Spec

variable {α : Type} [LinearOrder α]
variable [Add α] [Sub α] [Mul α] [Div α] [Neg α] [Zero α] [One α] [NatCast α] [BEq α]
variable {n k : Nat} {X : Type}

/-- A view of the given row, or an array of its own. -/
def HasShape (o : Option (Fin (k + 2))) (r : Ref α n k) : Prop :=
  match o with
  | some i => r = .row i
  | none => ∃ v, r = .own v

/-- The dense output of a method, as a relation between history, stages (`core`), time and state. `Coh` says that the
lazily refreshed coefficients are either out of date in a way that will be noticed, or those of the last step. -/
structure Dense (M : Method α n k X) (rhs : Rhs α n) where
  C : Type
  core : X → C
  Coh : St α n k X → Prop
  Val : Buffer α n k → C → α → Vec α n → Prop
  interp_iff : ∀ t s v, Ordered s → Coh s → s.cache.ts (Buffer.iOld k) ≤ t → t ≤ s.t →
    ((∃ r s', (M.interp rhs t).run s = some (.ok r, s') ∧ r.deref s.cache = v) ↔
      Val s.cache (core s.aux) t v)
  interp_core : ∀ t s r s', (M.interp rhs t).run s = some (r, s') → core s'.aux = core s.aux
  interp_coh : ∀ t s r s', (M.interp rhs t).run s = some (r, s') → Coh s → Coh s'
  body_congr : ∀ s s2 r s', s.cache = s2.cache → s.h = s2.h → core s.aux = core s2.aux →
    (M.body rhs).run s = some (r, s') →
    ∃ s2', (M.body rhs).run s2 = some (r, s2') ∧ s'.cache = s2'.cache ∧ s'.h = s2'.h ∧
      core s'.aux = core s2'.aux
  body_coh : ∀ s s', Ordered s → Coh s → (M.body rhs).run s = some (.ok (), s') → Coh s'
  shape : Buffer α n k → α → Option (Fin (k + 2))
  interp_shape : ∀ t s r s', (M.interp rhs t).run s = some (.ok r, s') → HasShape (shape s.cache t) r

/-- A method with the default interpolation. -/
def hermiteDense (M : Method α n k X) (rhs : Rhs α n) (h : ∀ t, M.interp rhs t = hermiteInterp t) :
    Dense M rhs where
  C := X
  core := id
  Coh := fun _ => True
  Val := fun b x t v => ∃ r, (hermiteInterp t : Py (St α n k X) _).run ⟨b, b.t, x⟩ = some (.ok r, ⟨b, b.t, x⟩) ∧
    r.deref b = v
  interp_iff := by
    intro t s v _ _ _ _
    rw [h]
    constructor
    · rintro ⟨r, s', hr, hv⟩
      refine ⟨r, ?_, hv⟩
      rw [hermiteInterp_run] at hr ⊢
      split at hr
      · rename_i hc
        cases hr
        exact if_pos hc
      · rename_i hc
        refine Eq.trans (if_neg hc) ?_
        split at hr
        · simp at hr
        · rename_i T hT
          cases hr
          simp only [hT]
    · rintro ⟨r, hr, hv⟩
      refine ⟨r, s, ?_, hv⟩
      rw [hermiteInterp_run] at hr ⊢
      split at hr
      · rename_i hc
        cases hr
        exact if_pos hc
      · rename_i hc
        refine Eq.trans (if_neg hc) ?_
        split at hr
        · simp at hr
        · rename_i T hT
          cases hr
          simp only at hT
          simp only [hT]
  interp_core := by
    intro t s r s' hr
    rw [h] at hr
    rw [hermiteInterp_state t s r s' hr]
  interp_coh := fun _ _ _ _ _ _ => trivial
  body_congr := by
    rintro ⟨b, h1, x⟩ ⟨b2, h2, x2⟩ r s' e1 e2 e3 hr
    simp only [id_eq] at e1 e2 e3
    subst e1 e2 e3
    exact ⟨s', hr, rfl, rfl, rfl⟩
  body_coh := fun _ _ _ _ _ => trivial
  shape := fun b t => if t == b.ts (Buffer.iOld k) then some (Buffer.iOld k) else none
  interp_shape := by
    intro t s r s' hr
    rw [h, hermiteInterp_run] at hr
    split at hr
    · rename_i hc
      cases hr
      rw [if_pos hc]; rfl
    · rename_i hc
      rw [if_neg hc]
      split at hr
      · simp at hr
      · cases hr
        exact ⟨_, rfl⟩

/-- The variable-step solvers' step does not depend on the interpolator. -/
theorem fsalBody_congr {s : Nat} {I : Type} (lib : Lib α) (o : VarOptions α) (ex : α) (T : Tableau α s)
    (errNorm : ErrNorm α n s) (rhs : Rhs α n) (st st2 : St α n 0 (FsalAux α n s I)) (r) (s')
    (e1 : st.cache = st2.cache) (e2 : st.h = st2.h) (e3 : st.aux.K = st2.aux.K)
    (hr : (fsalBody lib o ex T errNorm rhs).run st = some (r, s')) :
    ∃ s2', (fsalBody lib o ex T errNorm rhs).run st2 = some (r, s2') ∧ s'.cache = s2'.cache ∧ s'.h = s2'.h ∧
      s'.aux.K = s2'.aux.K := by
  have e : st2 = setItp st2.aux.itp st := by
    obtain ⟨b, h, K, i⟩ := st
    obtain ⟨b2, h2, K2, i2⟩ := st2
    simp only at e1 e2 e3
    subst e1 e2 e3
    rfl
  refine ⟨setItp st2.aux.itp s', ?_, rfl, rfl, rfl⟩
  conv_lhs => rw [e]
  exact fsalBody_setItp_some lib o ex T errNorm rhs st r s' hr _

theorem push_prev (b : Buffer α n 0) (t : α) (y f : Vec α n) :
    (b.push t y f).ts (Buffer.iPrev 0) = b.ts (Buffer.iLast 0) := rfl

theorem ordered_last {s : St α n k X} (ho : Ordered s) (i : Fin (k + 2)) : s.cache.ts i ≤ s.t :=
  ho i (Buffer.iLast k) (by rw [Fin.le_def]; have := i.isLt; simp only [Buffer.iLast]; omega)

section rk
variable {s d : Nat}

/-- The state the dense output of RungeKutta23/45 computes. -/
def RkVal (P : Fin (s + 2) → Fin d → α) (b : Buffer α n 0) (K : Fin (s + 2) → Vec α n) (t : α) (v : Vec α n) : Prop :=
  if t = b.ts (Buffer.iLast 0) then v = b.ys (Buffer.iLast 0)
  else if t = b.ts (Buffer.iPrev 0) then v = b.ys (Buffer.iPrev 0)
  else ∃ x, pyDiv (t - b.ts (Buffer.iPrev 0)) (b.ts (Buffer.iLast 0) - b.ts (Buffer.iPrev 0)) = .ok x ∧
    v = rkEval (fun j => vdot (fun i => P i j) K) (b.ts (Buffer.iLast 0) - b.ts (Buffer.iPrev 0)) x
      (b.ys (Buffer.iPrev 0))

/-- The coefficients were computed no later than at the beginning of the last step, or are those of the last step. -/
def RkCoh (P : Fin (s + 2) → Fin d → α) (st : St α n 0 (FsalAux α n s (RkItp α n d))) : Prop :=
  st.aux.itp.updatedT ≤ st.cache.ts (Buffer.iPrev 0) ∨
    (st.aux.itp.updatedT = st.cache.ts (Buffer.iLast 0) ∧
      st.aux.itp.Q = fun j => vdot (fun i => P i j) st.aux.K)

variable [LawfulBEq α]

theorem rkInterp_iff (P : Fin (s + 2) → Fin d → α) (t : α) (st : St α n 0 (FsalAux α n s (RkItp α n d)))
    (v : Vec α n) (hc : RkCoh P st) (h1 : st.cache.ts (Buffer.iOld 0) ≤ t) (h2 : t ≤ st.t) :
    (∃ r s', (rkInterp P t).run st = some (.ok r, s') ∧ r.deref st.cache = v) ↔ RkVal P st.cache st.aux.K t v := by
  rw [rkInterp_run]
  unfold RkVal
  simp only [beq_iff_eq]
  split
  · exact ⟨by rintro ⟨r, s', h, rfl⟩; cases h; rfl, by rintro rfl; exact ⟨_, _, rfl, rfl⟩⟩
  · rename_i hne
    split
    · exact ⟨by rintro ⟨r, s', h, rfl⟩; cases h; rfl, by rintro rfl; exact ⟨_, _, rfl, rfl⟩⟩
    · rename_i hne'
      have hlt : t < st.cache.ts (Buffer.iLast 0) := lt_of_le_of_ne h2 hne
      have hgt : st.cache.ts (Buffer.iPrev 0) < t := lt_of_le_of_ne h1 (Ne.symm hne')
      have hQ : (if t < st.aux.itp.updatedT then st else rkFresh P st).aux.itp.Q =
          fun j => vdot (fun i => P i j) st.aux.K := by
        rcases hc with hc | ⟨hu, hq⟩
        · rw [if_neg (not_lt.mpr (hc.trans hgt.le))]; rfl
        · rw [hu, if_pos hlt, hq]
      simp only [hQ]
      cases pyDiv (t - st.cache.ts (Buffer.iPrev 0))
          (st.cache.ts (Buffer.iLast 0) - st.cache.ts (Buffer.iPrev 0)) with
      | error e => simp
      | ok x =>
        constructor
        · rintro ⟨r, s', h, rfl⟩
          simp only [Option.some.injEq, Prod.mk.injEq, Except.ok.injEq] at h
          obtain ⟨rfl, -⟩ := h
          exact ⟨x, rfl, rfl⟩
        · rintro ⟨x', h, rfl⟩
          cases h
          exact ⟨_, _, rfl, rfl⟩

theorem rkInterp_coh (P : Fin (s + 2) → Fin d → α) (t : α) (st : St α n 0 (FsalAux α n s (RkItp α n d))) (r) (s')
    (h : (rkInterp P t).run st = some (r, s')) (hc : RkCoh P st) : RkCoh P s' := by
  rw [rkInterp_run] at h
  have key : RkCoh P (if t < st.aux.itp.updatedT then st else rkFresh P st) := by
    split
    · exact hc
    · exact Or.inr ⟨rfl, rfl⟩
  split at h
  · cases h; exact hc
  · split at h
    · cases h; exact hc
    · simp only at h
      split at h <;> (simp only [Option.some.injEq, Prod.mk.injEq] at h; obtain ⟨-, rfl⟩ := h; exact key)

theorem fsalBody_prev (lib : Lib α) (o : VarOptions α) (ex : α) {I : Type} (T : Tableau α s)
    (errNorm : ErrNorm α n s) (rhs : Rhs α n) (st s' : St α n 0 (FsalAux α n s I))
    (h : (fsalBody lib o ex T errNorm rhs).run st = some (.ok (), s')) :
    s'.cache.ts (Buffer.iPrev 0) = st.cache.ts (Buffer.iLast 0) := by
  obtain ⟨t, y, f, e, -⟩ := fsalBody_shape lib o ex T errNorm rhs st _ s' h
  rw [e, push_prev]

theorem rkInterp_shape (P : Fin (s + 2) → Fin d → α) (t : α) (st : St α n 0 (FsalAux α n s (RkItp α n d))) (r) (s')
    (h : (rkInterp P t).run st = some (.ok r, s')) :
    HasShape (if t == st.cache.ts (Buffer.iLast 0) then some (Buffer.iLast 0)
      else if t == st.cache.ts (Buffer.iPrev 0) then some (Buffer.iPrev 0) else none) r := by
  rw [rkInterp_run] at h
  split at h
  · rename_i hc; cases h; rw [if_pos hc]; rfl
  · rename_i hc
    rw [if_neg hc]
    split at h
    · rename_i hc; cases h; rw [if_pos hc]; rfl
    · rename_i hc
      rw [if_neg hc]
      simp only at h
      split at h
      · simp at h
      · simp only [Option.some.injEq, Prod.mk.injEq, Except.ok.injEq] at h
        exact ⟨_, h.1.symm⟩

/-- RungeKutta23 and RungeKutta45. -/
def fsalDense (lib : Lib α) (o : VarOptions α) (c : FsalCoef α s d) (rhs : Rhs α n) :
    Dense (fsal lib o c : Method α n _ _) rhs where
  C := Fin (s + 2) → Vec α n
  core := fun x => x.K
  Coh := RkCoh c.P
  Val := RkVal c.P
  interp_iff := fun t st v _ hc h1 h2 => rkInterp_iff c.P t st v hc h1 h2
  interp_core := fun t st r s' h => (rkInterp_state c.P t st r s' h).2.2
  interp_coh := fun t st r s' h hc => rkInterp_coh c.P t st r s' h hc
  body_congr := fun st st2 r s' e1 e2 e3 h => fsalBody_congr lib o _ _ _ rhs st st2 r s' e1 e2 e3 h
  body_coh := by
    intro st s' ho hc h
    left
    rw [fsalBody_prev lib o _ _ _ rhs st s' h, fsalBody_itp lib o _ _ _ rhs st _ s' h]
    rcases hc with hc | ⟨hc, -⟩
    · exact hc.trans (ordered_last ho _)
    · exact hc.le
  shape := fun b t => if t == b.ts (Buffer.iLast 0) then some (Buffer.iLast 0)
    else if t == b.ts (Buffer.iPrev 0) then some (Buffer.iPrev 0) else none
  interp_shape := fun t st r s' h => rkInterp_shape c.P t st r s' h

end rk

section dop
variable [LawfulBEq α]

/-- The state the dense output of DOP853 computes. -/
def DopVal (d : DopDense α) (rhs : Rhs α n) (b : Buffer α n 0) (K : Fin 13 → Vec α n) (t : α) (v : Vec α n) : Prop :=
  if t = b.ts (Buffer.iLast 0) then v = b.ys (Buffer.iLast 0)
  else if t = b.ts (Buffer.iPrev 0) then v = b.ys (Buffer.iPrev 0)
  else ∃ x Kx, pyDiv (t - b.ts (Buffer.iPrev 0)) (b.ts (Buffer.iLast 0) - b.ts (Buffer.iPrev 0)) = .ok x ∧
    DopStages d rhs (b.ts (Buffer.iPrev 0)) (b.ts (Buffer.iLast 0) - b.ts (Buffer.iPrev 0))
      (b.ys (Buffer.iPrev 0)) K Kx ∧
    v = dopEval (dopF d (b.ts (Buffer.iLast 0) - b.ts (Buffer.iPrev 0)) (b.ys (Buffer.iPrev 0))
      (b.ys (Buffer.iLast 0)) b.f Kx) x (b.ys (Buffer.iPrev 0))

/-- The coefficients were computed no later than at the beginning of the last step, or are those of the last step. -/
def DopCoh (d : DopDense α) (rhs : Rhs α n) (st : St α n 0 (FsalAux α n 11 (DopItp α n))) : Prop :=
  st.aux.itp.updatedT ≤ st.cache.ts (Buffer.iPrev 0) ∨
    (st.aux.itp.updatedT = st.cache.ts (Buffer.iLast 0) ∧
      ∃ Kx, DopStages d rhs (st.cache.ts (Buffer.iPrev 0))
          (st.cache.ts (Buffer.iLast 0) - st.cache.ts (Buffer.iPrev 0)) (st.cache.ys (Buffer.iPrev 0)) st.aux.K Kx ∧
        st.aux.itp.F = dopF d (st.cache.ts (Buffer.iLast 0) - st.cache.ts (Buffer.iPrev 0))
          (st.cache.ys (Buffer.iPrev 0)) (st.cache.ys (Buffer.iLast 0)) st.cache.f Kx)

/-- The extra stages are determined by the stages. -/
theorem dopStages_unique {d : DopDense α} {rhs : Rhs α n} {tOld h : α} {yOld : Vec α n} {K : Fin 13 → Vec α n}
    {Kx Kx' : Fin 16 → Vec α n} (h1 : DopStages d rhs tOld h yOld K Kx) (h2 : DopStages d rhs tOld h yOld K Kx') :
    Kx = Kx' := by
  rw [← dopExtra_stages d rhs tOld h yOld K Kx] at h1 h2
  rw [h1] at h2
  simpa using h2

theorem dopInterp_iff (d : DopDense α) (rhs : Rhs α n) (t : α) (st : St α n 0 (FsalAux α n 11 (DopItp α n)))
    (v : Vec α n) (hc : DopCoh d rhs st) (h1 : st.cache.ts (Buffer.iOld 0) ≤ t) (h2 : t ≤ st.t) :
    (∃ r s', (dopInterp d rhs t).run st = some (.ok r, s') ∧ r.deref st.cache = v) ↔
      DopVal d rhs st.cache st.aux.K t v := by
  rw [dopInterp_run]
  unfold DopVal
  simp only [beq_iff_eq]
  split
  · exact ⟨by rintro ⟨r, s', h, rfl⟩; cases h; rfl, by rintro rfl; exact ⟨_, _, rfl, rfl⟩⟩
  · rename_i hne
    split
    · exact ⟨by rintro ⟨r, s', h, rfl⟩; cases h; rfl, by rintro rfl; exact ⟨_, _, rfl, rfl⟩⟩
    · rename_i hne'
      have hlt : t < st.cache.ts (Buffer.iLast 0) := lt_of_le_of_ne h2 hne
      have hgt : st.cache.ts (Buffer.iPrev 0) < t := lt_of_le_of_ne h1 (Ne.symm hne')
      have good : ∀ (st1 : St α n 0 (FsalAux α n 11 (DopItp α n))) (Kx : Fin 16 → Vec α n), st1.cache = st.cache →
          DopStages d rhs (st.cache.ts (Buffer.iPrev 0))
            (st.cache.ts (Buffer.iLast 0) - st.cache.ts (Buffer.iPrev 0)) (st.cache.ys (Buffer.iPrev 0)) st.aux.K Kx →
          st1.aux.itp.F = dopF d (st.cache.ts (Buffer.iLast 0) - st.cache.ts (Buffer.iPrev 0))
            (st.cache.ys (Buffer.iPrev 0)) (st.cache.ys (Buffer.iLast 0)) st.cache.f Kx →
          ((∃ r s', (match pyDiv (t - st1.cache.ts (Buffer.iPrev 0))
              (st1.cache.ts (Buffer.iLast 0) - st1.cache.ts (Buffer.iPrev 0)) with
            | .error e => some (.error e, st1)
            | .ok x => some (.ok (.own (dopEval st1.aux.itp.F x (st1.cache.ys (Buffer.iPrev 0)))), st1) :
              Option (Except Err (Ref α n 0) × _)) = some (.ok r, s') ∧ r.deref st.cache = v) ↔
          ∃ x Kx, pyDiv (t - st.cache.ts (Buffer.iPrev 0))
              (st.cache.ts (Buffer.iLast 0) - st.cache.ts (Buffer.iPrev 0)) = .ok x ∧
            DopStages d rhs (st.cache.ts (Buffer.iPrev 0))
              (st.cache.ts (Buffer.iLast 0) - st.cache.ts (Buffer.iPrev 0)) (st.cache.ys (Buffer.iPrev 0)) st.aux.K Kx ∧
            v = dopEval (dopF d (st.cache.ts (Buffer.iLast 0) - st.cache.ts (Buffer.iPrev 0))
              (st.cache.ys (Buffer.iPrev 0)) (st.cache.ys (Buffer.iLast 0)) st.cache.f Kx) x
              (st.cache.ys (Buffer.iPrev 0))) := by
        intro st1 Kx e hK hF
        rw [e, hF]
        cases pyDiv (t - st.cache.ts (Buffer.iPrev 0))
            (st.cache.ts (Buffer.iLast 0) - st.cache.ts (Buffer.iPrev 0)) with
        | error e => simp
        | ok x =>
          constructor
          · rintro ⟨r, s', h, rfl⟩
            simp only [Option.some.injEq, Prod.mk.injEq, Except.ok.injEq] at h
            obtain ⟨rfl, -⟩ := h
            exact ⟨x, Kx, rfl, hK, rfl⟩
          · rintro ⟨x', Kx', h, hK', rfl⟩
            cases h
            rw [dopStages_unique hK hK']
            exact ⟨_, _, rfl, rfl⟩
      have upd : (∃ r s', (andThen ((dopUpdate d rhs).run st) fun _ st1 =>
            match pyDiv (t - st1.cache.ts (Buffer.iPrev 0))
              (st1.cache.ts (Buffer.iLast 0) - st1.cache.ts (Buffer.iPrev 0)) with
            | .error e => some (.error e, st1)
            | .ok x => some (.ok (.own (dopEval st1.aux.itp.F x (st1.cache.ys (Buffer.iPrev 0)))), st1) :
              Option (Except Err (Ref α n 0) × _)) = some (.ok r, s') ∧ r.deref st.cache = v) ↔
          ∃ x Kx, pyDiv (t - st.cache.ts (Buffer.iPrev 0))
              (st.cache.ts (Buffer.iLast 0) - st.cache.ts (Buffer.iPrev 0)) = .ok x ∧
            DopStages d rhs (st.cache.ts (Buffer.iPrev 0))
              (st.cache.ts (Buffer.iLast 0) - st.cache.ts (Buffer.iPrev 0)) (st.cache.ys (Buffer.iPrev 0)) st.aux.K Kx ∧
            v = dopEval (dopF d (st.cache.ts (Buffer.iLast 0) - st.cache.ts (Buffer.iPrev 0))
              (st.cache.ys (Buffer.iPrev 0)) (st.cache.ys (Buffer.iLast 0)) st.cache.f Kx) x
              (st.cache.ys (Buffer.iPrev 0)) := by
        rcases dopUpdate_run d rhs st with ⟨Kx, hK, hu⟩ | ⟨hno, e, Kx, hu⟩
        · rw [hu]
          simp only [andThen_ok]
          exact good _ Kx rfl hK rfl
        · rw [hu]
          simp only [andThen_error]
          constructor
          · rintro ⟨r, s', h, -⟩; simp at h
          · rintro ⟨x, Kx', -, hK', -⟩
            exact absurd ⟨Kx', hK'⟩ hno
      rcases hc with hc | ⟨hu, Kx, hK, hF⟩
      · rw [if_neg (not_lt.mpr (hc.trans hgt.le))]
        exact upd
      · rw [hu, if_pos hlt]
        simp only [andThen_ok]
        exact good st Kx rfl hK hF

theorem dopInterp_coh (d : DopDense α) (rhs : Rhs α n) (t : α) (st : St α n 0 (FsalAux α n 11 (DopItp α n)))
    (r) (s') (h : (dopInterp d rhs t).run st = some (r, s')) (hc : DopCoh d rhs st) : DopCoh d rhs s' := by
  rw [dopInterp_run] at h
  have key : ∀ (st1 : St α n 0 (FsalAux α n 11 (DopItp α n))), DopCoh d rhs st1 →
      (match pyDiv (t - st1.cache.ts (Buffer.iPrev 0))
          (st1.cache.ts (Buffer.iLast 0) - st1.cache.ts (Buffer.iPrev 0)) with
        | .error e => some (.error e, st1)
        | .ok x => some (.ok (.own (dopEval st1.aux.itp.F x (st1.cache.ys (Buffer.iPrev 0)))), st1) :
          Option (Except Err (Ref α n 0) × _)) = some (r, s') → DopCoh d rhs s' := by
    intro st1 h1 h2
    split at h2 <;> (cases h2; exact h1)
  split at h
  · cases h; exact hc
  · split at h
    · cases h; exact hc
    · split at h
      · exact key st hc h
      · rcases dopUpdate_run d rhs st with ⟨Kx, hK, hu⟩ | ⟨hno, e, Kx, hu⟩
        · rw [hu] at h
          simp only [andThen_ok] at h
          refine key _ ?_ h
          exact Or.inr ⟨rfl, Kx, hK, rfl⟩
        · rw [hu] at h
          cases h
          exact hc

theorem dopInterp_shape (d : DopDense α) (rhs : Rhs α n) (t : α) (st : St α n 0 (FsalAux α n 11 (DopItp α n)))
    (r) (s') (h : (dopInterp d rhs t).run st = some (.ok r, s')) :
    HasShape (if t == st.cache.ts (Buffer.iLast 0) then some (Buffer.iLast 0)
      else if t == st.cache.ts (Buffer.iPrev 0) then some (Buffer.iPrev 0) else none) r := by
  rw [dopInterp_run] at h
  split at h
  · rename_i hc; cases h; rw [if_pos hc]; rfl
  · rename_i hc
    rw [if_neg hc]
    split at h
    · rename_i hc; cases h; rw [if_pos hc]; rfl
    · rename_i hc
      rw [if_neg hc]
      rw [andThen_eq_ok] at h
      obtain ⟨_, st1, -, h⟩ := h
      split at h
      · simp at h
      · simp only [Option.some.injEq, Prod.mk.injEq, Except.ok.injEq] at h
        exact ⟨_, h.1.symm⟩

/-- DOP853. -/
def dopDense (lib : Lib α) (o : VarOptions α) (c : DopCoef α) (rhs : Rhs α n) :
    Dense (dop853 lib o c : Method α n _ _) rhs where
  C := Fin 13 → Vec α n
  core := fun x => x.K
  Coh := DopCoh c.toDopDense rhs
  Val := DopVal c.toDopDense rhs
  interp_iff := fun t st v _ hc h1 h2 => dopInterp_iff c.toDopDense rhs t st v hc h1 h2
  interp_core := fun t st r s' h => (dopInterp_state c.toDopDense rhs t st r s' h).2.2
  interp_coh := fun t st r s' h hc => dopInterp_coh c.toDopDense rhs t st r s' h hc
  body_congr := fun st st2 r s' e1 e2 e3 h => fsalBody_congr lib o _ _ _ rhs st st2 r s' e1 e2 e3 h
  body_coh := by
    intro st s' ho hc h
    left
    rw [fsalBody_prev lib o _ _ _ rhs st s' h, fsalBody_itp lib o _ _ _ rhs st _ s' h]
    rcases hc with hc | ⟨hc, -⟩
    · exact hc.trans (ordered_last ho _)
    · exact hc.le
  shape := fun b t => if t == b.ts (Buffer.iLast 0) then some (Buffer.iLast 0)
    else if t == b.ts (Buffer.iPrev 0) then some (Buffer.iPrev 0) else none
  interp_shape := fun t st r s' h => dopInterp_shape c.toDopDense rhs t st r s' h

end dop

end Nbkode
