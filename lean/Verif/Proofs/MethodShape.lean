import Verif.Proofs.PyLemmas
import Verif.Spec.Methods

/-! The effect of one step and of one interpolation on the history, for every method of the library. -/

set_option autoImplicit false
set_option linter.unusedSectionVars false

namespace Nbkode
open Py Spec

variable {α : Type}
variable [Add α] [Sub α] [Mul α] [Div α] [Neg α] [Zero α] [One α] [NatCast α] [BEq α]
variable [LT α] [DecidableLT α] [LE α] [DecidableLE α]
variable {n k : Nat} {X : Type}

/-- A successful step appends exactly one point, with its derivative; a failing one leaves the history alone;
interpolation never changes history or step size. -/
structure Shaped (M : Method α n k X) : Prop where
  body_ok : ∀ rhs s s', (M.body rhs).run s = some (.ok (), s') →
    ∃ t y f, s'.cache = s.cache.push t y f ∧ rhs t y = .ok f
  body_err : ∀ rhs s e s', (M.body rhs).run s = some (.error e, s') → s'.cache = s.cache
  interp : ∀ rhs t s r s', (M.interp rhs t).run s = some (r, s') →
    s'.cache = s.cache ∧ s'.h = s.h

/-- A fixed-step method: the new point is at `t + h` and `h` never changes. -/
structure FixedShaped (M : Method α n k X) : Prop extends Shaped M where
  body_fixed : ∀ rhs s s', (M.body rhs).run s = some (.ok (), s') →
    s'.t = s.t + s.h
  body_h : ∀ rhs s r s', (M.body rhs).run s = some (r, s') → s'.h = s.h

theorem push_t (b : Buffer α n k) (t : α) (y f : Vec α n) : (b.push t y f).t = t := by
  simp [Buffer.t, Buffer.push, shiftIn, Buffer.iLast]
theorem push_y (b : Buffer α n k) (t : α) (y f : Vec α n) : (b.push t y f).y = y := by
  simp [Buffer.y, Buffer.push, shiftIn, Buffer.iLast]
theorem push_f (b : Buffer α n k) (t : α) (y f : Vec α n) : (b.push t y f).f = f := by
  simp [Buffer.f, Buffer.push, shiftIn, Buffer.iLast]

theorem hermiteInterp_state (t : α) (s : St α n k X) (r) (s' : St α n k X)
    (h : (hermiteInterp t : Py (St α n k X) _).run s = some (r, s')) : s' = s := by
  unfold hermiteInterp at h
  simp only [run_bind, run_get, andThen_ok, run_ite, run_pure, run_ofExcept] at h
  split at h
  · cases h; rfl
  · cases hd : pyDiv (t - s.cache.ts (Buffer.iOld k)) (s.cache.t - s.cache.ts (Buffer.iOld k)) <;>
      rw [hd] at h <;> cases h <;> rfl

theorem explicitMultistepBody_run {p : Nat} (c : MultistepCoef α p) (rhs : Rhs α n)
    (s : St α n (histExtra p) Unit) :
    (explicitMultistepBody c rhs).run s =
      match rhs (s.t + s.h) (multistepK c s.cache s.h) with
      | .error e => some (.error e, s)
      | .ok f => some (.ok (),
          { s with cache := s.cache.push (s.t + s.h) (multistepK c s.cache s.h) f }) := by
  unfold explicitMultistepBody
  simp only [run_bind, run_get, andThen_ok, run_ofExcept, St.t]
  cases rhs (s.cache.t + s.h) (multistepK c s.cache s.h) <;> simp [pushSt]

theorem implicitMultistepBody_run {p : Nat} (lib : Lib α) (zo : ZeroOpts α) (c : MultistepCoef α p)
    (rhs : Rhs α n) (s : St α n (histExtra p) Unit) :
    (implicitMultistepBody lib zo c rhs).run s =
      match implicitSolve lib zo rhs (s.t + s.h) (s.h * c.Bn) (multistepK c s.cache s.h) s.y with
      | .error e => some (.error e, s)
      | .ok y => match rhs (s.t + s.h) y with
        | .error e => some (.error e, s)
        | .ok f => some (.ok (), { s with cache := s.cache.push (s.t + s.h) y f }) := by
  unfold implicitMultistepBody
  simp only [run_bind, run_get, andThen_ok, run_ofExcept, St.t, St.y]
  cases implicitSolve lib zo rhs (s.cache.t + s.h) (s.h * c.Bn) (multistepK c s.cache s.h)
    s.cache.y with
  | error e => simp
  | ok y =>
    simp only [andThen_ok]
    cases rhs (s.cache.t + s.h) y <;> simp [pushSt]

theorem explicitMultistep_shaped {p : Nat} (c : MultistepCoef α p) :
    FixedShaped (explicitMultistep c : Method α n _ _) where
  body_ok := by
    intro rhs s s' h
    change (explicitMultistepBody c rhs).run s = _ at h
    rw [explicitMultistepBody_run] at h
    split at h
    · simp at h
    · rename_i f hf; cases h; exact ⟨_, _, f, rfl, hf⟩
  body_err := by
    intro rhs s e s' h
    change (explicitMultistepBody c rhs).run s = _ at h
    rw [explicitMultistepBody_run] at h
    split at h <;> cases h; rfl
  interp := by
    intro rhs t s r s' h
    have := hermiteInterp_state t s r s' h
    subst this; simp
  body_fixed := by
    intro rhs s s' h
    change (explicitMultistepBody c rhs).run s = _ at h
    rw [explicitMultistepBody_run] at h
    split at h
    · simp at h
    · cases h; exact push_t _ _ _ _
  body_h := by
    intro rhs s r s' h
    change (explicitMultistepBody c rhs).run s = _ at h
    rw [explicitMultistepBody_run] at h
    split at h <;> cases h <;> rfl

theorem implicitMultistep_shaped {p : Nat} (lib : Lib α) (zo : ZeroOpts α) (c : MultistepCoef α p) :
    FixedShaped (implicitMultistep lib zo c : Method α n _ _) where
  body_ok := by
    intro rhs s s' h
    change (implicitMultistepBody lib zo c rhs).run s = _ at h
    rw [implicitMultistepBody_run] at h
    split at h
    · simp at h
    · split at h
      · simp at h
      · rename_i f hf; cases h; exact ⟨_, _, f, rfl, hf⟩
  body_err := by
    intro rhs s e s' h
    change (implicitMultistepBody lib zo c rhs).run s = _ at h
    rw [implicitMultistepBody_run] at h
    split at h
    · cases h; rfl
    · split at h <;> cases h; rfl
  interp := by
    intro rhs t s r s' h
    have := hermiteInterp_state t s r s' h
    subst this; simp
  body_fixed := by
    intro rhs s s' h
    change (implicitMultistepBody lib zo c rhs).run s = _ at h
    rw [implicitMultistepBody_run] at h
    split at h
    · simp at h
    · split at h
      · simp at h
      · cases h; exact push_t _ _ _ _
  body_h := by
    intro rhs s r s' h
    change (implicitMultistepBody lib zo c rhs).run s = _ at h
    rw [implicitMultistepBody_run] at h
    split at h
    · cases h; rfl
    · split at h <;> cases h <;> rfl

/-! ### Runge-Kutta stages never diverge -/

theorem stageLoop_total {s m : Nat} (hm : s + 1 ≤ m) (T : Tableau α s) (rhs : Rhs α n) (t h : α)
    (y : Vec α n) (l : List (Fin (s + 1))) (K : Fin m → Vec α n) :
    ∃ r K', (stageLoop hm T rhs t h y l).run K = some (r, K') := by
  induction l generalizing K with
  | nil => exact ⟨_, _, rfl⟩
  | cons i l ih =>
    rw [stageLoop]
    simp only [run_bind, run_get, andThen_ok, run_ofExcept, run_modify]
    cases rhs (t + h * T.C i) (y + scale h (rowDot hm T.A K i)) with
    | error e => exact ⟨_, _, rfl⟩
    | ok k => exact ih _

theorem stages_total {s m : Nat} (hm : s + 1 ≤ m) (T : Tableau α s) (rhs : Rhs α n) (t h : α)
    (y f : Vec α n) (K : Fin m → Vec α n) :
    ∃ r K', (stages hm T rhs t h y f).run K = some (r, K') := by
  unfold stages
  simp only [run_bind, run_modify, andThen_ok]
  exact stageLoop_total _ _ _ _ _ _ _ _

theorem erkFixedStep_run {s : Nat} (T : Tableau α s) (rhs : Rhs α n)
    (st : St α n 0 (ErkAux α n s)) {r K'}
    (hK : (stages (le_refl _) T rhs st.t st.h st.y st.f).run st.aux = some (r, K')) :
    (erkFixedStep T rhs).run st =
      match (generalizing := false) r with
      | .error e => some (.error e, { st with aux := K' })
      | .ok _ => some (.ok (st.t + st.h, st.y + vdot (fun j => st.h * T.B j) K'),
          { st with aux := K' }) := by
  unfold erkFixedStep
  simp only [run_bind, run_get, andThen_ok, run_zoom, run_pure]
  simp only [St.t, St.y, St.f] at hK ⊢
  rw [hK]
  cases r <;> simp

theorem erkBody_run {s : Nat} (T : Tableau α s) (rhs : Rhs α n)
    (st : St α n 0 (ErkAux α n s)) {r K'}
    (hK : (stages (le_refl _) T rhs st.t st.h st.y st.f).run st.aux = some (r, K')) :
    (erkBody T rhs).run st =
      match (generalizing := false) r with
      | .error e => some (.error e, { st with aux := K' })
      | .ok _ =>
        match rhs (st.t + st.h) (st.y + vdot (fun j => st.h * T.B j) K') with
        | .error e => some (.error e, { st with aux := K' })
        | .ok f => some (.ok (), { st with
            aux := K'
            cache := st.cache.push (st.t + st.h) (st.y + vdot (fun j => st.h * T.B j) K') f }) := by
  unfold erkBody
  simp only [run_bind]
  rw [erkFixedStep_run T rhs st hK]
  cases r with
  | error e => simp
  | ok u =>
    simp only [andThen_ok, run_bind, run_ofExcept]
    cases rhs (st.t + st.h) (st.y + vdot (fun j => st.h * T.B j) K') <;> simp [pushSt]

theorem erk_shaped {s : Nat} (T : Tableau α s) : FixedShaped (erk T : Method α n _ _) where
  body_ok := by
    intro rhs st s' h
    change (erkBody T rhs).run st = _ at h
    obtain ⟨r, K', hK⟩ := stages_total (le_refl _) T rhs st.t st.h st.y st.f st.aux
    rw [erkBody_run T rhs st hK] at h
    split at h
    · simp at h
    · split at h
      · simp at h
      · rename_i f hf; cases h; exact ⟨_, _, f, rfl, hf⟩
  body_err := by
    intro rhs st e s' h
    change (erkBody T rhs).run st = _ at h
    obtain ⟨r, K', hK⟩ := stages_total (le_refl _) T rhs st.t st.h st.y st.f st.aux
    rw [erkBody_run T rhs st hK] at h
    split at h
    · cases h; rfl
    · split at h <;> cases h; rfl
  interp := by
    intro rhs t s r s' h
    have := hermiteInterp_state t s r s' h
    subst this; simp
  body_fixed := by
    intro rhs st s' h
    change (erkBody T rhs).run st = _ at h
    obtain ⟨r, K', hK⟩ := stages_total (le_refl _) T rhs st.t st.h st.y st.f st.aux
    rw [erkBody_run T rhs st hK] at h
    split at h
    · simp at h
    · split at h
      · simp at h
      · cases h; exact push_t _ _ _ _
  body_h := by
    intro rhs st r s' h
    change (erkBody T rhs).run st = _ at h
    obtain ⟨r, K', hK⟩ := stages_total (le_refl _) T rhs st.t st.h st.y st.f st.aux
    rw [erkBody_run T rhs st hK] at h
    split at h
    · cases h; rfl
    · split at h <;> cases h <;> rfl

/-! ### FSAL methods -/

section fsal
variable {s : Nat} {I : Type}

/-- The result of the stage computations and the final evaluation of `FSAL._fixed_step`. -/
theorem fsalFixedStep_run (T : Tableau α s) (rhs : Rhs α n)
    (st : St α n 0 (FsalAux α n s I)) {r K'}
    (hK : (stages (by omega) T rhs st.t st.h st.y st.f).run st.aux.K = some (r, K')) :
    (fsalFixedStep T rhs).run st =
      match (generalizing := false) r with
      | .error e => some (.error e, { st with aux := { st.aux with K := K' } })
      | .ok _ =>
        let y' := st.y + vdot (fun j => st.h * T.B j) (fun j : Fin (s + 1) => K' j.castSucc)
        match rhs (st.t + st.h) y' with
        | .error e => some (.error e, { st with aux := { st.aux with K := K' } })
        | .ok f => some (.ok (st.t + st.h, y'),
            { st with aux := { st.aux with K := Function.update K' (Fin.last _) f } }) := by
  unfold fsalFixedStep
  simp only [run_bind, run_get, andThen_ok, run_zoom, run_pure]
  simp only [St.t, St.y, St.f] at hK ⊢
  rw [hK]
  cases r with
  | error e => simp
  | ok u =>
    simp only [andThen_ok, run_ofExcept]
    cases rhs (st.cache.t + st.h)
      (st.cache.y + vdot (fun j => st.h * T.B j) (fun j : Fin (s + 1) => K' j.castSucc)) <;> simp

/-- `FSAL._fixed_step` only writes the stages; on success the last stage is the derivative at the new point. -/
theorem fsalFixedStep_cases (T : Tableau α s) (rhs : Rhs α n)
    (st : St α n 0 (FsalAux α n s I)) :
    (∃ e K', (fsalFixedStep T rhs).run st =
        some (.error e, { st with aux := { st.aux with K := K' } })) ∨
    (∃ y' K', (fsalFixedStep T rhs).run st =
        some (.ok (st.t + st.h, y'), { st with aux := { st.aux with K := K' } }) ∧
        rhs (st.t + st.h) y' = .ok (K' (Fin.last _))) := by
  obtain ⟨r, K', hK⟩ := stages_total (m := s + 2) (by omega) T rhs st.t st.h st.y st.f st.aux.K
  rw [fsalFixedStep_run T rhs st hK]
  cases r with
  | error e => exact Or.inl ⟨e, K', rfl⟩
  | ok u =>
    simp only
    cases hr : rhs (st.t + st.h)
      (st.y + vdot (fun j => st.h * T.B j) (fun j : Fin (s + 1) => K' j.castSucc)) with
    | error e => exact Or.inl ⟨e, K', rfl⟩
    | ok f => exact Or.inr ⟨_, _, rfl, by simp [hr]⟩

/-- One round of the rejection loop. -/
theorem fsalBody_run (lib : Lib α) (o : VarOptions α) (ex : α) (T : Tableau α s)
    (errNorm : ErrNorm α n s) (rhs : Rhs α n) (st : St α n 0 (FsalAux α n s I)) :
    (fsalBody lib o ex T errNorm rhs).run st =
      andThen ((fsalFixedStep T rhs).run st) fun ty st1 =>
        match errNorm st1.h st1.aux.K ty.2 st1.y with
        | .error e => some (.error e, st1)
        | .ok en => match stepUpdate lib o ex en st1.h with
          | .error e => some (.error e, st1)
          | .ok (h', acc) =>
            if acc then some (.ok (), { st1 with
              h := h', cache := st1.cache.push ty.1 ty.2 (st1.aux.K (Fin.last _)) })
            else (fsalBody lib o ex T errNorm rhs).run { st1 with h := h' } := by
  conv_lhs => rw [fsalBody.eq_1]
  simp only [run_bind]
  congr 1
  funext ty st1
  simp only [run_get, andThen_ok, run_ofExcept, run_bind, St.y]
  cases errNorm st1.h st1.aux.K ty.2 st1.cache.y with
  | error e => simp
  | ok en =>
    simp only [andThen_ok]
    cases stepUpdate lib o ex en st1.h with
    | error e => simp
    | ok r => obtain ⟨h', acc⟩ := r; cases acc <;> simp [pushSt]

/-- What one call of the rejection loop may do: `Q` describes the accepted point. -/
theorem fsalBody_ind (lib : Lib α) (o : VarOptions α) (ex : α) (T : Tableau α s)
    (errNorm : ErrNorm α n s) (rhs : Rhs α n)
    (P : St α n 0 (FsalAux α n s I) → Except Err Unit → St α n 0 (FsalAux α n s I) → Prop)
    (hstep : ∀ st e K', (fsalFixedStep T rhs).run st =
        some (.error e, { st with aux := { st.aux with K := K' } }) →
        P st (.error e) { st with aux := { st.aux with K := K' } })
    (hnorm : ∀ st y' K' e, (fsalFixedStep T rhs).run st =
        some (.ok (st.t + st.h, y'), { st with aux := { st.aux with K := K' } }) →
        (errNorm st.h K' y' st.y = .error e ∨
          ∃ en, errNorm st.h K' y' st.y = .ok en ∧ stepUpdate lib o ex en st.h = .error e) →
        P st (.error e) { st with aux := { st.aux with K := K' } })
    (hacc : ∀ st y' K' en h', (fsalFixedStep T rhs).run st =
        some (.ok (st.t + st.h, y'), { st with aux := { st.aux with K := K' } }) →
        rhs (st.t + st.h) y' = .ok (K' (Fin.last _)) →
        errNorm st.h K' y' st.y = .ok en → stepUpdate lib o ex en st.h = .ok (h', true) →
        P st (.ok ()) { st with
          aux := { st.aux with K := K' }, h := h',
          cache := st.cache.push (st.t + st.h) y' (K' (Fin.last _)) })
    (hrej : ∀ st y' K' en h' r s', (fsalFixedStep T rhs).run st =
        some (.ok (st.t + st.h, y'), { st with aux := { st.aux with K := K' } }) →
        rhs (st.t + st.h) y' = .ok (K' (Fin.last _)) →
        errNorm st.h K' y' st.y = .ok en → stepUpdate lib o ex en st.h = .ok (h', false) →
        P { st with aux := { st.aux with K := K' }, h := h' } r s' → P st r s') :
    ∀ st r s', (fsalBody lib o ex T errNorm rhs).run st = some (r, s') → P st r s' := by
  refine fsalBody.fixpoint_induct lib o ex T errNorm rhs
    (fun x => ∀ st r s', x.run st = some (r, s') → P st r s') (admissible_post _) ?_
  intro loop ih st r s' h
  simp only [run_bind] at h
  rcases fsalFixedStep_cases T rhs st with ⟨e, K', hf⟩ | ⟨y', K', hf, hr⟩
  · rw [hf] at h
    simp only [andThen_error, Option.some.injEq, Prod.mk.injEq] at h
    obtain ⟨rfl, rfl⟩ := h
    exact hstep _ _ _ hf
  · rw [hf] at h
    simp only [andThen_ok, run_get, run_ofExcept, run_bind] at h
    cases hn : errNorm st.h K' y' st.cache.y with
    | error e =>
      rw [hn] at h
      simp only [andThen_error, Option.some.injEq, Prod.mk.injEq] at h
      obtain ⟨rfl, rfl⟩ := h
      exact hnorm _ _ _ _ hf (Or.inl hn)
    | ok en =>
      rw [hn] at h
      simp only [andThen_ok] at h
      cases hu : stepUpdate lib o ex en st.h with
      | error e =>
        rw [hu] at h
        simp only [andThen_error, Option.some.injEq, Prod.mk.injEq] at h
        obtain ⟨rfl, rfl⟩ := h
        exact hnorm _ _ _ _ hf (Or.inr ⟨en, hn, hu⟩)
      | ok q =>
        obtain ⟨h', acc⟩ := q
        rw [hu] at h
        cases acc with
        | true =>
          simp only [andThen_ok, run_modify, if_true, pushSt, Option.some.injEq,
            Prod.mk.injEq] at h
          obtain ⟨rfl, rfl⟩ := h
          exact hacc _ _ _ _ _ hf hr hn hu
        | false =>
          simp only [andThen_ok, run_modify, Bool.false_eq_true, if_false] at h
          exact hrej _ _ _ _ _ _ _ hf hr hn hu (ih _ _ _ h)

theorem fsalBody_shape (lib : Lib α) (o : VarOptions α) (ex : α) (T : Tableau α s)
    (errNorm : ErrNorm α n s) (rhs : Rhs α n) :
    ∀ (st : St α n 0 (FsalAux α n s I)) r s',
      (fsalBody lib o ex T errNorm rhs).run st = some (r, s') →
      match (generalizing := false) r with
      | .ok _ => ∃ t y f, s'.cache = st.cache.push t y f ∧ rhs t y = .ok f
      | .error _ => s'.cache = st.cache := by
  refine fsalBody_ind lib o ex T errNorm rhs
    (fun st r s' => match r with
      | .ok _ => ∃ t y f, s'.cache = st.cache.push t y f ∧ rhs t y = .ok f
      | .error _ => s'.cache = st.cache) ?_ ?_ ?_ ?_
  · intro st e K' _; rfl
  · intro st y' K' e _ _; rfl
  · intro st y' K' en h' _ hr _ _; exact ⟨_, _, _, rfl, hr⟩
  · intro st y' K' en h' r s' _ _ _ _ h; exact h

end fsal

theorem rkInterp_state {s d : Nat} (P : Fin (s + 2) → Fin d → α) (t : α)
    (st : St α n 0 (FsalAux α n s (RkItp α n d))) (r) (s')
    (h : (rkInterp P t).run st = some (r, s')) :
    s'.cache = st.cache ∧ s'.h = st.h ∧ s'.aux.K = st.aux.K := by
  unfold rkInterp at h
  simp only [run_bind, run_get, andThen_ok, run_ite, run_pure, run_ofExcept, rkUpdate,
    run_modify] at h
  split at h
  · cases h; simp
  · split at h
    · cases h; simp
    · split at h <;>
      · try simp only [run_modify, run_pure, andThen_ok, run_get, run_ofExcept] at h
        rw [andThen_eq_some] at h
        rcases h with ⟨e, s1, h1, h2⟩ | ⟨a, s1, h1, h2⟩
        · simp only [Option.some.injEq, Prod.mk.injEq] at h1 h2
          obtain ⟨_, rfl⟩ := h1
          obtain ⟨_, rfl⟩ := h2
          simp
        · simp only [Option.some.injEq, Prod.mk.injEq] at h1 h2
          obtain ⟨_, rfl⟩ := h1
          obtain ⟨_, rfl⟩ := h2
          simp

theorem dopExtra_total (d : DopDense α) (rhs : Rhs α n) (tOld h : α) (yOld : Vec α n)
    (l : List (Fin 3)) (K : Fin 16 → Vec α n) :
    ∃ r K', (dopExtra d rhs tOld h yOld l).run K = some (r, K') := by
  induction l generalizing K with
  | nil => exact ⟨_, _, rfl⟩
  | cons e l ih =>
    rw [dopExtra]
    simp only [run_bind, run_get, andThen_ok, run_ofExcept, run_modify]
    generalize rhs _ _ = r
    cases r with
    | error e => exact ⟨_, _, rfl⟩
    | ok k => exact ih _

theorem dopUpdate_state (d : DopDense α) (rhs : Rhs α n)
    (st : St α n 0 (FsalAux α n 11 (DopItp α n))) (r) (s')
    (h : (dopUpdate d rhs).run st = some (r, s')) :
    s'.cache = st.cache ∧ s'.h = st.h ∧ s'.aux.K = st.aux.K := by
  unfold dopUpdate at h
  simp only [run_bind, run_get, andThen_ok, run_modify, run_zoom] at h
  split at h
  · simp at h
  · rename_i r0 K0 _
    cases r0 <;> simp only [andThen_ok, andThen_error] at h <;> cases h <;> simp

theorem dopInterp_state (d : DopDense α) (rhs : Rhs α n) (t : α)
    (st : St α n 0 (FsalAux α n 11 (DopItp α n))) (r) (s')
    (h : (dopInterp d rhs t).run st = some (r, s')) :
    s'.cache = st.cache ∧ s'.h = st.h ∧ s'.aux.K = st.aux.K := by
  unfold dopInterp at h
  simp only [run_bind, run_get, andThen_ok, run_ite, run_pure, run_ofExcept] at h
  split at h
  · cases h; simp
  · split at h
    · cases h; simp
    · split at h
      · rw [andThen_eq_some] at h
        rcases h with ⟨e, s1, h1, h2⟩ | ⟨a, s1, h1, h2⟩
        · cases h2
          exact dopUpdate_state _ _ _ _ _ h1
        · have := dopUpdate_state _ _ _ _ _ h1
          rw [andThen_eq_some] at h2
          rcases h2 with ⟨e, s2, h3, h4⟩ | ⟨a, s2, h3, h4⟩
          · simp only [Option.some.injEq, Prod.mk.injEq] at h3 h4
            obtain ⟨_, rfl⟩ := h3
            obtain ⟨_, rfl⟩ := h4
            exact this
          · simp only [Option.some.injEq, Prod.mk.injEq] at h3 h4
            obtain ⟨_, rfl⟩ := h3
            obtain ⟨_, rfl⟩ := h4
            exact this
      · try simp only [run_pure, andThen_ok, run_get, run_ofExcept] at h
        rw [andThen_eq_some] at h
        rcases h with ⟨e, s2, h3, h4⟩ | ⟨a, s2, h3, h4⟩
        · simp only [Option.some.injEq, Prod.mk.injEq] at h3 h4
          obtain ⟨_, rfl⟩ := h3
          obtain ⟨_, rfl⟩ := h4
          simp
        · simp only [Option.some.injEq, Prod.mk.injEq] at h3 h4
          obtain ⟨_, rfl⟩ := h3
          obtain ⟨_, rfl⟩ := h4
          simp

theorem fsal_shaped {s d : Nat} (lib : Lib α) (o : VarOptions α) (c : FsalCoef α s d) :
    Shaped (fsal lib o c : Method α n _ _) where
  body_ok := fun rhs st s' h => fsalBody_shape lib o _ _ _ rhs st (.ok ()) s' h
  body_err := fun rhs st e s' h => fsalBody_shape lib o _ _ _ rhs st (.error e) s' h
  interp := fun _ t st r s' h =>
    ⟨(rkInterp_state c.P t st r s' h).1, (rkInterp_state c.P t st r s' h).2.1⟩

theorem dop853_shaped (lib : Lib α) (o : VarOptions α) (c : DopCoef α) :
    Shaped (dop853 lib o c : Method α n _ _) where
  body_ok := fun rhs st s' h => fsalBody_shape lib o _ _ _ rhs st (.ok ()) s' h
  body_err := fun rhs st e s' h => fsalBody_shape lib o _ _ _ rhs st (.error e) s' h
  interp := fun rhs t st r s' h =>
    ⟨(dopInterp_state _ rhs t st r s' h).1, (dopInterp_state _ rhs t st r s' h).2.1⟩

theorem Spec.IsFixed.shaped {M : Method α n k X} (h : IsFixed M) : FixedShaped M := by
  cases h with
  | explicitMultistep c => exact explicitMultistep_shaped c
  | implicitMultistep lib zo c => exact implicitMultistep_shaped lib zo c
  | erk T => exact erk_shaped T

theorem Spec.IsVariable.shaped {lib : Lib α} {o : VarOptions α} {ex : α} {M : Method α n k X}
    (h : IsVariable lib o ex M) : Shaped M := by
  cases h with
  | fsal c => exact fsal_shaped lib o c
  | dop853 c => exact dop853_shaped lib o c

theorem Spec.IsLibrary.shaped {M : Method α n k X} (h : IsLibrary M) : Shaped M := by
  rcases h with h | ⟨lib, o, ex, h⟩
  · exact (IsFixed.shaped h).toShaped
  · exact IsVariable.shaped h

end Nbkode
