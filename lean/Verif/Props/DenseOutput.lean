import Verif.Props.RunStates
import Verif.Props.Hermite
import Verif.Props.RungeKutta
import Verif.Props.History
import Verif.Spec.Dense
import Verif.Props.Orders
import Verif.Props.VarDemo

/-!
# Dense output of the variable-step solvers: C24, C25, C26
-/

set_option autoImplicit false
set_option linter.unusedSectionVars false

namespace Nbkode
open Py Spec Solver Polynomial

section field
variable {α : Type} [Field α] [LinearOrder α] [IsStrictOrderedRing α] [BEq α]
variable {n s : Nat} {I : Type}

theorem withLast_sum (T : Tableau α s) (K : Fin (s + 2) → Vec α n) (d : Fin n) :
    (∀ i : Fin (s + 1), ∑ j, (withLast T).A i.castSucc j * K j d = ∑ j, T.A i j * K j.castSucc d) ∧
    (∑ j, (withLast T).A (Fin.last _) j * K j d = ∑ j, T.B j * K j.castSucc d) ∧
    (∑ j, (withLast T).B j * K j d = ∑ j, T.B j * K j.castSucc d) := by
  have hl : ¬ (Fin.last (s + 1)).val < s + 1 := by simp
  have hc : ∀ i : Fin (s + 1), (i.castSucc).val < s + 1 := fun i => i.isLt
  refine ⟨fun i => ?_, ?_, ?_⟩ <;>
  · rw [Fin.sum_univ_castSucc]
    simp only [withLast, dif_neg hl, dif_pos (hc _), zero_mul, add_zero, ite_self, dite_eq_ite]
    rfl

theorem lastStages_of {T : Tableau α s} (hT : Explicit T) {rhs : Rhs α n} {b : Buffer α n 0} {t y f : _} {h : α}
    {Ks : Fin (s + 1) → Vec α n} (hf : rhs b.t b.y = .ok b.f) (hK : RKStages T rhs b.t h b.y Ks)
    (ht : t = b.t + h) (hy : y = rkNew T h b.y Ks) (hf' : rhs t y = .ok f) {K : Fin (s + 2) → Vec α n}
    (h1 : ∀ i : Fin (s + 1), K i.castSucc = Ks i) (h2 : K (Fin.last _) = f) :
    LastStages T rhs (b.push t y f) K := by
  have e1 : (b.push t y f).ts (Buffer.iPrev 0) = b.t := rfl
  have e2 : (b.push t y f).ys (Buffer.iPrev 0) = b.y := rfl
  have e3 : (b.push t y f).fs (Buffer.iPrev 0) = b.f := rfl
  have e4 : (b.push t y f).t - b.t = h := by rw [push_t, ht]; ring
  have hsum := fun d => withLast_sum T K d
  simp only [h1] at hsum
  have hnew : rkNew (withLast T) h b.y K = rkNew T h b.y Ks := by
    funext d
    simp only [rkNew, (hsum d).2.2]
  refine ⟨?_, ?_, ?_, ?_⟩
  · rw [e1, e2, e4]
    intro i
    refine Fin.lastCases ?_ (fun i => ?_) i
    · rw [h2, ← hf']
      congr 1
      · rw [ht]; simp [withLast]
      · rw [hy]; funext d; simp only [rkNew, (hsum d).2.1]
    · rw [h1, ← hK i]
      congr 1
      · simp only [withLast, dif_pos (show (i.castSucc).val < s + 1 from i.isLt)]; rfl
      · funext d; rw [(hsum d).1]
  · rw [e3]
    have h3 : K 0 = Ks 0 := h1 0
    have h4 := hK 0
    rw [hT.first, zero_mul, add_zero] at h4
    have h5 : (fun d => b.y d + h * ∑ j, T.A 0 j * Ks j d) = b.y := by
      funext d
      rw [Finset.sum_eq_zero fun j _ => by rw [hT.upper 0 j (Fin.zero_le _), zero_mul]]
      ring
    rw [h5, hf] at h4
    rw [h3]
    exact (Except.ok.inj h4).symm
  · rw [h2, push_f]
  · rw [e1, e2, e4, hnew, push_y, hy]

/-- After any successful step of a variable-step solver the scratch holds the stages of that step. -/
theorem fsalBody_lastStages (lib : Lib α) (o : VarOptions α) (hl : PowLaw lib) (ho : SaneOptions o)
    (ex : α) (hex : 0 ≤ ex) (T : Tableau α s) (hT : Explicit T) (errNorm : ErrNorm α n s)
    (rhs : Rhs α n) (st st' : St α n 0 (FsalAux α n s I)) (hf : rhs st.t st.y = .ok st.f)
    (h : (fsalBody lib o ex T errNorm rhs).run st = some (.ok (), st')) :
    LastStages T rhs st'.cache st'.aux.K := by
  obtain ⟨q, K, f', -, -, h1, h2, h3, h4, h5⟩ :=
    fsalBody_records lib o hl ho ex hex T hT errNorm rhs st st' hf h
  rw [h3]
  exact lastStages_of hT hf h1 rfl rfl h2 h4 h5

variable [LawfulBEq α]

theorem fsalInit_times {d : Nat} {P : Fin (s + 2) → Fin d → α} {o : VarOptions α}
    {sel : Rhs α n → α → Vec α n → Vec α n → Except Err α} {g : Buffer α n 0}
    {K : Fin (s + 2) → Vec α n} {itp : RkItp α n d} {rhs : Rhs α n} {t0 : α} {y0 : Vec α n}
    {h first : Option α} {st : St α n 0 (FsalAux α n s (RkItp α n d))}
    (hs : fsalInit P o sel g K itp rhs t0 y0 h first = .ok st) : ∀ i, st.cache.ts i = t0 := by
  obtain ⟨s0, h0, hc, -⟩ := fsalInit_ok hs
  obtain ⟨s1, h1, hc1, -⟩ := variableInit_ok h0
  obtain ⟨f0, -, hc2, -⟩ := solverInit_ok h1
  intro i
  rw [hc, hc1, hc2, init_ts]

theorem dopInit_times {d : DopDense α} {o : VarOptions α}
    {sel : Rhs α n → α → Vec α n → Vec α n → Except Err α} {g : Buffer α n 0}
    {K : Fin 13 → Vec α n} {itp : DopItp α n} {rhs : Rhs α n} {t0 : α} {y0 : Vec α n}
    {h first : Option α} {st : St α n 0 (FsalAux α n 11 (DopItp α n))}
    (hs : dopInit d o sel g K itp rhs t0 y0 h first = .ok st) : ∀ i, st.cache.ts i = t0 := by
  obtain ⟨s0, h0, hc, -⟩ := dopInit_ok hs
  obtain ⟨s1, h1, hc1, -⟩ := variableInit_ok h0
  obtain ⟨f0, -, hc2, -⟩ := solverInit_ok h1
  intro i
  rw [hc, hc1, hc2, init_ts]

theorem consistent_last {k : Nat} {rhs : Rhs α n} {X : Type} {st : St α n k X} (h : Consistent rhs st.cache) :
    rhs st.t st.y = .ok st.f := h (Buffer.iLast k)

/-- A variable-step solver of either kind: the invariant of its sessions without exceptions. -/
structure Tracked {X : Type} (S : Solver α n 0 X) (Inv : St α n 0 X → Prop) : Prop where
  body : ∀ st st', Takes S st st' → Consistent S.rhs st.cache → Consistent S.rhs st'.cache ∧ Inv st'
  interp : ∀ t st r st', (S.interpAt t).run st = some (r, st') → Inv st → Inv st'

theorem tracked_session {X : Type} {S : Solver α n 0 X} {Inv : St α n 0 X → Prop} (hT : Tracked S Inv)
    (hM : WellConfigured S.method) {bo : BisectOpts α} {argsort : List α → List Nat}
    {s0 st : St α n 0 X} (hs : CleanSession S bo argsort s0 st) (hc : Consistent S.rhs s0.cache) (hi : Inv s0) :
    Consistent S.rhs st.cache ∧ Inv st := by
  refine clean_invariant (fun st => Consistent S.rhs st.cache ∧ Inv st) ?_ hs ⟨hc, hi⟩
  rintro st st' h ⟨h1, h2⟩
  cases h with
  | body b hb hf ht => exact hT.body st st' ht h1
  | interp t h =>
    refine ⟨?_, hT.interp _ _ _ _ h h2⟩
    rw [(hM.library.shaped.interp _ _ _ _ _ h).1]
    exact h1

theorem cumpow_eq (x : α) (m : Nat) : cumpow x m = x ^ (m + 1) := by
  induction m with
  | zero => simp [cumpow]
  | succ m ih => rw [cumpow, ih, pow_succ x (m + 1)]

theorem rkEval_apply {d : Nat} (P : Fin (s + 2) → Fin d → α) (K : Fin (s + 2) → Vec α n) (h x : α) (y : Vec α n)
    (i : Fin n) : rkEval (fun j => vdot (fun i => P i j) K) h x y i =
      y i + h * ∑ j : Fin d, (∑ m, P m j * K m i) * x ^ (j.val + 1) := by
  simp only [rkEval, Pi.add_apply, scale]
  rw [foldl_eq_sum (fun j : Fin d => vdot (fun i => P i j) K i * cumpow x j.val), zero_add, add_comm]
  congr 2
  refine Finset.sum_congr rfl fun j _ => ?_
  rw [vdot_apply, cumpow_eq]

theorem dopEval_apply (F : Fin 7 → Vec α n) (x : α) (y : Vec α n) (i : Fin n) :
    dopEval F x y i = y i + x * (F 0 i + (1 - x) * (F 1 i + x * (F 2 i + (1 - x) * (F 3 i + x * (F 4 i +
      (1 - x) * (F 5 i + x * F 6 i)))))) := by
  simp [dopEval, Fin.foldl_succ]
  ring

/-- What the proofs need of a constructed variable-step solver used without exceptions. -/
theorem fsal_facts {d : Nat} {lib : Lib α} {o : VarOptions α} {c : FsalCoef α s d} (hT : Explicit c.toTableau)
    (hl : PowLaw lib) (ho : SaneOptions o) (hex : 0 ≤ c.errorExponent) {rhs : Rhs α n} {b : Bound α}
    {bo : BisectOpts α} {argsort : List α → List Nat}
    {sel : Rhs α n → α → Vec α n → Vec α n → Except Err α} {g : Buffer α n 0} {K0 : Fin (s + 2) → Vec α n}
    {itp : RkItp α n d} {t0 : α} {y0 : Vec α n} {h first : Option α}
    {s0 st : St α n 0 (FsalAux α n s (RkItp α n d))}
    (hs0 : fsalInit c.P o sel g K0 itp rhs t0 y0 h first = .ok s0) (hh : 0 < s0.h)
    (hs : CleanSession ⟨fsal lib o c, rhs, b⟩ bo argsort s0 st) :
    Good (S := ⟨fsal lib o c, rhs, b⟩) (fsalDense lib o c rhs) st ∧
    (st.cache.ts (Buffer.iPrev 0) < st.t → LastStages c.toTableau rhs st.cache st.aux.K) := by
  have hM : WellConfigured (fsal lib o c : Method α n _ _) := Or.inr ⟨lib, o, _, .fsal c, hl, ho, hex⟩
  have htr : Tracked ⟨fsal lib o c, rhs, b⟩ fun st : St α n 0 (FsalAux α n s (RkItp α n d)) =>
      st.cache.ts (Buffer.iPrev 0) < st.t → LastStages c.toTableau rhs st.cache st.aux.K := by
    constructor
    · intro st st' ht hc
      refine ⟨?_, fun _ => fsalBody_lastStages lib o hl ho _ hex _ hT _ rhs st st' (consistent_last hc) ht⟩
      obtain ⟨t, y, f, e, hf⟩ := hM.library.shaped.body_ok _ _ _ ht
      rw [e]
      exact consistent_push hc hf
    · intro t st r st' h hi
      obtain ⟨e1, -, e3⟩ := rkInterp_state c.P t st r st' h
      unfold St.t
      rw [e1, e3]
      exact hi
  have ht0 := fsalInit_times hs0
  obtain ⟨hcons, hlast⟩ := tracked_session htr hM hs
    (C14_construction_fsal _ _ _ _ _ _ _ _ _ _ _ _ hs0).1 (by
      intro h; rw [St.t, Buffer.t, ht0, ht0] at h; exact absurd h (lt_irrefl _))
  exact ⟨clean_invariant (Good (S := ⟨fsal lib o c, rhs, b⟩) (fsalDense lib o c rhs))
      (fun _ _ h hg => good_did hM.forward h hg) hs ⟨fun i j _ => by rw [ht0, ht0], hh, fsalInit_fresh hs0⟩, hlast⟩

theorem dop_facts {lib : Lib α} {o : VarOptions α} {c : DopCoef α} (hT : Explicit c.toTableau)
    (hl : PowLaw lib) (ho : SaneOptions o) (hex : 0 ≤ c.errorExponent) {rhs : Rhs α n} {b : Bound α}
    {bo : BisectOpts α} {argsort : List α → List Nat}
    {sel : Rhs α n → α → Vec α n → Vec α n → Except Err α} {g : Buffer α n 0} {K0 : Fin 13 → Vec α n}
    {itp : DopItp α n} {t0 : α} {y0 : Vec α n} {h first : Option α}
    {s0 st : St α n 0 (FsalAux α n 11 (DopItp α n))}
    (hs0 : dopInit c.toDopDense o sel g K0 itp rhs t0 y0 h first = .ok s0) (hh : 0 < s0.h)
    (hs : CleanSession ⟨dop853 lib o c, rhs, b⟩ bo argsort s0 st) :
    Good (S := ⟨dop853 lib o c, rhs, b⟩) (dopDense lib o c rhs) st ∧
    (st.cache.ts (Buffer.iPrev 0) < st.t → LastStages c.toTableau rhs st.cache st.aux.K) := by
  have hM : WellConfigured (dop853 lib o c : Method α n _ _) := Or.inr ⟨lib, o, _, .dop853 c, hl, ho, hex⟩
  have htr : Tracked ⟨dop853 lib o c, rhs, b⟩ fun st : St α n 0 (FsalAux α n 11 (DopItp α n)) =>
      st.cache.ts (Buffer.iPrev 0) < st.t → LastStages c.toTableau rhs st.cache st.aux.K := by
    constructor
    · intro st st' ht hc
      refine ⟨?_, fun _ => fsalBody_lastStages lib o hl ho _ hex _ hT _ rhs st st' (consistent_last hc) ht⟩
      obtain ⟨t, y, f, e, hf⟩ := hM.library.shaped.body_ok _ _ _ ht
      rw [e]
      exact consistent_push hc hf
    · intro t st r st' h hi
      obtain ⟨e1, -, e3⟩ := dopInterp_state c.toDopDense rhs t st r st' h
      unfold St.t
      rw [e1, e3]
      exact hi
  have ht0 := dopInit_times hs0
  obtain ⟨hcons, hlast⟩ := tracked_session htr hM hs
    (C14_construction_dop853 _ _ _ _ _ _ _ _ _ _ _ _ hs0).1 (by
      intro h; rw [St.t, Buffer.t, ht0, ht0] at h; exact absurd h (lt_irrefl _))
  exact ⟨clean_invariant (Good (S := ⟨dop853 lib o c, rhs, b⟩) (dopDense lib o c rhs))
      (fun _ _ h hg => good_did hM.forward h hg) hs ⟨fun i j _ => by rw [ht0, ht0], hh, dopInit_fresh hs0⟩, hlast⟩

/-- **C26**, RungeKutta23/45 (any coefficients). Take any constructed solver and any history of calls without exceptions. If
a step was made, there are stages `K` solving the textbook equations of the last recorded step such that at every time inside
that step `interpolate` returns `y_old + h * sum_j (sum_i P_ij k_i) x^(j+1)` with `x = (t - t_old) / h`. -/
theorem C26_fsal {d : Nat} (lib : Lib α) (o : VarOptions α) (c : FsalCoef α s d) (hT : Explicit c.toTableau)
    (hl : PowLaw lib) (ho : SaneOptions o) (hex : 0 ≤ c.errorExponent) (rhs : Rhs α n) (b : Bound α)
    (bo : BisectOpts α) (argsort : List α → List Nat)
    (sel : Rhs α n → α → Vec α n → Vec α n → Except Err α) (g : Buffer α n 0) (K0 : Fin (s + 2) → Vec α n)
    (itp : RkItp α n d) (t0 : α) (y0 : Vec α n) (h first : Option α)
    (s0 st : St α n 0 (FsalAux α n s (RkItp α n d)))
    (hs0 : fsalInit c.P o sel g K0 itp rhs t0 y0 h first = .ok s0) (hh : 0 < s0.h)
    (hs : CleanSession ⟨fsal lib o c, rhs, b⟩ bo argsort s0 st) (hlt : st.cache.ts (Buffer.iPrev 0) < st.t) :
    ∃ K, LastStages c.toTableau rhs st.cache K ∧
      ∀ t, st.cache.ts (Buffer.iPrev 0) ≤ t → t < st.t →
        ∃ r st', (Solver.interpolate ⟨fsal lib o c, rhs, b⟩ t).run st = some (.ok r, st') ∧
          ∀ i, r.deref st.cache i = st.cache.ys (Buffer.iPrev 0) i +
            (st.t - st.cache.ts (Buffer.iPrev 0)) * ∑ j : Fin d, (∑ m, c.P m j * K m i) *
              ((t - st.cache.ts (Buffer.iPrev 0)) / (st.t - st.cache.ts (Buffer.iPrev 0))) ^ (j.val + 1) := by
  obtain ⟨hg, hlast⟩ := fsal_facts hT hl ho hex hs0 hh hs
  refine ⟨st.aux.K, hlast hlt, fun t h1 h2 => ?_⟩
  have hd : st.cache.ts (Buffer.iLast 0) - st.cache.ts (Buffer.iPrev 0) ≠ 0 := (sub_pos.mpr hlt).ne'
  have hval : ∃ v, RkVal c.P st.cache st.aux.K t v ∧ ∀ i, v i = st.cache.ys (Buffer.iPrev 0) i +
            (st.t - st.cache.ts (Buffer.iPrev 0)) * ∑ j : Fin d, (∑ m, c.P m j * st.aux.K m i) *
              ((t - st.cache.ts (Buffer.iPrev 0)) / (st.t - st.cache.ts (Buffer.iPrev 0))) ^ (j.val + 1) := by
    unfold RkVal
    simp only [if_neg (show ¬ t = st.cache.ts (Buffer.iLast 0) from h2.ne)]
    split
    · rename_i he
      refine ⟨_, rfl, fun i => ?_⟩
      rw [he, sub_self, zero_div]
      simp
    · exact ⟨_, ⟨_, pyDiv_ne hd, rfl⟩, fun i => rkEval_apply _ _ _ _ _ _⟩
  obtain ⟨v, hv, hv'⟩ := hval
  obtain ⟨r, st', hr, e⟩ := val_interp (S := ⟨fsal lib o c, rhs, b⟩) hg h1 h2.le hv
  exact ⟨r, st', hr, fun i => by rw [e, hv']⟩

theorem extraStages_of {d : DopDense α} {rhs : Rhs α n} {b : Buffer α n 0} {K : Fin 13 → Vec α n}
    {Kx : Fin 16 → Vec α n} (h : DopStages d rhs (b.ts (Buffer.iPrev 0))
      (b.ts (Buffer.iLast 0) - b.ts (Buffer.iPrev 0)) (b.ys (Buffer.iPrev 0)) K Kx) : ExtraStages d rhs b K Kx := by
  refine ⟨fun i => h.1 ⟨i.val, by have := i.isLt; omega⟩ i.isLt, fun e => ?_⟩
  rw [← h.2 e]
  congr 1
  funext i
  rw [Pi.add_apply, vdot_apply, mul_comm]
  rfl

/-- **C26**, DOP853 (any coefficients): the same, with the extra stages evaluated from the stages of the last recorded step and
`x = (t - t_old) / h`. -/
theorem C26_dop853 (lib : Lib α) (o : VarOptions α) (c : DopCoef α) (hT : Explicit c.toTableau)
    (hl : PowLaw lib) (ho : SaneOptions o) (hex : 0 ≤ c.errorExponent) (rhs : Rhs α n) (b : Bound α)
    (bo : BisectOpts α) (argsort : List α → List Nat)
    (sel : Rhs α n → α → Vec α n → Vec α n → Except Err α) (g : Buffer α n 0) (K0 : Fin 13 → Vec α n)
    (itp : DopItp α n) (t0 : α) (y0 : Vec α n) (h first : Option α)
    (s0 st : St α n 0 (FsalAux α n 11 (DopItp α n)))
    (hs0 : dopInit c.toDopDense o sel g K0 itp rhs t0 y0 h first = .ok s0) (hh : 0 < s0.h)
    (hs : CleanSession ⟨dop853 lib o c, rhs, b⟩ bo argsort s0 st) (hlt : st.cache.ts (Buffer.iPrev 0) < st.t) :
    ∃ K, LastStages c.toTableau rhs st.cache K ∧
      ∀ t, st.cache.ts (Buffer.iPrev 0) < t → t < st.t →
        ∀ r st', (Solver.interpolate ⟨dop853 lib o c, rhs, b⟩ t).run st = some (.ok r, st') →
          ∃ Kx, ExtraStages c.toDopDense rhs st.cache K Kx ∧ ∀ i,
            let h := st.t - st.cache.ts (Buffer.iPrev 0)
            let x := (t - st.cache.ts (Buffer.iPrev 0)) / h
            let dy := st.y i - st.cache.ys (Buffer.iPrev 0) i
            let D := fun m => h * ∑ j, c.D m j * Kx j i
            r.deref st.cache i = st.cache.ys (Buffer.iPrev 0) i + x * (dy + (1 - x) *
              (h * st.cache.fs (Buffer.iPrev 0) i - dy + x * (2 * dy - h * (st.f i + st.cache.fs (Buffer.iPrev 0) i) +
                (1 - x) * (D 0 + x * (D 1 + (1 - x) * (D 2 + x * D 3)))))) := by
  obtain ⟨hg, hlast⟩ := dop_facts hT hl ho hex hs0 hh hs
  have hL := hlast hlt
  refine ⟨st.aux.K, hL, fun t h1 h2 r st' hr => ?_⟩
  have hd : st.cache.ts (Buffer.iLast 0) - st.cache.ts (Buffer.iPrev 0) ≠ 0 := (sub_pos.mpr hlt).ne'
  rw [interpolate_inside (S := ⟨dop853 lib o c, rhs, b⟩) (k := 0) h1.le h2.le] at hr
  have hv := (dopInterp_iff c.toDopDense rhs t st (r.deref st.cache) hg.coh h1.le h2.le).mp ⟨r, st', hr, rfl⟩
  unfold DopVal at hv
  rw [if_neg (show ¬ t = st.cache.ts (Buffer.iLast 0) from h2.ne), if_neg h1.ne'] at hv
  obtain ⟨x, Kx, hx, hK, hv⟩ := hv
  rw [pyDiv_ne hd, Except.ok.injEq] at hx
  refine ⟨Kx, extraStages_of hK, fun i => ?_⟩
  have hK0 : Kx 0 = st.cache.fs (Buffer.iPrev 0) := by rw [hK.1 0 (by decide), ← hL.first]; rfl
  rw [hv, dopEval_apply, ← hx]
  simp only [dopF, scale, vdot_apply, Pi.add_apply, Pi.sub_apply, hK0, Nat.cast_ofNat]
  rfl

/-! ### C24 -/

/-- The identities between the dense output coefficients and the tableau. -/
structure EndConditions {d : Nat} (T : Tableau α s) (P : Fin (s + 2) → Fin (d + 1) → α) : Prop where
  start : ∀ m, P m 0 = if m = 0 then 1 else 0
  stop : ∀ m, ∑ j, P m j = (withLast T).B m
  stop' : ∀ m, ∑ j : Fin (d + 1), ((j.val + 1 : Nat) : α) * P m j = if m.val = s + 1 then 1 else 0

/-- `y + h * sum_j q_j ((X - t) / h)^(j+1)`. -/
noncomputable def densePoly {d : Nat} (t h y : α) (Q : Fin d → α) : α[X] :=
  C y + C h * ∑ j : Fin d, C (Q j) * (C h⁻¹ * (X - C t)) ^ (j.val + 1)

theorem densePoly_eval {d : Nat} (t h y : α) (Q : Fin d → α) (x : α) :
    (densePoly t h y Q).eval x = y + h * ∑ j : Fin d, Q j * ((x - t) / h) ^ (j.val + 1) := by
  simp [densePoly, eval_finsetSum, div_eq_mul_inv, mul_comm]

theorem densePoly_slope {d : Nat} (t h y : α) (Q : Fin d → α) (x : α) (hh : h ≠ 0) :
    (derivative (densePoly t h y Q)).eval x =
      ∑ j : Fin d, Q j * (((j.val + 1 : Nat) : α) * ((x - t) / h) ^ j.val) := by
  simp only [densePoly, derivative_add, derivative_C, zero_add, derivative_mul, zero_mul, derivative_sum, derivative_pow,
    derivative_sub, derivative_X, sub_zero, mul_one, eval_mul, eval_C, eval_finsetSum, eval_pow, eval_sub, eval_X,
    Nat.add_sub_cancel, Finset.mul_sum]
  refine Finset.sum_congr rfl fun j _ => ?_
  rw [div_eq_mul_inv, mul_comm (x - t)]
  field_simp

theorem C24_of {d : Nat} {lib : Lib α} {o : VarOptions α} {c : FsalCoef α s (d + 1)} (hT : Explicit c.toTableau)
    (hP : EndConditions c.toTableau c.P) (hl : PowLaw lib) (ho : SaneOptions o) (hex : 0 ≤ c.errorExponent)
    {rhs : Rhs α n} {b : Bound α} {bo : BisectOpts α} {argsort : List α → List Nat}
    {sel : Rhs α n → α → Vec α n → Vec α n → Except Err α} {g : Buffer α n 0} {K0 : Fin (s + 2) → Vec α n}
    {itp : RkItp α n (d + 1)} {t0 : α} {y0 : Vec α n} {h first : Option α}
    {s0 st : St α n 0 (FsalAux α n s (RkItp α n (d + 1)))}
    (hs0 : fsalInit c.P o sel g K0 itp rhs t0 y0 h first = .ok s0) (hh : 0 < s0.h)
    (hs : CleanSession ⟨fsal lib o c, rhs, b⟩ bo argsort s0 st) (hlt : st.cache.ts (Buffer.iPrev 0) < st.t) :
    ∃ p : Fin n → α[X], (∀ i, (p i).natDegree ≤ d + 1) ∧ Interpolates ⟨fsal lib o c, rhs, b⟩ st ∧
      InterpolatedBy ⟨fsal lib o c, rhs, b⟩ st p ∧ MatchesEnds st.cache p := by
  obtain ⟨K, hL, hin⟩ := C26_fsal lib o c hT hl ho hex rhs b bo argsort sel g K0 itp t0 y0 h first s0 st hs0 hh hs hlt
  have hd : st.cache.t - st.cache.ts (Buffer.iPrev 0) ≠ 0 := (sub_pos.mpr hlt).ne'
  have hlastRun : ∀ r st', (Solver.interpolate ⟨fsal lib o c, rhs, b⟩ st.t).run st = some (.ok r, st') ↔
      r = .row (Buffer.iLast 0) ∧ st' = st := by
    intro r st'
    rw [interpolate_inside (S := ⟨fsal lib o c, rhs, b⟩) (k := 0) hlt.le le_rfl]
    show (rkInterp c.P st.t).run st = _ ↔ _
    rw [rkInterp_run, if_pos (by simp [St.t, Buffer.t])]
    simp [eq_comm]
  have hm : MatchesEnds st.cache fun i => densePoly (st.cache.ts (Buffer.iPrev 0))
      (st.cache.t - st.cache.ts (Buffer.iPrev 0)) (st.cache.ys (Buffer.iPrev 0) i) fun j => ∑ m, c.P m j * K m i := by
    refine ⟨fun i => ?_, fun i => ?_, fun i => ?_, fun i => ?_⟩
    · rw [densePoly_eval]; simp
    · rw [densePoly_slope _ _ _ _ _ hd, Fin.sum_univ_succ]
      simp [hP.start, ← hL.first]
    · rw [densePoly_eval, div_self hd, hL.new]
      simp only [one_pow, mul_one, rkNew]
      rw [Finset.sum_comm]
      simp only [← Finset.sum_mul, hP.stop]
    · rw [densePoly_slope _ _ _ _ _ hd, div_self hd]
      simp only [one_pow, mul_one, Finset.sum_mul]
      rw [Finset.sum_comm]
      have : ∀ m, ∑ j : Fin (d + 1), c.P m j * K m i * ((j.val + 1 : Nat) : α) =
          if m = Fin.last _ then K m i else 0 := by
        intro m
        rw [show (if m = Fin.last (s + 1) then K m i else 0) = (if m.val = s + 1 then (1 : α) else 0) * K m i by
          simp [Fin.ext_iff], ← hP.stop', Finset.sum_mul]
        exact Finset.sum_congr rfl fun j _ => by ring
      simp only [this]
      simp [hL.last]
  refine ⟨_, fun i => ?_, ?_, ?_, hm⟩
  · unfold densePoly
    refine (natDegree_add_le _ _).trans (max_le (by simp) ?_)
    refine (natDegree_C_mul_le _ _).trans (natDegree_sum_le_of_forall_le _ _ fun j _ => ?_)
    refine (natDegree_C_mul_le _ _).trans (natDegree_pow_le.trans ?_)
    have h1 : (C (st.cache.t - st.cache.ts (Buffer.iPrev 0))⁻¹ * (X - C (st.cache.ts (Buffer.iPrev 0)))).natDegree ≤ 1 :=
      (natDegree_C_mul_le _ _).trans (by simp)
    calc _ ≤ (j.val + 1) * 1 := Nat.mul_le_mul_left _ h1
      _ ≤ d + 1 := by have := j.isLt; omega
  · intro t h1 h2
    rcases h2.lt_or_eq with h2 | rfl
    · obtain ⟨r, st', hr, -⟩ := hin t h1 h2
      exact ⟨r, st', hr⟩
    · exact ⟨_, _, (hlastRun _ _).mpr ⟨rfl, rfl⟩⟩
  · intro t h1 h2 r st' hr i
    rcases h2.lt_or_eq with h2 | rfl
    · obtain ⟨r1, st1, hr1, hv⟩ := hin t h1 h2
      rw [hr] at hr1
      simp only [Option.some.injEq, Prod.mk.injEq, Except.ok.injEq] at hr1
      rw [hr1.1, hv, densePoly_eval]
      rfl
    · rw [((hlastRun _ _).mp hr).1]
      exact (hm.stop i).symm

theorem RungeKutta23_ends : EndConditions (RungeKutta23 : FsalCoef α 2 3).toTableau (RungeKutta23 : FsalCoef α 2 3).P where
  start := by intro m; fin_cases m <;> simp [RungeKutta23]
  stop := by
    intro m; fin_cases m <;> simp [RungeKutta23, withLast, Fin.sum_univ_succ, q] <;> norm_num
  stop' := by
    intro m; fin_cases m <;> simp [RungeKutta23, Fin.sum_univ_succ, q] <;> norm_num

theorem RungeKutta45_ends : EndConditions (RungeKutta45 : FsalCoef α 5 4).toTableau (RungeKutta45 : FsalCoef α 5 4).P where
  start := by intro m; fin_cases m <;> simp [RungeKutta45]
  stop := by
    intro m; fin_cases m <;> simp [RungeKutta45, withLast, Fin.sum_univ_succ, q] <;> norm_num
  stop' := by
    intro m; fin_cases m <;> simp [RungeKutta45, Fin.sum_univ_succ, q] <;> norm_num

/-- **C24** for RungeKutta23: after any history of calls without exceptions in which a step was made, `interpolate` on the last
step is, in every component, a cubic which takes the old and new state with the old and new derivative. -/
theorem C24_RungeKutta23 (lib : Lib α) (o : VarOptions α) (hl : PowLaw lib) (ho : SaneOptions o) (rhs : Rhs α n)
    (b : Bound α) (bo : BisectOpts α) (argsort : List α → List Nat)
    (sel : Rhs α n → α → Vec α n → Vec α n → Except Err α) (g : Buffer α n 0) (K0 : Fin 4 → Vec α n)
    (itp : RkItp α n 3) (t0 : α) (y0 : Vec α n) (h first : Option α)
    (s0 st : St α n 0 (FsalAux α n 2 (RkItp α n 3)))
    (hs0 : fsalInit (RungeKutta23 : FsalCoef α 2 3).P o sel g K0 itp rhs t0 y0 h first = .ok s0) (hh : 0 < s0.h)
    (hs : CleanSession ⟨fsal lib o RungeKutta23, rhs, b⟩ bo argsort s0 st)
    (hlt : st.cache.ts (Buffer.iPrev 0) < st.t) :
    ∃ p : Fin n → α[X], (∀ i, (p i).natDegree ≤ 3) ∧ Interpolates ⟨fsal lib o RungeKutta23, rhs, b⟩ st ∧
      InterpolatedBy ⟨fsal lib o RungeKutta23, rhs, b⟩ st p ∧ MatchesEnds st.cache p :=
  C24_of RungeKutta23_conditions.explicit RungeKutta23_ends hl ho (by simp [RungeKutta23, q]) hs0 hh hs hlt

/-- **C24** for RungeKutta45, with a quartic. -/
theorem C24_RungeKutta45 (lib : Lib α) (o : VarOptions α) (hl : PowLaw lib) (ho : SaneOptions o) (rhs : Rhs α n)
    (b : Bound α) (bo : BisectOpts α) (argsort : List α → List Nat)
    (sel : Rhs α n → α → Vec α n → Vec α n → Except Err α) (g : Buffer α n 0) (K0 : Fin 7 → Vec α n)
    (itp : RkItp α n 4) (t0 : α) (y0 : Vec α n) (h first : Option α)
    (s0 st : St α n 0 (FsalAux α n 5 (RkItp α n 4)))
    (hs0 : fsalInit (RungeKutta45 : FsalCoef α 5 4).P o sel g K0 itp rhs t0 y0 h first = .ok s0) (hh : 0 < s0.h)
    (hs : CleanSession ⟨fsal lib o RungeKutta45, rhs, b⟩ bo argsort s0 st)
    (hlt : st.cache.ts (Buffer.iPrev 0) < st.t) :
    ∃ p : Fin n → α[X], (∀ i, (p i).natDegree ≤ 4) ∧ Interpolates ⟨fsal lib o RungeKutta45, rhs, b⟩ st ∧
      InterpolatedBy ⟨fsal lib o RungeKutta45, rhs, b⟩ st p ∧ MatchesEnds st.cache p :=
  C24_of RungeKutta45_conditions.explicit RungeKutta45_ends hl ho (by simp [RungeKutta45, q]) hs0 hh hs hlt

/-! ### C25 -/

/-- The DOP853 dense output as a polynomial in `t`. -/
noncomputable def dopPoly (t h y : α) (F : Fin 7 → α) : α[X] :=
  let x := C h⁻¹ * (X - C t)
  C y + x * (C (F 0) + (1 - x) * (C (F 1) + x * (C (F 2) + (1 - x) * (C (F 3) + x * (C (F 4) +
      (1 - x) * (C (F 5) + x * C (F 6)))))))

theorem dopPoly_eval (t h y : α) (F : Fin 7 → α) (x : α) :
    (dopPoly t h y F).eval x = let x := (x - t) / h
      y + x * (F 0 + (1 - x) * (F 1 + x * (F 2 + (1 - x) * (F 3 + x * (F 4 +
      (1 - x) * (F 5 + x * F 6)))))) := by
  simp [dopPoly, div_eq_mul_inv, mul_comm]

theorem dopPoly_start (t h y : α) (F : Fin 7 → α) :
    (derivative (dopPoly t h y F)).eval t = h⁻¹ * (F 0 + F 1) := by
  simp [dopPoly]

theorem dopPoly_stop (t h y : α) (F : Fin 7 → α) (hh : h ≠ 0) :
    (derivative (dopPoly t h y F)).eval (t + h) = h⁻¹ * (F 0 - F 1 - F 2) := by
  simp [dopPoly, inv_mul_cancel₀ hh]
  ring

/-- **C25.** DOP853 with any coefficients (only the step itself has to be explicit), after any history of calls without
exceptions in which a step was made: what `interpolate` returns on the last step lies on a polynomial which takes the old and
new state with the old and new derivative. If the right-hand side never raises, `interpolate` answers on the whole step. -/
theorem C25_dop853 (lib : Lib α) (o : VarOptions α) (c : DopCoef α) (hT : Explicit c.toTableau)
    (hl : PowLaw lib) (ho : SaneOptions o) (hex : 0 ≤ c.errorExponent) (rhs : Rhs α n) (b : Bound α)
    (bo : BisectOpts α) (argsort : List α → List Nat)
    (sel : Rhs α n → α → Vec α n → Vec α n → Except Err α) (g : Buffer α n 0) (K0 : Fin 13 → Vec α n)
    (itp : DopItp α n) (t0 : α) (y0 : Vec α n) (h first : Option α)
    (s0 st : St α n 0 (FsalAux α n 11 (DopItp α n)))
    (hs0 : dopInit c.toDopDense o sel g K0 itp rhs t0 y0 h first = .ok s0) (hh : 0 < s0.h)
    (hs : CleanSession ⟨dop853 lib o c, rhs, b⟩ bo argsort s0 st) (hlt : st.cache.ts (Buffer.iPrev 0) < st.t) :
    (∃ p : Fin n → α[X], InterpolatedBy ⟨dop853 lib o c, rhs, b⟩ st p ∧ MatchesEnds st.cache p) ∧
    ((∀ t y, ∃ f, rhs t y = .ok f) → Interpolates ⟨dop853 lib o c, rhs, b⟩ st) := by
  obtain ⟨hg, hlast⟩ := dop_facts hT hl ho hex hs0 hh hs
  have hL := hlast hlt
  have hd : st.cache.t - st.cache.ts (Buffer.iPrev 0) ≠ 0 := (sub_pos.mpr hlt).ne'
  constructor
  · -- whatever the extra stages, the ends are matched
    have hends : ∀ Kx : Fin 16 → Vec α n, Kx 0 = st.cache.fs (Buffer.iPrev 0) →
        MatchesEnds st.cache fun i => dopPoly (st.cache.ts (Buffer.iPrev 0))
          (st.cache.t - st.cache.ts (Buffer.iPrev 0)) (st.cache.ys (Buffer.iPrev 0) i) fun r =>
            dopF c.toDopDense (st.cache.t - st.cache.ts (Buffer.iPrev 0)) (st.cache.ys (Buffer.iPrev 0))
              st.cache.y st.cache.f Kx r i := by
      intro Kx hK
      have he : st.cache.ts (Buffer.iPrev 0) + (st.cache.t - st.cache.ts (Buffer.iPrev 0)) = st.cache.t := by ring
      refine ⟨fun i => ?_, fun i => ?_, fun i => ?_, fun i => ?_⟩
      · rw [dopPoly_eval]; simp
      · rw [dopPoly_start]
        simp only [dopF, hK, Pi.sub_apply, scale]
        field_simp
        ring
      · rw [dopPoly_eval, div_self hd]
        simp [dopF]
      · refine (congrArg (fun z => eval z (derivative (dopPoly _ _ _ _))) he.symm).trans
          ((dopPoly_stop _ _ _ _ hd).trans ?_)
        simp only [dopF, hK, Pi.sub_apply, Pi.add_apply, scale, Nat.cast_ofNat]
        field_simp
        ring
    have hval : ∀ Kx : Fin 16 → Vec α n, Kx 0 = st.cache.fs (Buffer.iPrev 0) →
        (∀ t v, DopVal c.toDopDense rhs st.cache st.aux.K t v →
          st.cache.ts (Buffer.iPrev 0) < t → t < st.t → v = dopEval (dopF c.toDopDense
            (st.cache.t - st.cache.ts (Buffer.iPrev 0)) (st.cache.ys (Buffer.iPrev 0)) st.cache.y st.cache.f Kx)
            ((t - st.cache.ts (Buffer.iPrev 0)) / (st.cache.t - st.cache.ts (Buffer.iPrev 0)))
            (st.cache.ys (Buffer.iPrev 0))) →
        ∃ p : Fin n → α[X], InterpolatedBy ⟨dop853 lib o c, rhs, b⟩ st p ∧ MatchesEnds st.cache p := by
      intro Kx hK hv
      refine ⟨_, ?_, hends Kx hK⟩
      intro t h1 h2 r st' hr i
      rw [interpolate_inside (S := ⟨dop853 lib o c, rhs, b⟩) (k := 0) h1 h2] at hr
      have hv1 := (dopInterp_iff c.toDopDense rhs t st (r.deref st.cache) hg.coh h1 h2).mp ⟨r, st', hr, rfl⟩
      rcases h2.lt_or_eq with h2' | rfl
      · rcases h1.lt_or_eq with h1' | rfl
        · rw [hv t _ hv1 h1' h2', dopEval_apply, dopPoly_eval]
        · rw [show (dopPoly _ _ _ _).eval _ = _ from (hends Kx hK).start i]
          unfold DopVal at hv1
          rw [if_neg (show ¬ st.cache.ts (Buffer.iPrev 0) = st.cache.ts (Buffer.iLast 0) from h2'.ne), if_pos rfl] at hv1
          rw [hv1]
      · have := (hends Kx hK).stop i
        unfold DopVal at hv1
        rw [if_pos (show st.t = st.cache.ts (Buffer.iLast 0) from rfl)] at hv1
        rw [hv1]
        exact this.symm
    by_cases hx : ∃ Kx, DopStages c.toDopDense rhs (st.cache.ts (Buffer.iPrev 0))
        (st.cache.ts (Buffer.iLast 0) - st.cache.ts (Buffer.iPrev 0)) (st.cache.ys (Buffer.iPrev 0)) st.aux.K Kx
    · obtain ⟨Kx, hx⟩ := hx
      refine hval Kx (by rw [hx.1 0 (by decide), ← hL.first]; rfl) fun t v hv h1 h2 => ?_
      unfold DopVal at hv
      rw [if_neg (show ¬ t = st.cache.ts (Buffer.iLast 0) from h2.ne), if_neg h1.ne'] at hv
      obtain ⟨x, Kx', hx', hK, hv⟩ := hv
      rw [pyDiv_ne (show st.cache.ts (Buffer.iLast 0) - st.cache.ts (Buffer.iPrev 0) ≠ 0 from hd),
        Except.ok.injEq] at hx'
      rw [hv, ← hx', dopStages_unique hK hx]
      rfl
    · refine hval (fun _ => st.cache.fs (Buffer.iPrev 0)) rfl fun t v hv h1 h2 => ?_
      unfold DopVal at hv
      rw [if_neg (show ¬ t = st.cache.ts (Buffer.iLast 0) from h2.ne), if_neg h1.ne'] at hv
      obtain ⟨x, Kx', -, hK, -⟩ := hv
      exact absurd ⟨Kx', hK⟩ hx
  · intro hf t h1 h2
    obtain ⟨r, st', hr⟩ := interp_total (S := ⟨dop853 lib o c, rhs, b⟩) (k := 0)
      (Or.inr ⟨lib, o, _, .dop853 c⟩) hf h1 h2
    exact ⟨r, st', by rw [interpolate_inside (S := ⟨dop853 lib o c, rhs, b⟩) (k := 0) h1 h2]; exact hr⟩

end field

/-! ### The hypotheses of C24-C26 are met -/

/-- A RungeKutta23 on `y' = t` which made one step to `t = 1`. -/
example (sel : Rhs ℝ 1 → ℝ → Vec ℝ 1 → Vec ℝ 1 → Except Err ℝ) (g : Buffer ℝ 1 0) (bo : BisectOpts ℝ)
    (argsort : List ℝ → List Nat) : ∃ st, ∃ p : Fin 1 → ℝ[X], CleanSession Demo.rk23 bo argsort (rk23Start (fun t => t) 1) st ∧
      st.t = 1 ∧ InterpolatedBy Demo.rk23 st p ∧ MatchesEnds st.cache p := by
  obtain ⟨st, h1, h2, h3⟩ := Demo.rk23_step
  have hs := Demo.clean_step (bo := bo) (argsort := argsort) (.start _) (by trivial) h1
  obtain ⟨p, -, -, h4, h5⟩ := C24_RungeKutta23 Demo.realLib coarse Demo.realLib_powLaw Demo.coarse_sane _ .inf bo argsort
    sel g _ _ 0 _ none (some 1) _ st (rk23Start_init coarse (Or.inl rfl) rfl sel g (fun t => t) 1) (one_pos (α := ℝ)) hs
    (by rw [h3, h2]; exact one_pos)
  exact ⟨st, p, hs, h2, h4, h5⟩

/-- A DOP853 on a pulse which made one step to `t = 1`. -/
example (sel : Rhs ℝ 1 → ℝ → Vec ℝ 1 → Vec ℝ 1 → Except Err ℝ) (g : Buffer ℝ 1 0) (K : Fin 13 → Vec ℝ 1)
    (itp : DopItp ℝ 1) (bo : BisectOpts ℝ) (argsort : List ℝ → List Nat) :
    ∃ s0 st, ∃ p : Fin 1 → ℝ[X], CleanSession Demo.dop bo argsort s0 st ∧
      st.t = 1 ∧ InterpolatedBy Demo.dop st p ∧ Interpolates Demo.dop st ∧ MatchesEnds st.cache p := by
  obtain ⟨s0, hi, hh, ht, -, hf⟩ := Demo.dop_init sel g K itp
  obtain ⟨st, h1, h2, h3⟩ := Demo.dop_step s0 hh ht hf
  have hs := Demo.clean_step (bo := bo) (argsort := argsort) (.start _) (by trivial) h1
  obtain ⟨⟨p, h4, h5⟩, h6⟩ := C25_dop853 Demo.realLib coarse DOP853 DOP853_explicit Demo.realLib_powLaw Demo.coarse_sane
    (by simp [DOP853, q]) _ .inf bo argsort sel g K itp 0 _ none (some 1) s0 st hi (by rw [hh]; exact one_pos) hs
    (by rw [h3, h2]; exact one_pos)
  exact ⟨s0, st, p, hs, h2, h4, h6 (Demo.timeRhs_total _), h5⟩

-- C26: the same two solvers; the answer at `t = 1/2` is given by the formulas.
example (sel : Rhs ℝ 1 → ℝ → Vec ℝ 1 → Vec ℝ 1 → Except Err ℝ) (g : Buffer ℝ 1 0) : ∃ st K r st',
    LastStages (RungeKutta23 : FsalCoef ℝ 2 3).toTableau (timeRhs fun t => t) st.cache K ∧
    (Solver.interpolate Demo.rk23 (1 / 2)).run st = some (.ok r, st') ∧
    ∀ i, r.deref st.cache i = st.cache.ys (Buffer.iPrev 0) i + ∑ j : Fin 3,
      (∑ m, (RungeKutta23 : FsalCoef ℝ 2 3).P m j * K m i) * (1 / 2) ^ (j.val + 1) := by
  obtain ⟨st, h1, h2, h3⟩ := Demo.rk23_step
  have hs := Demo.clean_step (bo := ⟨1, 1, 1⟩) (argsort := fun _ => []) (.start _) (by trivial) h1
  obtain ⟨K, h4, h5⟩ := C26_fsal Demo.realLib coarse RungeKutta23 RungeKutta23_conditions.explicit Demo.realLib_powLaw
    Demo.coarse_sane (by simp [RungeKutta23, q]) _ .inf _ _ sel g _ _ 0 _ none (some 1) _ st
    (rk23Start_init coarse (Or.inl rfl) rfl sel g (fun t => t) 1) (one_pos (α := ℝ)) hs (by rw [h3, h2]; exact one_pos)
  obtain ⟨r, st', h6, h7⟩ := h5 (1 / 2) (by rw [h3]; norm_num) (by rw [h2]; norm_num)
  refine ⟨st, K, r, st', h4, h6, fun i => ?_⟩
  rw [h7 i, h3, h2]
  norm_num

example (sel : Rhs ℝ 1 → ℝ → Vec ℝ 1 → Vec ℝ 1 → Except Err ℝ) (g : Buffer ℝ 1 0) (K : Fin 13 → Vec ℝ 1)
    (itp : DopItp ℝ 1) : ∃ s0 st r st' K Kx, Takes Demo.dop s0 st ∧
      (Solver.interpolate Demo.dop (1 / 2)).run st = some (.ok r, st') ∧
      LastStages (DOP853 : DopCoef ℝ).toTableau (timeRhs Demo.pulse) st.cache K ∧
      ExtraStages (DOP853 : DopCoef ℝ).toDopDense (timeRhs Demo.pulse) st.cache K Kx := by
  obtain ⟨s0, hi, hh, ht, -, hf⟩ := Demo.dop_init sel g K itp
  obtain ⟨st, h1, h2, h3⟩ := Demo.dop_step s0 hh ht hf
  have hs := Demo.clean_step (bo := ⟨1, 1, 1⟩) (argsort := fun _ => []) (.start _) (by trivial) h1
  obtain ⟨K1, h4, h5⟩ := C26_dop853 Demo.realLib coarse DOP853 DOP853_explicit Demo.realLib_powLaw
    Demo.coarse_sane (by simp [DOP853, q]) _ .inf _ _ sel g K itp 0 _ none (some 1) s0 st hi (by rw [hh]; exact one_pos) hs
    (by rw [h3, h2]; exact one_pos)
  obtain ⟨-, h6⟩ := C25_dop853 Demo.realLib coarse DOP853 DOP853_explicit Demo.realLib_powLaw Demo.coarse_sane
    (by simp [DOP853, q]) _ .inf _ _ sel g K itp 0 _ none (some 1) s0 st hi (by rw [hh]; exact one_pos) hs
    (by rw [h3, h2]; exact one_pos)
  obtain ⟨r, st', h7⟩ := h6 (Demo.timeRhs_total _) (1 / 2) (by rw [h3]; norm_num) (by rw [h2]; norm_num)
  obtain ⟨Kx, h8, -⟩ := h5 (1 / 2) (by rw [h3]; norm_num) (by rw [h2]; norm_num) r st' h7
  exact ⟨s0, st, r, st', K1, Kx, h1, h7, h4, h8⟩

end Nbkode
