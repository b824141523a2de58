import Verif.Spec.Termination
import Verif.Proofs.Loops
import Verif.Proofs.MethodShape
import Verif.Proofs.History
import Verif.Proofs.EventsApi
import Mathlib.Algebra.Order.Archimedean.Basic

/-! Which calls come back, given that single steps do and make progress. -/

set_option autoImplicit false
set_option linter.unusedSectionVars false

namespace Nbkode
open Py Spec Solver

section calculus
variable {σ τ A B : Type}

theorem Halts.pure (a : A) (s : σ) : Halts (Pure.pure a : Py σ A) s := ⟨_, _, rfl⟩
theorem Halts.throw (e : Err) (s : σ) : Halts (throw e : Py σ A) s := ⟨_, _, rfl⟩
theorem Halts.get (s : σ) : Halts (get : Py σ σ) s := ⟨_, _, rfl⟩
theorem Halts.ofExcept (x : Except Err A) (s : σ) : Halts (Py.ofExcept x : Py σ A) s := ⟨_, _, rfl⟩
theorem Halts.modify (f : σ → σ) (s : σ) : Halts (modify f : Py σ PUnit) s := ⟨_, _, rfl⟩

theorem Halts.bind {p : Py σ A} {f : A → Py σ B} {s : σ} (h : Halts p s)
    (hf : ∀ a s', p.run s = some (.ok a, s') → Halts (f a) s') : Halts (p >>= f) s := by
  obtain ⟨r, s', h⟩ := h
  unfold Halts
  rw [run_bind, h]
  cases r with
  | error e => exact ⟨_, _, rfl⟩
  | ok a => exact hf a s' h

theorem Halts.ite {c : Prop} [Decidable c] {p q : Py σ A} {s : σ} (hp : c → Halts p s)
    (hq : ¬ c → Halts q s) : Halts (if c then p else q) s := by
  split
  · exact hp ‹_›
  · exact hq ‹_›

theorem Halts.zoom {g : σ → τ} {st : τ → σ → σ} {p : Py τ A} {s : σ} (h : Halts p (g s)) :
    Halts (Py.zoom g st p) s := by
  obtain ⟨r, s', h⟩ := h
  unfold Halts
  rw [run_zoom, h]
  exact ⟨_, _, rfl⟩

/-- Break a program up into its parts. -/
macro "returns" : tactic => `(tactic| repeat' first
  | with_reducible exact Halts.pure _ _
  | with_reducible exact Halts.throw _ _
  | with_reducible exact Halts.get _
  | with_reducible exact Halts.ofExcept _ _
  | with_reducible exact Halts.modify _ _
  | (with_reducible refine Halts.ite (fun _ => ?_) fun _ => ?_)
  | (with_reducible refine Halts.bind ?_ fun _ _ _ => ?_)
  | (with_reducible refine Halts.zoom ?_)
  | (dsimp -failIfUnchanged only; with_reducible refine Halts.ite (fun _ => ?_) fun _ => ?_)
  | (dsimp -failIfUnchanged only; with_reducible refine Halts.bind ?_ fun _ _ _ => ?_)
  | split)

end calculus

section
variable {α : Type}
variable [Add α] [Sub α] [Mul α] [Div α] [Neg α] [Zero α] [One α] [NatCast α] [BEq α]
variable [LT α] [DecidableLT α] [LE α] [DecidableLE α]
variable {n k : Nat} {X : Type}

/-! ### Single steps and interpolation -/

theorem erkBody_returns {s : Nat} (T : Tableau α s) (rhs : Rhs α n) (st : St α n 0 (ErkAux α n s)) :
    Halts (erkBody T rhs) st := by
  unfold erkBody erkFixedStep
  refine Halts.bind (Halts.bind (Halts.get _) fun st0 s1 h => Halts.bind (Halts.zoom ?_)
    fun _ s2 _ => Halts.bind (Halts.get _) fun _ s3 _ => Halts.pure _ _) ?_
  · exact stages_total _ _ _ _ _ _ _ _
  · intro a s' _
    exact Halts.bind (Halts.ofExcept _ _) fun _ _ _ => Halts.modify _ _

theorem Spec.IsFixed.body_returns {M : Method α n k X} (hM : IsFixed M) (rhs : Rhs α n) (s : St α n k X) :
    Halts (M.body rhs) s := by
  cases hM with
  | explicitMultistep c =>
    show Halts (explicitMultistepBody c rhs) s
    unfold Halts
    rw [explicitMultistepBody_run]
    split <;> exact ⟨_, _, rfl⟩
  | implicitMultistep lib zo c =>
    show Halts (implicitMultistepBody lib zo c rhs) s
    unfold Halts
    rw [implicitMultistepBody_run]
    split
    · exact ⟨_, _, rfl⟩
    · split <;> exact ⟨_, _, rfl⟩
  | erk T => exact erkBody_returns T rhs s

theorem hermite_returns (t : α) (s : St α n k X) : Halts (hermiteInterp t) s := by
  unfold hermiteInterp
  refine Halts.bind (Halts.get _) fun a s' _ => ?_
  refine Halts.ite (fun _ => Halts.pure _ _) fun _ => ?_
  exact Halts.bind (Halts.ofExcept _ _) fun _ _ _ => Halts.pure _ _

theorem rkInterp_returns {s d : Nat} (P : Fin (s + 2) → Fin d → α) (t : α)
    (st : St α n 0 (FsalAux α n s (RkItp α n d))) : Halts (rkInterp P t) st := by
  unfold rkInterp rkUpdate
  returns

theorem dopUpdate_returns (d : DopDense α) (rhs : Rhs α n) (st : St α n 0 (FsalAux α n 11 (DopItp α n))) :
    Halts (dopUpdate d rhs) st := by
  unfold dopUpdate
  returns
  exact dopExtra_total _ _ _ _ _ _ _

theorem dopInterp_returns (d : DopDense α) (rhs : Rhs α n) (t : α) (st : St α n 0 (FsalAux α n 11 (DopItp α n))) :
    Halts (dopInterp d rhs t) st := by
  unfold dopInterp
  returns
  exact dopUpdate_returns _ _ _

theorem Spec.IsLibrary.interp_returns {M : Method α n k X} (hM : IsLibrary M) (rhs : Rhs α n) (t : α)
    (s : St α n k X) : Halts (M.interp rhs t) s := by
  rcases hM with hM | ⟨lib, o, ex, hM⟩
  · cases hM with
    | explicitMultistep c => exact hermite_returns t s
    | implicitMultistep lib zo c => exact hermite_returns t s
    | erk T => exact hermite_returns t s
  · cases hM with
    | fsal c => exact rkInterp_returns c.P t s
    | dop853 c => exact dopInterp_returns _ rhs t s

/-! ### Events -/

section events
variable {interp : α → Py (St α n k X) (Ref α n k)} (hi : ∀ t s, Halts (interp t) s)
include hi

theorem eventAtSol_returns (func : α → Vec α n → α) (t : α) (s : St α n k X) :
    Halts (eventAtSol func interp t) s :=
  Halts.bind (hi t s) fun _ _ _ => Halts.bind (Halts.get _) fun _ _ _ => Halts.pure _ _

omit hi in
theorem bisectLoop_returns {σ : Type} {fn : α → Py σ α} (hf : ∀ t s, Halts (fn t) s) (tol rtol : α) (m : Nat) :
    ∀ left yl right mid (s : σ), Halts (bisectLoop fn tol rtol m left yl right mid) s := by
  induction m with
  | zero =>
    intro left yl right mid s
    rw [bisectLoop.eq_def]
    cases mid <;> returns
  | succ m ih =>
    intro left yl right mid s
    rw [bisectLoop]
    returns
    · exact hf _ _
    · exact ih _ _ _ _ _
    · exact ih _ _ _ _ _

omit hi in
theorem bisect_returns {σ : Type} {fn : α → Py σ α} (hf : ∀ t s, Halts (fn t) s) (left right tol : α) (m : Nat)
    (rtol : α) (s : σ) : Halts (bisect fn left right tol m rtol) s := by
  unfold bisect
  returns
  all_goals first | exact hf _ _ | exact bisectLoop_returns hf _ _ _ _ _ _ _ _

theorem evaluate_returns (bo : BisectOpts α) (ev : Event α n k) (s : St α n k X) :
    Halts (ev.evaluate bo interp) s := by
  unfold Event.evaluate
  returns
  all_goals first | exact hi _ _ | exact bisect_returns (eventAtSol_returns hi _) _ _ _ _ _ _

theorem handlerLoop_returns (bo : BisectOpts α) (evs : List (Event α n k)) :
    ∀ (term : Bool) (last : Option (α × Ref α n k)) (s : St α n k X),
      Halts (handlerLoop bo interp evs term last) s := by
  induction evs with
  | nil => intro term last s; exact Halts.pure _ _
  | cons ev evs ih =>
    intro term last s
    unfold handlerLoop
    exact Halts.bind (evaluate_returns hi bo ev s) fun _ _ _ => Halts.bind (ih _ _ _) fun _ _ _ => Halts.pure _ _

theorem handler_returns (bo : BisectOpts α) (eh : EventHandler α n k) (s : St α n k X) :
    Halts (eh.evaluate bo interp) s :=
  Halts.bind (handlerLoop_returns hi bo _ _ _ s) fun _ _ _ => Halts.pure _ _

end events
end

/-! ### Loops -/

section loops
variable {α : Type} [LinearOrder α]
variable [Add α] [Sub α] [Mul α] [Div α] [Neg α] [Zero α] [One α] [NatCast α] [BEq α]
variable {n k : Nat} {X : Type}

/-- In the states satisfying `I`, steps come back and stay in `I`, and only finitely many of them in a row begin before a given
time satisfying `B`. -/
structure Ranked (S : Solver α n k X) (I : St α n k X → Prop) (B : α → Prop) : Prop where
  ahead : ∀ s, I s → s.t ≤ s.t + s.h
  returns : ∀ s, I s → Halts (S.method.body S.rhs) s
  step : ∀ s s', I s → Takes S s s' → I s'
  forward : ∀ s s', I s → Takes S s s' → s.t ≤ s'.t
  rank : ∀ u, B u → ∃ N : α → Nat, Antitone N ∧ ∀ s s', I s → Takes S s s' → s.t ≤ u → N s'.t < N s.t
  same : ∀ s s', I s → s'.cache = s.cache → s'.h = s.h → I s'

variable {S : Solver α n k X} {I : St α n k X → Prop} {B : α → Prop}

theorem Ranked.pstep (P : Ranked S I B) (b : Bound α) {s : St α n k X} (hs : I s) :
    Halts (S.pstep b) s := by
  unfold Halts
  rw [pstep_run]
  split
  · exact ⟨_, _, rfl⟩
  · obtain ⟨r, s', h⟩ := P.returns s hs
    rw [h]
    cases r <;> exact ⟨_, _, rfl⟩

theorem Ranked.stepsLoop (P : Ranked S I B) {u : α} (hu : B u) {s : St α n k X} (hs : I s) :
    Halts (S.stepsLoop (.fin u)) s := by
  obtain ⟨N, -, hN⟩ := P.rank u hu
  induction hm : N s.t using Nat.strong_induction_on generalizing s with
  | _ m ih =>
    unfold Halts
    rw [stepsLoop_run]
    obtain ⟨r, s1, h⟩ := P.pstep (.fin u) hs
    rw [h]
    cases r with
    | error e => exact ⟨_, _, rfl⟩
    | ok c =>
      cases c with
      | false => exact ⟨_, _, rfl⟩
      | true =>
        obtain ⟨hfit, ht⟩ := pstep_true.mp h
        obtain ⟨r2, s2, h2⟩ := ih _ (hm ▸ hN _ _ hs ht (by
          simp only [Fits, NotBeyond] at hfit
          exact (P.ahead s hs).trans (not_lt.mp hfit))) (P.step _ _ hs ht) rfl
        simp only [andThen_ok, if_true, h2]
        cases r2 <;> exact ⟨_, _, rfl⟩

theorem Ranked.skipLoop (P : Ranked S I B) {u : α} (hu : B u) {s : St α n k X} (hs : I s) :
    Halts (S.skipLoop (.fin u)) s := by
  obtain ⟨N, -, hN⟩ := P.rank u hu
  induction hm : N s.t using Nat.strong_induction_on generalizing s with
  | _ m ih =>
    unfold Halts
    rw [skipLoop_run]
    obtain ⟨r, s1, h⟩ := P.pstep (.fin u) hs
    rw [h]
    cases r with
    | error e => exact ⟨_, _, rfl⟩
    | ok c =>
      cases c with
      | false => exact ⟨_, _, rfl⟩
      | true =>
        obtain ⟨hfit, ht⟩ := pstep_true.mp h
        obtain ⟨r2, s2, h2⟩ := ih _ (hm ▸ hN _ _ hs ht (by
          simp only [Fits, NotBeyond] at hfit
          exact (P.ahead s hs).trans (not_lt.mp hfit))) (P.step _ _ hs ht) rfl
        simp only [andThen_ok, if_true, h2]
        exact ⟨_, _, rfl⟩

theorem Ranked.kept (P : Ranked S I B) (hM : IsLibrary S.method) {A : Type} {p : Py (St α n k X) A}
    (hp : Moves (Did S) (Fail S) p) {s s' : St α n k X} {a : A} (hs : I s) (h : p.run s = some (.ok a, s')) :
    I s' ∧ s.t ≤ s'.t := by
  replace h : Relation.ReflTransGen (Did S) s s' := hp _ _ _ h
  induction h with
  | refl => exact ⟨hs, le_refl _⟩
  | tail _ hd ih =>
    cases hd with
    | body b hb hf h =>
      have h1 := P.step _ _ ih.1 h
      exact ⟨h1, ih.2.trans (P.forward _ _ ih.1 h)⟩
    | interp t h =>
      obtain ⟨h1, h2⟩ := hM.shaped.interp _ _ _ _ _ h
      refine ⟨P.same _ _ ih.1 h1 h2, ih.2.trans (le_of_eq ?_)⟩
      show _ = Buffer.t _
      rw [h1]
      rfl

theorem Ranked.nstepsLoop (P : Ranked S I B) (hM : IsLibrary S.method) {b : Bound α} (m : Nat) :
    ∀ {s : St α n k X}, I s → Halts (S.nstepsLoop b m) s := by
  induction m with
  | zero => intro s hs; exact Halts.pure _ _
  | succ m ih =>
    intro s hs
    rw [Solver.nstepsLoop]
    refine Halts.bind (P.pstep b hs) fun c s1 h1 => Halts.ite (fun _ => Halts.pure _ _) fun hc => ?_
    have hc : c = true := by simpa using hc
    subst hc
    obtain ⟨_, ht⟩ := pstep_true.mp h1
    refine Halts.bind (Halts.get _) fun a s2 h2 => ?_
    cases h2
    exact Halts.bind (ih (P.step _ _ hs ht)) fun _ _ _ => Halts.pure _ _

theorem Ranked.nskipLoop (P : Ranked S I B) (hM : IsLibrary S.method) {b : Bound α} (m : Nat) :
    ∀ {s : St α n k X}, I s → Halts (S.nskipLoop b m) s := by
  induction m with
  | zero => intro s hs; exact Halts.pure _ _
  | succ m ih =>
    intro s hs
    rw [Solver.nskipLoop]
    refine Halts.bind (P.pstep b hs) fun c s1 h1 => Halts.ite (fun _ => Halts.pure _ _) fun hc => ?_
    have hc : c = true := by simpa using hc
    subst hc
    obtain ⟨_, ht⟩ := pstep_true.mp h1
    exact ih (P.step _ _ hs ht)

theorem checkTime_returns (u : Bound α) (s : St α n k X) : Halts (S.checkTime u) s := by
  unfold checkTime
  returns

theorem checkTime_state {u : Bound α} {s s' : St α n k X} {r : Except Err Unit}
    (h : (S.checkTime u).run s = some (r, s')) : s' = s := by
  unfold checkTime at h
  split at h <;> cases h <;> rfl

/-- The requested limit is a number. -/
theorem Ranked.step_returns (P : Ranked S I B) (hM : IsLibrary S.method) (m : Option Int)
    (u : Option (Bound α)) (hu : m = none → u ≠ some .inf) (hB : ∀ x, u = some (.fin x) → B x) {s : St α n k X} (hs : I s) :
    Halts (S.step m u) s := by
  unfold Solver.step
  refine Halts.bind (Halts.get _) fun a s1 h1 => ?_
  cases h1
  refine Halts.ite (fun _ => Halts.pure _ _) fun _ => ?_
  split
  · refine Halts.bind (P.pstep _ hs) fun c s1 h1 => ?_
    returns
  · refine Halts.bind ?_ fun c s1 h1 => ?_
    · unfold nsteps
      exact Halts.ite (fun _ => Halts.throw _ _) fun _ => P.nstepsLoop hM _ hs
    · returns
  · rename_i u _
    refine Halts.bind (checkTime_returns _ _) fun c s1 h1 => ?_
    rw [checkTime_state h1]
    cases u with
    | inf => exact absurd rfl (hu rfl)
    | fin u => exact Halts.bind (P.stepsLoop (hB u rfl) hs) fun _ _ _ => Halts.pure _ _
  · refine Halts.bind (checkTime_returns _ _) fun c s1 h1 => ?_
    rw [checkTime_state h1]
    refine Halts.bind ?_ fun c s1 h1 => ?_
    · unfold nsteps
      exact Halts.ite (fun _ => Halts.throw _ _) fun _ => P.nstepsLoop hM _ hs
    · returns

theorem Ranked.skip_returns (P : Ranked S I B) (hM : IsLibrary S.method) (m : Option Int)
    (u : Option (Bound α)) (hu : m = none → u ≠ some .inf) (hB : ∀ x, u = some (.fin x) → B x) {s : St α n k X} (hs : I s) :
    Halts (S.skip m u) s := by
  unfold Solver.skip
  refine Halts.bind (Halts.get _) fun a s1 h1 => ?_
  cases h1
  refine Halts.ite (fun _ => Halts.pure _ _) fun _ => ?_
  split
  · exact Halts.bind (P.nskipLoop hM _ hs) fun c s1 h1 => Halts.pure _ _
  · refine Halts.bind (P.nskipLoop hM _ hs) fun c s1 h1 => ?_
    returns
  · rename_i u _
    refine Halts.bind (checkTime_returns _ _) fun c s1 h1 => ?_
    rw [checkTime_state h1]
    cases u with
    | inf => exact absurd rfl (hu rfl)
    | fin u => exact P.skipLoop (hB u rfl) hs
  · refine Halts.bind (checkTime_returns _ _) fun c s1 h1 => ?_
    rw [checkTime_state h1]
    exact Halts.bind (P.nskipLoop hM _ hs) fun c s1 h1 => Halts.pure _ _

theorem Ranked.advance_returns (P : Ranked S I B) (b : Bound α) {ti : α} (hti : B ti) {s : St α n k X} (hs : I s) :
    Halts (S.advance b ti) s := by
  obtain ⟨N, -, hN⟩ := P.rank ti hti
  induction hm : N s.t using Nat.strong_induction_on generalizing s with
  | _ m ih =>
    unfold Halts
    rw [advance_run]
    split
    · rename_i hlt
      obtain ⟨r, s1, h⟩ := P.pstep b hs
      rw [h]
      cases r with
      | error e => exact ⟨_, _, rfl⟩
      | ok c =>
        cases c with
        | false => exact ⟨_, _, rfl⟩
        | true =>
          obtain ⟨_, ht⟩ := pstep_true.mp h
          exact ih _ (hm ▸ hN _ _ hs ht (le_of_lt hlt)) (P.step _ _ hs ht) rfl
    · exact ⟨_, _, rfl⟩

theorem Ranked.advanceEvents_returns (P : Ranked S I B) (hM : IsLibrary S.method) (bo : BisectOpts α)
    (b : Bound α) {ti : α} (hti : B ti) (eh : EventHandler α n k) {s : St α n k X} (hs : I s) :
    Halts (S.advanceEvents bo b ti eh) s := by
  obtain ⟨N, hanti, hN⟩ := P.rank ti hti
  induction hm : N s.t using Nat.strong_induction_on generalizing s eh with
  | _ m ih =>
    unfold Halts
    rw [advanceEvents_run]
    split
    · rename_i hlt
      obtain ⟨r, s1, h⟩ := P.pstep b hs
      rw [h]
      cases r with
      | error e => exact ⟨_, _, rfl⟩
      | ok c =>
        cases c with
        | false => exact ⟨_, _, rfl⟩
        | true =>
          obtain ⟨_, ht⟩ := pstep_true.mp h
          have hs1 := P.step _ _ hs ht
          obtain ⟨r, s2, h2⟩ := handler_returns (hM.interp_returns S.rhs) bo eh s1
          simp only [andThen_ok, if_true]
          rw [show (eh.evaluate bo S.interpAt).run s1 = _ from h2]
          cases r with
          | error e => exact ⟨_, _, rfl⟩
          | ok p =>
            simp only [andThen_ok]
            split
            · exact ⟨_, _, rfl⟩
            · obtain ⟨hs2, hle⟩ := P.kept hM (moves_handler bo eh) hs1 h2
              exact ih _ (lt_of_le_of_lt (hanti hle) (hm ▸ hN _ _ hs ht (le_of_lt hlt))) p.1 hs2 rfl
    · exact ⟨_, _, rfl⟩

theorem Ranked.runEval_returns (P : Ranked S I B) (hM : IsLibrary S.method) (ts : List α) (hB : ∀ x ∈ ts, B x) :
    ∀ {s : St α n k X}, I s → Halts (S.runEval S.tBound ts) s := by
  induction ts with
  | nil => intro s hs; exact Halts.pure _ _
  | cons t ts ih =>
    intro s hs
    rw [Solver.runEval]
    refine Halts.bind (P.advance_returns _ (hB t List.mem_cons_self) hs) fun c s1 h1 => Halts.ite (fun _ => ?_) fun _ => Halts.pure _ _
    have hs1 := (P.kept hM (moves_advance (allowed_self _) t) hs h1).1
    refine Halts.bind (hM.interp_returns S.rhs t s1) fun r s2 h2 => ?_
    have hs2 := (P.kept hM (moves_interpAt t) hs1 h2).1
    refine Halts.bind (Halts.get _) fun a s3 h3 => ?_
    cases h3
    exact Halts.bind (ih (fun x hx => hB x (List.mem_cons_of_mem _ hx)) hs2) fun _ _ _ => Halts.pure _ _

theorem Ranked.runEvalEvents_returns (P : Ranked S I B) (hM : IsLibrary S.method) (bo : BisectOpts α)
    (ts : List α) (hB : ∀ x ∈ ts, B x) : ∀ (eh : EventHandler α n k) {s : St α n k X}, I s →
      Halts (S.runEvalEvents bo S.tBound ts eh) s := by
  induction ts with
  | nil => intro eh s hs; exact Halts.pure _ _
  | cons t ts ih =>
    intro eh s hs
    rw [Solver.runEvalEvents]
    refine Halts.bind (P.advanceEvents_returns hM bo _ (hB t List.mem_cons_self) eh hs) fun p s1 h1 => ?_
    have hs1 := (P.kept hM (moves_advanceEvents (allowed_self _) bo t eh) hs h1).1
    obtain ⟨eh', res⟩ := p
    cases res with
    | reached =>
      refine Halts.bind (hM.interp_returns S.rhs t s1) fun r s2 h2 => ?_
      have hs2 := (P.kept hM (moves_interpAt t) hs1 h2).1
      refine Halts.bind (Halts.get _) fun a s3 h3 => ?_
      cases h3
      exact Halts.bind (ih (fun x hx => hB x (List.mem_cons_of_mem _ hx)) _ hs2) fun _ _ _ => Halts.pure _ _
    | refused => exact Halts.pure _ _
    | terminated =>
      refine Halts.bind (Halts.get _) fun a s3 h3 => ?_
      split <;> returns

theorem interpolateAll_returns (hM : IsLibrary S.method) (ts : List α) :
    ∀ s : St α n k X, Halts (S.interpolateAll ts) s := by
  induction ts with
  | nil => intro s; exact Halts.pure _ _
  | cons t ts ih =>
    intro s
    rw [Solver.interpolateAll]
    refine Halts.bind ?_ fun _ s1 _ => Halts.bind (ih s1) fun _ _ _ => Halts.pure _ _
    unfold interpolate
    returns
    all_goals exact hM.interp_returns S.rhs t _

/-- Comes back from every good state, by moves that keep it good. -/
def Safe (S : Solver α n k X) (I : St α n k X → Prop) {A : Type} (p : Py (St α n k X) A) : Prop :=
  Moves (Did S) (Fail S) p ∧ ∀ s, I s → Halts p s

theorem Ranked.safe_bind (P : Ranked S I B) (hM : IsLibrary S.method) {A B : Type} {p : Py (St α n k X) A}
    {f : A → Py (St α n k X) B} (hp : Safe S I p) (hf : ∀ a, Safe S I (f a)) : Safe S I (p >>= f) := by
  refine ⟨moves_bind hp.1 fun a => (hf a).1, fun s hs => ?_⟩
  exact Halts.bind (hp.2 s hs) fun a s' h => (hf a).2 s' (P.kept hM hp.1 hs h).1

theorem Safe.ite {A : Type} {c : Prop} [Decidable c] {p q : Py (St α n k X) A} (hp : Safe S I p) (hq : Safe S I q) :
    Safe S I (if c then p else q) := by
  split <;> assumption

theorem Safe.pure {A : Type} (a : A) : Safe S I (Pure.pure a : Py (St α n k X) A) :=
  ⟨moves_pure _, fun _ _ => Halts.pure _ _⟩

theorem Safe.throw {A : Type} (e : Err) : Safe S I (throw e : Py (St α n k X) A) :=
  ⟨moves_throw _, fun _ _ => Halts.throw _ _⟩

theorem Safe.get : Safe S I (get : Py (St α n k X) _) := ⟨moves_get, fun _ _ => Halts.get _⟩

theorem Safe.ofExcept {A : Type} (x : Except Err A) : Safe S I (Py.ofExcept x : Py (St α n k X) A) :=
  ⟨moves_ofExcept _, fun _ _ => Halts.ofExcept _ _⟩

theorem Safe.checkTime (u : Bound α) : Safe S I (S.checkTime u) := by
  unfold Solver.checkTime
  exact Safe.ite (Safe.throw _) (Safe.pure _)

theorem fancyIndex_mem {A : Type} {a out : List A} {idx : List Nat} (h : fancyIndex a idx = .ok out) : ∀ x ∈ out, x ∈ a := by
  unfold fancyIndex at h
  induction idx generalizing out with
  | nil => simp only [List.mapM_nil, pure, Except.pure, Except.ok.injEq] at h; subst h; simp
  | cons i idx ih =>
    rw [List.mapM_cons] at h
    cases hi : a[i]? with
    | none => rw [hi] at h; cases h
    | some v =>
      rw [hi] at h
      simp only [bind, Except.bind] at h
      split at h
      · cases h
      · rename_i l hl
        simp only [pure, Except.pure, Except.ok.injEq] at h
        subst h
        intro x hx
        rcases List.mem_cons.mp hx with rfl | hx
        · exact List.mem_of_getElem? hi
        · exact ih hl x hx

theorem Ranked.runEvents_returns (P : Ranked S I B) (hM : IsLibrary S.method) (bo : BisectOpts α)
    (argsort : List α → List Nat) (ts : List α) (hB : ∀ x ∈ ts, B x) (es : Option (List (EventSpec α n))) {s : St α n k X}
    (hs : I s) : Halts (S.runEvents bo argsort ts es) s := by
  unfold runEvents
  dsimp only
  have halts : ∀ {p : Py (St α n k X) (RunOut α n k)} {s : St α n k X}, Safe S I p → I s → Halts p s := fun h => h.2 _
  refine Halts.ite (fun _ => Halts.bind (Halts.pure _ _) fun t s1 ht => ?_) fun _ =>
    Halts.bind (Halts.ofExcept _ _) fun t s1 ht => ?_
  all_goals
    have hmem : (∀ x ∈ t, B x) ∧ s1 = s := by
      first
        | (cases ht; exact ⟨hB, rfl⟩)
        | (cases hf : fancyIndex ts (argsort ts) with
          | error e => rw [hf] at ht; cases ht
          | ok l => rw [hf] at ht; cases ht; exact ⟨fun x hx => hB x (fancyIndex_mem hf x hx), rfl⟩)
    obtain ⟨hmem, rfl⟩ := hmem
    have hfil : ∀ f : α → Bool, ∀ x ∈ t.filter f, B x := fun f x hx => hmem x (List.mem_of_mem_filter hx)
    refine halts ?_ hs
    clear ht
    repeat' first
      | exact Safe.pure _
      | exact Safe.throw _
      | exact Safe.get
      | exact Safe.ofExcept _
      | exact Safe.checkTime _
      | exact ⟨moves_interpolateAll _, fun s _ => interpolateAll_returns hM _ s⟩
      | exact ⟨moves_runEval (allowed_self _) _, fun s hs => P.runEval_returns hM _ (hfil _) hs⟩
      | exact ⟨moves_runEvalEvents (allowed_self _) bo _ _, fun s hs => P.runEvalEvents_returns hM bo _ (hfil _) _ hs⟩
      | refine P.safe_bind hM ?_ fun _ => ?_
      | refine Safe.ite ?_ ?_
      | split
      | dsimp only

theorem Ranked.call_returns (P : Ranked S I B) (hM : IsLibrary S.method) (bo : BisectOpts α)
    (argsort : List α → List Nat) (c : Call α n) (hc : Finite c) (hB : ∀ x, c.Asks x → B x) {s : St α n k X} (hs : I s) :
    Halts (c.exec S bo argsort) s := by
  cases c with
  | step m u => exact Halts.bind (P.step_returns hM m u hc hB hs) fun _ _ _ => Halts.pure _ _
  | skip m u => exact P.skip_returns hM m u hc hB hs
  | interpolate t =>
    refine Halts.bind ?_ fun _ _ _ => Halts.pure _ _
    unfold interpolate
    returns
    all_goals exact hM.interp_returns S.rhs t _
  | run ts =>
    refine Halts.bind ?_ fun _ _ _ => Halts.pure _ _
    exact Halts.bind (P.runEvents_returns hM bo argsort ts hB none hs) fun _ _ _ => Halts.pure _ _
  | runEvents ts es =>
    exact Halts.bind (P.runEvents_returns hM bo argsort ts hB es hs) fun _ _ _ => Halts.pure _ _

end loops

section field
variable {α : Type} [Field α] [LinearOrder α] [IsStrictOrderedRing α] [Archimedean α] [BEq α]
variable {n k : Nat} {X : Type}

/-- In the states satisfying `I`, steps come back, stay in `I` and, as long as they begin before a given time, advance the clock by
at least a fixed amount. -/
structure Advances (S : Solver α n k X) (I : St α n k X → Prop) : Prop where
  size : ∀ s, I s → 0 < s.h
  returns : ∀ s, I s → Halts (S.method.body S.rhs) s
  step : ∀ s s', I s → Takes S s s' → I s'
  gap : ∀ u, ∃ η, 0 < η ∧ ∀ s s', I s → Takes S s s' → s.t ≤ u → s.t + η ≤ s'.t
  same : ∀ s s', I s → s'.cache = s.cache → s'.h = s.h → I s'

variable {S : Solver α n k X} {I : St α n k X → Prop}

/-- The rounds a loop with limit `u` can make. -/
theorem rounds {η : α} (hη : 0 < η) (u t : α) : ∃ m : Nat, u < t + m * η := by
  obtain ⟨m, hm⟩ := exists_nat_gt ((u - t) / η)
  refine ⟨m, ?_⟩
  have := (div_lt_iff₀ hη).mp hm
  linarith

theorem Advances.ranked (P : Advances S I) : Ranked S I (fun _ => True) where
  ahead s hs := by linarith [P.size s hs]
  returns := P.returns
  step := P.step
  forward s s' hs ht := by
    obtain ⟨η, h0, h2⟩ := P.gap s.t
    linarith [h2 _ _ hs ht (le_refl _)]
  rank u _ := by
    classical
    obtain ⟨η, hη, hgap⟩ := P.gap u
    refine ⟨fun t => Nat.find (rounds hη u t), fun a b hab => ?_, fun s s' hs ht hu => ?_⟩
    · refine Nat.find_min' _ ?_
      linarith [Nat.find_spec (rounds hη u a)]
    · have h1 := hgap _ _ hs ht hu
      have h2 := Nat.find_spec (rounds hη u s.t)
      show Nat.find (rounds hη u s'.t) < Nat.find (rounds hη u s.t)
      cases hm : Nat.find (rounds hη u s.t) with
      | zero => rw [hm] at h2; simp only [Nat.cast_zero, zero_mul, add_zero] at h2; linarith
      | succ m =>
        rw [hm] at h2
        push_cast at h2
        exact Nat.lt_succ_of_le (Nat.find_min' _ (by linarith))
  same := P.same

/-! ### Fixed steps -/

theorem fixed_advances {S : Solver α n k X} (hM : IsFixed S.method) {h : α} (hh : 0 < h) :
    Advances S (fun s => s.h = h) where
  size := fun s hs => by rw [hs]; exact hh
  returns := fun s _ => hM.body_returns S.rhs s
  step := fun s s' hs ht => by
    have h1 := hM.shaped.body_h _ _ _ _ ht
    rw [h1, hs]
  gap := fun _ => ⟨h, hh, fun s s' hs ht _ => by
    have h2 := hM.shaped.body_fixed _ _ _ ht
    rw [h2, hs]⟩
  same := fun s s' hs _ h => by rw [h, hs]

end field
end Nbkode
