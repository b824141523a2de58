import Verif.Proofs.MethodShape
import Verif.Proofs.StepApi
import Verif.Spec.History
import Mathlib.Logic.Relation

/-! Every API call is a finite chain of primitive moves: one (checked) run of the method's step, or one run
of its interpolation. -/

set_option autoImplicit false
set_option linter.unusedSectionVars false

namespace Nbkode
open Py Spec Solver

namespace Py
variable {σ A B : Type} {R E : σ → σ → Prop}

/-- How a call relates the states before and after: a chain of moves `R` if it returns; a chain of moves `R` and
possibly a last, failing move `E` if it raises. -/
def Post (R E : σ → σ → Prop) (s : σ) (r : Except Err A) (s' : σ) : Prop :=
  match r with
  | .ok _ => Relation.ReflTransGen R s s'
  | .error _ => ∃ s1, Relation.ReflTransGen R s s1 ∧ (s' = s1 ∨ E s1 s')

/-- `x` only makes moves in the reflexive-transitive closure of `R`; a failing move `E` ends it. -/
abbrev Moves (R E : σ → σ → Prop) (x : Py σ A) : Prop :=
  ∀ s r s', x.run s = some (r, s') → Post R E s r s'

theorem post_refl (s : σ) (r : Except Err A) : Post R E s r s := by
  cases r
  · exact ⟨s, .refl, Or.inl rfl⟩
  · exact .refl

theorem post_trans {s s1 s' : σ} {r : Except Err A} (h : Relation.ReflTransGen R s s1)
    (h' : Post R E s1 r s') : Post R E s r s' := by
  cases r with
  | error e =>
    obtain ⟨s2, h1, h2⟩ := h'
    exact ⟨s2, h.trans h1, h2⟩
  | ok a => exact h.trans h'

theorem moves_pure (a : A) : Moves R E (pure a : Py σ A) := by
  intro s r s' h
  simp only [run_pure, Option.some.injEq, Prod.mk.injEq] at h
  obtain ⟨_, rfl⟩ := h; exact post_refl _ _

theorem moves_throw (e : Err) : Moves R E (throw e : Py σ A) := by
  intro s r s' h
  simp only [run_throw, Option.some.injEq, Prod.mk.injEq] at h
  obtain ⟨_, rfl⟩ := h; exact post_refl _ _

theorem moves_get : Moves R E (get : Py σ σ) := by
  intro s r s' h
  simp only [run_get, Option.some.injEq, Prod.mk.injEq] at h
  obtain ⟨_, rfl⟩ := h; exact post_refl _ _

theorem moves_ofExcept (x : Except Err A) : Moves R E (Py.ofExcept x : Py σ A) := by
  intro s r s' h
  simp only [run_ofExcept, Option.some.injEq, Prod.mk.injEq] at h
  obtain ⟨_, rfl⟩ := h; exact post_refl _ _

theorem moves_bind {x : Py σ A} {f : A → Py σ B} (hx : Moves R E x) (hf : ∀ a, Moves R E (f a)) :
    Moves R E (x >>= f) := by
  intro s r s' h
  rw [run_bind, andThen_eq_some] at h
  rcases h with ⟨e, s1, h1, h2⟩ | ⟨a, s1, h1, h2⟩
  · simp only [Prod.mk.injEq] at h2
    obtain ⟨rfl, rfl⟩ := h2
    exact hx _ _ _ h1
  · exact post_trans (hx _ _ _ h1) (hf a _ _ _ h2)

theorem moves_map {x : Py σ A} {f : A → B} (hx : Moves R E x) : Moves R E (f <$> x) := by
  rw [← bind_pure_comp]
  exact moves_bind hx fun _ => moves_pure _

theorem moves_ite {c : Prop} [Decidable c] {x y : Py σ A} (hx : Moves R E x) (hy : Moves R E y) :
    Moves R E (if c then x else y) := by
  split <;> assumption

theorem admissible_moves :
    Lean.Order.admissible (fun x : Py σ A => Moves R E x) :=
  admissible_post fun s r s' => Post R E s r s'

end Py

variable {α : Type}
variable [Add α] [Sub α] [Mul α] [Div α] [Neg α] [Zero α] [One α] [NatCast α] [BEq α]
variable [LT α] [DecidableLT α] [LE α] [DecidableLE α]
variable {n k : Nat} {X : Type}

/-- The limit `b` is the bound `tb` or not beyond it. -/
def Allowed (b tb : Bound α) : Prop := b = tb ∨ ¬ Beyond b tb

/-- A primitive move. -/
inductive Prim (S : Solver α n k X) : St α n k X → St α n k X → Prop
  | body {s s' : St α n k X} {r : Except Err Unit} (b : Bound α) (hb : Allowed b S.tBound)
      (hf : Fits b s) (h : (S.method.body S.rhs).run s = some (r, s')) : Prim S s s'
  | interp {s s' : St α n k X} {r : Except Err (Ref α n k)} (t : α)
      (h : (S.interpAt t).run s = some (r, s')) : Prim S s s'

/-- A move that succeeds. -/
inductive Did (S : Solver α n k X) : St α n k X → St α n k X → Prop
  | body {s s' : St α n k X} (b : Bound α) (hb : Allowed b S.tBound)
      (hf : Fits b s) (h : Takes S s s') : Did S s s'
  | interp {s s' : St α n k X} {r : Ref α n k} (t : α)
      (h : (S.interpAt t).run s = some (.ok r, s')) : Did S s s'

/-- A move that raises. -/
inductive Fail (S : Solver α n k X) : St α n k X → St α n k X → Prop
  | body {s s' : St α n k X} {e : Err} (b : Bound α) (hb : Allowed b S.tBound)
      (hf : Fits b s) (h : (S.method.body S.rhs).run s = some (.error e, s')) : Fail S s s'
  | interp {s s' : St α n k X} {e : Err} (t : α)
      (h : (S.interpAt t).run s = some (.error e, s')) : Fail S s s'

variable {S : Solver α n k X}

theorem allowed_self (b : Bound α) : Allowed b b := Or.inl rfl

theorem moves_pstep {b : Bound α} (hb : Allowed b S.tBound) : Moves (Did S) (Fail S) (S.pstep b) := by
  intro s r s' h
  cases r with
  | error e =>
    obtain ⟨hf, h⟩ := pstep_error.mp h
    exact ⟨s, .refl, Or.inr (.body b hb hf h)⟩
  | ok c =>
    cases c with
    | true =>
      obtain ⟨hf, h⟩ := pstep_true.mp h
      exact .single (.body b hb hf h)
    | false =>
      obtain ⟨_, rfl⟩ := pstep_false.mp h
      exact .refl

theorem moves_interpAt (t : α) : Moves (Did S) (Fail S) (S.interpAt t) := by
  intro s r s' h
  cases r with
  | error e => exact ⟨s, .refl, Or.inr (.interp t h)⟩
  | ok r => exact .single (.interp t h)

theorem moves_stepsLoop {b : Bound α} (hb : Allowed b S.tBound) :
    Moves (Did S) (Fail S) (S.stepsLoop b) := by
  refine stepsLoop.fixpoint_induct S b (fun x => Moves (Did S) (Fail S) x) admissible_moves ?_
  intro loop ih
  refine moves_bind (moves_pstep hb) fun c => moves_ite ?_ (moves_pure _)
  exact moves_bind moves_get fun _ => moves_bind ih fun _ => moves_pure _

theorem moves_skipLoop {b : Bound α} (hb : Allowed b S.tBound) :
    Moves (Did S) (Fail S) (S.skipLoop b) := by
  refine skipLoop.fixpoint_induct S b (fun x => Moves (Did S) (Fail S) x) admissible_moves ?_
  intro loop ih
  exact moves_bind (moves_pstep hb) fun c => moves_ite ih (moves_pure _)

theorem moves_nstepsLoop {b : Bound α} (hb : Allowed b S.tBound) (m : Nat) :
    Moves (Did S) (Fail S) (S.nstepsLoop b m) := by
  induction m with
  | zero => exact moves_pure _
  | succ m ih =>
    rw [nstepsLoop]
    refine moves_bind (moves_pstep hb) fun c => ?_
    refine moves_ite (moves_pure _) ?_
    exact moves_bind moves_get fun _ => moves_bind ih fun _ => moves_pure _

theorem moves_nskipLoop {b : Bound α} (hb : Allowed b S.tBound) (m : Nat) :
    Moves (Did S) (Fail S) (S.nskipLoop b m) := by
  induction m with
  | zero => exact moves_pure _
  | succ m ih =>
    rw [nskipLoop]
    exact moves_bind (moves_pstep hb) fun c => moves_ite (moves_pure _) ih

theorem moves_nsteps {b : Bound α} (hb : Allowed b S.tBound) (m : Int) :
    Moves (Did S) (Fail S) (S.nsteps m b) := by
  unfold nsteps
  exact moves_ite (moves_throw _) (moves_nstepsLoop hb _)

theorem moves_nskip {b : Bound α} (hb : Allowed b S.tBound) (m : Int) :
    Moves (Did S) (Fail S) (S.nskip m b) := moves_nskipLoop hb _

/-- A guarded continuation after the bound check. -/
theorem moves_checkTime {A : Type} {u : Bound α} {x : Py (St α n k X) A}
    (h : Allowed u S.tBound → Moves (Did S) (Fail S) x) :
    Moves (Did S) (Fail S) (do S.checkTime u; x) := by
  intro s r s' hr
  rw [run_bind] at hr
  unfold checkTime at hr
  rw [run_ite] at hr
  split at hr
  · simp only [run_throw, andThen_error, Option.some.injEq, Prod.mk.injEq] at hr
    obtain ⟨rfl, rfl⟩ := hr; exact post_refl _ _
  · rename_i hg
    simp only [run_pure, andThen_ok] at hr
    exact h (Or.inr fun hb => hg ((gt_iff _ _).mpr hb)) _ _ _ hr

theorem moves_step (m : Option Int) (u : Option (Bound α)) :
    Moves (Did S) (Fail S) (S.step m u) := by
  have hB := allowed_self S.tBound
  unfold step
  refine moves_bind moves_get fun s => moves_ite (moves_pure _) ?_
  cases m <;> cases u
  · refine moves_bind (moves_pstep hB) fun c => moves_ite ?_ (moves_pure _)
    exact moves_bind moves_get fun _ => moves_pure _
  · refine moves_checkTime fun hb => ?_
    exact moves_bind (moves_stepsLoop hb) fun _ => moves_pure _
  · refine moves_bind (moves_nsteps hB _) fun r => ?_
    exact moves_ite (moves_bind (moves_throw _) fun _ => moves_pure _) (moves_pure _)
  · refine moves_checkTime fun hb => ?_
    exact moves_bind (moves_nsteps hb _) fun _ => moves_pure _

theorem moves_skip (m : Option Int) (u : Option (Bound α)) :
    Moves (Did S) (Fail S) (S.skip m u) := by
  have hB := allowed_self S.tBound
  unfold skip
  refine moves_bind moves_get fun s => moves_ite (moves_pure _) ?_
  cases m <;> cases u
  · exact moves_bind (moves_nskip hB _) fun c => moves_pure _
  · exact moves_checkTime fun hb => moves_skipLoop hb
  · refine moves_bind (moves_nskip hB _) fun r => ?_
    exact moves_ite (moves_bind (moves_throw _) fun _ => moves_pure _) (moves_pure _)
  · refine moves_checkTime fun hb => ?_
    exact moves_bind (moves_nskip hb _) fun _ => moves_pure _

theorem moves_interpolate (t : α) : Moves (Did S) (Fail S) (S.interpolate t) := by
  unfold interpolate
  refine moves_bind moves_get fun s => ?_
  exact moves_ite (moves_bind (moves_throw _) fun _ => moves_interpAt _) (moves_interpAt _)

theorem moves_interpolateAll (ts : List α) : Moves (Did S) (Fail S) (S.interpolateAll ts) := by
  induction ts with
  | nil => exact moves_pure _
  | cons t ts ih =>
    rw [interpolateAll]
    exact moves_bind (moves_interpolate t) fun _ => moves_bind ih fun _ => moves_pure _

theorem moves_advance (hB : Allowed S.tBound S.tBound) (ti : α) :
    Moves (Did S) (Fail S) (S.advance S.tBound ti) := by
  refine advance.fixpoint_induct S S.tBound ti (fun x => Moves (Did S) (Fail S) x) admissible_moves ?_
  intro loop ih
  refine moves_bind moves_get fun s => moves_ite ?_ (moves_pure _)
  exact moves_bind (moves_pstep hB) fun c => moves_ite ih (moves_pure _)

theorem moves_runEval (hB : Allowed S.tBound S.tBound) (ts : List α) :
    Moves (Did S) (Fail S) (S.runEval S.tBound ts) := by
  induction ts with
  | nil => exact moves_pure _
  | cons t ts ih =>
    rw [runEval]
    refine moves_bind (moves_advance hB t) fun c => moves_ite ?_ (moves_pure _)
    refine moves_bind (moves_interpAt t) fun _ => moves_bind moves_get fun _ => ?_
    exact moves_bind ih fun _ => moves_pure _

theorem moves_eventAtSol (func : α → Vec α n → α) (t : α) :
    Moves (Did S) (Fail S) (eventAtSol func S.interpAt t) := by
  unfold eventAtSol
  exact moves_bind (moves_interpAt t) fun _ => moves_bind moves_get fun _ => moves_pure _

theorem moves_bisectLoop {σ : Type} {R E : σ → σ → Prop} {fn : α → Py σ α}
    (hfn : ∀ t, Moves R E (fn t)) (tol rtol : α) (m : Nat) :
    ∀ left yl right mid, Moves R E (bisectLoop fn tol rtol m left yl right mid) := by
  induction m with
  | zero =>
    intro left yl right mid
    cases mid
    · exact moves_throw _
    · exact moves_pure _
  | succ m ih =>
    intro left yl right mid
    rw [bisectLoop]
    refine moves_bind (moves_ofExcept _) fun _ => moves_bind (hfn _) fun _ => ?_
    exact moves_ite (moves_pure _) (moves_ite (ih _ _ _ _) (ih _ _ _ _))

theorem moves_bisect {σ : Type} {R E : σ → σ → Prop} {fn : α → Py σ α}
    (hfn : ∀ t, Moves R E (fn t)) (l r tol : α) (m : Nat) (rtol : α) :
    Moves R E (bisect fn l r tol m rtol) := by
  have h3 : ∀ yl, Moves R E (bisectLoop fn tol rtol m l yl r none) :=
    fun yl => moves_bisectLoop hfn _ _ _ _ _ _ _
  have h2 : Moves R E (do
      let yl ← fn l
      if yl == 0 then return l
      let yr ← fn r
      if yr == 0 then return r
      if !(decide (yl * yr < 0)) then throw .valueError
      bisectLoop fn tol rtol m l yl r none) := by
    refine moves_bind (hfn _) fun yl => moves_ite (moves_pure _) ?_
    refine moves_bind (hfn _) fun yr => moves_ite (moves_pure _) ?_
    exact moves_ite (moves_bind (moves_throw _) fun _ => h3 _) (h3 _)
  unfold bisect
  exact moves_ite (moves_bind (moves_throw _) fun _ => h2) h2

theorem moves_event (bo : BisectOpts α) (ev : Event α n k) :
    Moves (Did S) (Fail S) (ev.evaluate bo S.interpAt) := by
  unfold Event.evaluate
  refine moves_bind moves_get fun s => ?_
  dsimp only
  repeat' first
    | exact moves_pure _
    | exact moves_interpAt _
    | exact moves_bisect (fun t => moves_eventAtSol ev.func t) _ _ _ _ _
    | refine moves_bind ?_ fun _ => ?_
    | refine moves_ite ?_ ?_
    | split

theorem moves_handlerLoop (bo : BisectOpts α) (evs : List (Event α n k)) :
    ∀ term last, Moves (Did S) (Fail S) (handlerLoop bo S.interpAt evs term last) := by
  induction evs with
  | nil => intro term last; exact moves_pure _
  | cons ev evs ih =>
    intro term last
    rw [handlerLoop]
    exact moves_bind (moves_event bo ev) fun _ => moves_bind (ih _ _) fun _ => moves_pure _

theorem moves_handler (bo : BisectOpts α) (eh : EventHandler α n k) :
    Moves (Did S) (Fail S) (eh.evaluate bo S.interpAt) := by
  unfold EventHandler.evaluate
  exact moves_bind (moves_handlerLoop bo _ _ _) fun _ => moves_pure _

theorem moves_advanceEvents (hB : Allowed S.tBound S.tBound) (bo : BisectOpts α) (ti : α) :
    ∀ eh, Moves (Did S) (Fail S) (S.advanceEvents bo S.tBound ti eh) := by
  refine advanceEvents.fixpoint_induct S bo S.tBound ti
    (fun x => ∀ eh, Moves (Did S) (Fail S) (x eh)) ?_ ?_
  · exact Lean.Order.admissible_pi_apply (fun _ x => Moves (Did S) (Fail S) x) fun _ => admissible_moves
  · intro loop ih eh
    refine moves_bind moves_get fun s => moves_ite ?_ (moves_pure _)
    refine moves_bind (moves_pstep hB) fun c => moves_ite ?_ (moves_pure _)
    exact moves_bind (moves_handler bo eh) fun p => moves_ite (moves_pure _) (ih _)

theorem moves_runEvalEvents (hB : Allowed S.tBound S.tBound) (bo : BisectOpts α) (ts : List α) :
    ∀ eh, Moves (Did S) (Fail S) (S.runEvalEvents bo S.tBound ts eh) := by
  induction ts with
  | nil => intro eh; exact moves_pure _
  | cons t ts ih =>
    intro eh
    rw [runEvalEvents]
    refine moves_bind (moves_advanceEvents hB bo t eh) fun p => ?_
    obtain ⟨eh', res⟩ := p
    cases res with
    | reached =>
      refine moves_bind (moves_interpAt t) fun _ => moves_bind moves_get fun _ => ?_
      exact moves_bind (ih _) fun _ => moves_pure _
    | refused => exact moves_pure _
    | terminated =>
      refine moves_bind moves_get fun s => ?_
      split
      · exact moves_pure _
      · exact moves_throw _

theorem moves_runEvents (bo : BisectOpts α) (argsort : List α → List Nat)
    (ts : List α) (es : Option (List (EventSpec α n))) :
    Moves (Did S) (Fail S) (S.runEvents bo argsort ts es) := by
  have hB := allowed_self S.tBound
  unfold runEvents
  repeat' first
    | exact moves_pure _
    | exact moves_throw _
    | exact moves_get
    | exact moves_ofExcept _
    | exact moves_interpolateAll _
    | exact moves_runEval hB _
    | exact moves_runEvalEvents hB bo _ _
    | refine moves_checkTime fun _ => ?_
    | refine moves_bind ?_ fun _ => ?_
    | refine moves_ite ?_ ?_
    | split
    | dsimp only

theorem moves_exec (bo : BisectOpts α) (argsort : List α → List Nat)
    (c : Call α n) : Moves (Did S) (Fail S) (c.exec S bo argsort) := by
  cases c with
  | step m u => exact moves_bind (moves_step m u) fun _ => moves_pure _
  | skip m u => exact moves_skip m u
  | interpolate t => exact moves_bind (moves_interpolate t) fun _ => moves_pure _
  | run ts =>
    refine moves_bind ?_ fun _ => moves_pure _
    exact moves_bind (moves_runEvents bo argsort ts none) fun _ => moves_pure _
  | runEvents ts es =>
    exact moves_bind (moves_runEvents bo argsort ts es) fun _ => moves_pure _

theorem did_prim {s s' : St α n k X} (h : Did S s s') : Prim S s s' := by
  cases h with
  | body b hb hf h => exact .body b hb hf h
  | interp t h => exact .interp t h

theorem fail_prim {s s' : St α n k X} (h : Fail S s s') : Prim S s s' := by
  cases h with
  | body b hb hf h => exact .body b hb hf h
  | interp t h => exact .interp t h

theorem dids_prim {s s' : St α n k X} (h : Relation.ReflTransGen (Did S) s s') :
    Relation.ReflTransGen (Prim S) s s' := by
  induction h with
  | refl => exact .refl
  | tail _ h ih => exact ih.tail (did_prim h)

theorem post_prim {A : Type} {s s' : St α n k X} {r : Except Err A} (h : Post (Did S) (Fail S) s r s') :
    Relation.ReflTransGen (Prim S) s s' := by
  cases r with
  | ok a => exact dids_prim h
  | error e =>
    obtain ⟨s1, h1, rfl | h2⟩ := h
    · exact dids_prim h1
    · exact (dids_prim h1).tail (fail_prim h2)

/-- A session is a chain of primitive moves. -/
theorem session_moves {bo : BisectOpts α} {argsort : List α → List Nat}
    {s s' : St α n k X} (h : Session S bo argsort s s') : Relation.ReflTransGen (Prim S) s s' := by
  induction h with
  | start => exact .refl
  | call c r _ hc ih => exact ih.trans (post_prim (moves_exec bo argsort c _ _ _ hc))

/-- An invariant of the successful moves is an invariant of sessions without exceptions. -/
theorem clean_invariant {bo : BisectOpts α}
    {argsort : List α → List Nat} (I : St α n k X → Prop)
    (hI : ∀ s s', Did S s s' → I s → I s') {s s' : St α n k X}
    (h : CleanSession S bo argsort s s') (hs : I s) : I s' := by
  induction h with
  | start => exact hs
  | call c _ hc ih =>
    have := moves_exec bo argsort c _ _ _ hc
    replace this : Relation.ReflTransGen (Did S) _ _ := this
    clear hc
    induction this with
    | refl => exact ih
    | tail _ hp ih => exact hI _ _ hp ih

theorem clean_session {bo : BisectOpts α} {argsort : List α → List Nat} {s s' : St α n k X}
    (h : CleanSession S bo argsort s s') : Session S bo argsort s s' := by
  induction h with
  | start => exact .start _
  | call c _ hc ih => exact .call c _ ih hc

/-- An invariant of the primitive moves is an invariant of sessions. -/
theorem session_invariant {bo : BisectOpts α}
    {argsort : List α → List Nat} (I : St α n k X → Prop)
    (hI : ∀ s s', Prim S s s' → I s → I s') {s s' : St α n k X}
    (h : Session S bo argsort s s') (hs : I s) : I s' := by
  have := session_moves h
  clear h
  induction this with
  | refl => exact hs
  | tail _ hp ih => exact hI _ _ hp ih

end Nbkode
