import Verif.Proofs.Relate
import Verif.Proofs.MethodShape
import Verif.Proofs.Halting
import Verif.Spec.Restart
import Mathlib.Tactic.FinCases

/-! Solvers that only look at the newest row of their history. -/

set_option autoImplicit false
set_option linter.unusedSectionVars false

namespace Nbkode
open Py Spec Solver

theorem follows_self {σ A : Type} {R : σ → σ → Prop} (hR : ∀ x, R x x) (p : Py σ A) :
    Follows Eq (fun a b x y => a = b ∧ R x y) R p p := by
  rintro x _ rfl r x' h
  refine ⟨r, x', h, ?_, fun _ => hR _⟩
  cases r with
  | error e => rfl
  | ok a => exact ⟨rfl, hR _⟩

section tail
variable {α : Type} [LinearOrder α]
variable [Add α] [Sub α] [Mul α] [Div α] [Neg α] [Zero α] [One α] [NatCast α] [BEq α]
variable {n k : Nat} {X : Type}

/-- Two states at time `τ` that differ at most in the rows of their histories before the newest one. -/
structure Tail (τ : α) (x y : St α n k X) : Prop where
  xt : x.cache.t = τ
  yt : y.cache.t = τ
  ys : x.cache.y = y.cache.y
  fs : x.cache.f = y.cache.f
  h : x.h = y.h
  aux : x.aux = y.aux
  xo : x.cache.ts (Buffer.iOld k) ≤ τ
  yo : y.cache.ts (Buffer.iOld k) ≤ τ

theorem Tail.symm {τ : α} {x y : St α n k X} (h : Tail τ x y) : Tail τ y x :=
  ⟨h.yt, h.xt, h.ys.symm, h.fs.symm, h.h.symm, h.aux.symm, h.yo, h.xo⟩

/-- The same state, or two such states. -/
def Alike (τ : α) (x y : St α n k X) : Prop := x = y ∨ Tail τ x y

theorem Alike.symm {τ : α} {x y : St α n k X} (h : Alike τ x y) : Alike τ y x := h.imp Eq.symm Tail.symm

/-- A step only looks at the newest row, and afterwards the others are forgotten. -/
def OneRow (S : Solver α n k X) : Prop :=
  ∀ τ, Follows (Tail τ) (fun _ _ x y => x = y) (Tail τ) (S.method.body S.rhs) (S.method.body S.rhs)

variable {S : Solver α n k X} (hS : OneRow S) {τ : α}

/-- The same value, near states. -/
abbrev Alike.F (τ : α) {A : Type} (p q : Py (St α n k X) A) : Prop :=
  Follows (Tail τ) (fun a b x y => a = b ∧ Alike τ x y) (Alike τ) p q

theorem near_pure {A : Type} (a : A) : Alike.F (n := n) (k := k) (X := X) τ (pure a) (pure a) :=
  follows_pure fun _ _ h => ⟨rfl, Or.inr h⟩

theorem near_throw {A : Type} (e : Err) : Alike.F (n := n) (k := k) (X := X) (A := A) τ (throw e) (throw e) :=
  follows_throw fun _ _ h => Or.inr h

theorem near_self {A : Type} (p : Py (St α n k X) A) :
    Follows Eq (fun a b x y => a = b ∧ Alike τ x y) (Alike τ) p p := follows_self (R := Alike τ) (fun _ => Or.inl rfl) p

theorem follows_or {σ τ A B : Type} {R R' : σ → τ → Prop} {Q : A → B → σ → τ → Prop} {E : σ → τ → Prop} {p : Py σ A} {q : Py τ B}
    (h : Follows R Q E p q) (h' : Follows R' Q E p q) : Follows (fun x y => R x y ∨ R' x y) Q E p q :=
  fun x y hR => hR.elim (h x y) (h' x y)

/-- A continuation. -/
theorem near_bind {A B : Type} {p q : Py (St α n k X) A} {f g : A → Py (St α n k X) B} (h1 : Alike.F τ p q) (h2 : ∀ a, Alike.F τ (f a) (g a))
    (h3 : ∀ a, f a = g a) : Alike.F τ (p >>= f) (q >>= g) := by
  refine follows_bind h1 fun a b => follows_fact fun hab => ?_
  subst hab
  refine follows_or ?_ (h2 a)
  rw [h3 a]; exact near_self _

theorem near_bind' {A B : Type} {p q : Py (St α n k X) A} {f : A → Py (St α n k X) B} (h1 : Alike.F τ p q) (h2 : ∀ a, Alike.F τ (f a) (f a)) :
    Alike.F τ (p >>= f) (q >>= f) := near_bind h1 h2 fun _ => rfl

/-- A continuation after something that leaves the states alone. -/
theorem near_then {A B : Type} {Q : A → A → Prop} {p q : Py (St α n k X) A} {f g : A → Py (St α n k X) B}
    (h1 : Follows (Tail τ) (fun a b x y => Q a b ∧ Tail τ x y) (Alike τ) p q) (h2 : ∀ a b, Q a b → Alike.F τ (f a) (g b)) :
    Alike.F τ (p >>= f) (q >>= g) := follows_bind h1 fun a b => follows_fact (h2 a b)

/-- Reading the state. -/
theorem near_get {A : Type} {f : St α n k X → Py (St α n k X) A} (h : ∀ x y, Tail τ x y → Alike.F τ (f x) (f y)) :
    Alike.F τ (get >>= f) (get >>= f) := follows_read h

theorem near_ofExcept {A : Type} (u : Except Err A) : Alike.F (n := n) (k := k) (X := X) τ (Py.ofExcept u) (Py.ofExcept u) := by
  cases u with
  | error e => exact near_throw e
  | ok a => exact near_pure a

include hS in
/-- Attempting a step, and then going on. -/
theorem near_pstep (b : Bound α) {A : Type} {f : Bool → Py (St α n k X) A} (hf : Alike.F τ (f false) (f false)) :
    Alike.F τ (S.pstep b >>= f) (S.pstep b >>= f) := by
  refine follows_bind (Q := fun r r' x y => r = r' ∧ ((r = true ∧ x = y) ∨ (r = false ∧ Tail τ x y))) ?_ fun r r' => follows_fact fun hr => ?_
  · refine follows_read fun x y h => ?_
    rw [h.xt, h.yt, h.h]
    refine follows_ite Iff.rfl (fun _ => follows_pure fun _ _ h => ⟨rfl, Or.inr ⟨rfl, h⟩⟩) fun _ => ?_
    refine follows_bind (Q := fun _ _ x y => x = y) ?_ fun _ _ => follows_pure fun _ _ h => ⟨rfl, Or.inl ⟨rfl, h⟩⟩
    intro x y h r x' hr
    obtain ⟨r', y', g1, g2, g3⟩ := hS τ x y h r x' hr
    exact ⟨r', y', g1, g2, fun e => Or.inr (g3 e)⟩
  · subst hr
    cases r
    · exact follows_pre hf fun _ _ h => by simpa using h
    · exact follows_pre (near_self _) fun _ _ h => by simpa using h

theorem near_inPast (u : Option (Bound α)) {x y : St α n k X} (h : Tail τ x y) : inPast u x = inPast u y := by
  unfold inPast St.t
  rw [h.xt, h.yt]

theorem near_checkTime (b : Bound α) : Alike.F τ (S.checkTime b) (S.checkTime b) :=
  follows_ite Iff.rfl (fun _ => near_throw _) fun _ => near_pure _

include hS

theorem near_stepsLoop (b : Bound α) : Alike.F τ (S.stepsLoop b) (S.stepsLoop b) := by
  rw [Solver.stepsLoop.eq_1]
  exact near_pstep hS b (near_pure _)

theorem near_skipLoop (b : Bound α) : Alike.F τ (S.skipLoop b) (S.skipLoop b) := by
  rw [Solver.skipLoop.eq_1]
  exact near_pstep hS b (near_pure _)

theorem near_nstepsLoop (b : Bound α) (q : Nat) : Alike.F τ (S.nstepsLoop b q) (S.nstepsLoop b q) := by
  cases q with
  | zero => exact near_pure _
  | succ q =>
    rw [Solver.nstepsLoop]
    exact near_pstep hS b (near_pure _)

theorem near_nsteps (b : Bound α) (q : Int) : Alike.F τ (S.nsteps q b) (S.nsteps q b) :=
  follows_ite Iff.rfl (fun _ => near_throw _) fun _ => near_nstepsLoop hS b _

theorem near_nskip (b : Bound α) (q : Int) : Alike.F τ (S.nskip q b) (S.nskip q b) := by
  unfold Solver.nskip
  cases q.toNat with
  | zero => exact near_pure _
  | succ q =>
    rw [Solver.nskipLoop]
    exact near_pstep hS b (near_pure _)

theorem near_step (q : Option Int) (u : Option (Bound α)) : Alike.F τ (S.step q u) (S.step q u) := by
  refine near_get fun x y h => ?_
  rw [near_inPast u h]
  refine follows_ite Iff.rfl (fun _ => near_pure _) fun _ => ?_
  cases q <;> cases u
  · exact near_pstep hS _ (near_pure _)
  · exact near_bind' (near_checkTime _) fun _ => near_bind' (near_stepsLoop hS _) fun _ => near_pure _
  · refine near_bind' (near_nsteps hS _ _) fun a => follows_ite Iff.rfl (fun _ => near_throw _) fun _ => near_pure _
  · exact near_bind' (near_checkTime _) fun _ => near_bind' (near_nsteps hS _ _) fun _ => near_pure _

theorem near_skip (q : Option Int) (u : Option (Bound α)) : Alike.F τ (S.skip q u) (S.skip q u) := by
  refine near_get fun x y h => ?_
  rw [near_inPast u h]
  refine follows_ite Iff.rfl (fun _ => near_pure _) fun _ => ?_
  cases q <;> cases u
  · exact near_bind' (near_nskip hS _ _) fun _ => near_pure _
  · exact near_bind' (near_checkTime _) fun _ => near_skipLoop hS _
  · refine near_bind' (near_nskip hS _ _) fun a => follows_ite Iff.rfl (fun _ => near_throw _) fun _ => near_pure _
  · exact near_bind' (near_checkTime _) fun _ => near_bind' (near_nskip hS _ _) fun _ => near_pure _

omit hS in
theorem near_interpolate {t : α} (ht : τ < t) : Alike.F τ (S.interpolate t) (S.interpolate t) := by
  refine near_get fun x y h => ?_
  rw [h.xt, h.yt, decide_eq_false (not_le.2 ht)]
  simp only [Bool.and_false, Bool.not_false, if_true]
  exact follows_bind (Q := fun _ _ _ _ => False) (follows_throw fun _ _ h => Or.inr h) fun _ _ _ _ h => h.elim

/-- A loop that begins with a step, followed by anything. -/
theorem near_advance (b : Bound α) {t : α} (ht : τ < t) {A : Type} {f : Bool → Py (St α n k X) A} (hf : Alike.F τ (f false) (f false)) :
    Alike.F τ (S.advance b t >>= f) (S.advance b t >>= f) := by
  rw [Solver.advance.eq_1, bind_assoc]
  refine near_get fun x y h => ?_
  rw [h.xt, h.yt, if_pos ht, bind_assoc]
  refine near_pstep hS b ?_
  simpa using hf

theorem near_runEval (b : Bound α) {l : List α} (hl : ∀ t ∈ l, τ < t) : Alike.F τ (S.runEval b l) (S.runEval b l) := by
  cases l with
  | nil => exact near_pure _
  | cons t l =>
    rw [Solver.runEval]
    exact near_advance hS b (hl t List.mem_cons_self) (near_pure _)

theorem near_runEvalEvents (bo : BisectOpts α) (b : Bound α) {l : List α} (hl : ∀ t ∈ l, τ < t) (e : EventHandler α n k) :
    Alike.F τ (S.runEvalEvents bo b l e) (S.runEvalEvents bo b l e) := by
  cases l with
  | nil => exact near_pure _
  | cons t l =>
    rw [Solver.runEvalEvents, Solver.advanceEvents.eq_1]
    simp only [bind_assoc]
    refine near_get fun x y h => ?_
    rw [h.xt, h.yt, if_pos (hl t List.mem_cons_self)]
    simp only [bind_assoc]
    refine near_pstep hS b ?_
    simp only [Bool.false_eq_true, if_false, pure_bind]
    exact near_pure _

theorem near_runEvents (bo : BisectOpts α) (argsort : List α → List Nat) {l : List α} (hl : ∀ t ∈ l, τ < t)
    (es : Option (List (EventSpec α n))) : Alike.F τ (S.runEvents bo argsort l es) (S.runEvents bo argsort l es) := by
  unfold Solver.runEvents
  dsimp only
  apply share
  case k =>
    intro main
    refine follows_ite Iff.rfl (fun _ => ?_) fun _ => ?_
    · exact near_then (Q := fun a b => a = b ∧ ∀ u ∈ a, τ < u) (follows_pure fun _ _ h => ⟨⟨rfl, hl⟩, h⟩) main
    · refine near_then (Q := fun a b => a = b ∧ ∀ u ∈ a, τ < u) (follows_ofExcept ?_ fun _ _ h => Or.inr h) main
      cases e : fancyIndex l (argsort l) with
      | error _ => rfl
      | ok t => exact ⟨rfl, fun u hu => hl u (fancyIndex_mem e u hu)⟩
  rintro t _ ⟨rfl, ht⟩
  cases t with
  | nil => exact near_throw _
  | cons t0 tl =>
    dsimp only
    refine near_get fun x y h => ?_
    have h0 := ht t0 List.mem_cons_self
    have hxt : x.t = τ := h.xt
    have hyt : y.t = τ := h.yt
    have e1 : ((t0 :: tl).filter fun ti => decide (ti ≤ τ)) = [] := by
      rw [List.filter_eq_nil_iff]
      intro u hu
      simpa using ht u hu
    have e2 : ((t0 :: tl).filter fun ti => !decide (ti ≤ τ)) = t0 :: tl := by
      rw [List.filter_eq_self]
      intro u hu
      simpa using ht u hu
    rw [hxt, hyt, e1, e2, if_neg (not_lt.2 (h.xo.trans h0.le)), if_neg (not_lt.2 (h.yo.trans h0.le))]
    refine near_bind' (near_checkTime _) fun _ => ?_
    simp only [Solver.interpolateAll, pure_bind, List.isEmpty_nil, Bool.not_true, Bool.false_and, Bool.false_eq_true, if_false, List.zip_nil_left, List.nil_append]
    refine near_get fun _ _ _ => ?_
    refine follows_ite Iff.rfl (fun _ => ?_) fun _ => ?_
    · exact near_bind' (near_runEval hS _ ht) fun _ => follows_ite Iff.rfl (fun _ => near_pure _) fun _ =>
        near_bind' (near_ofExcept _) fun _ => near_pure _
    · refine near_get fun x y h => ?_
      have e3 : x.y = y.y := h.ys
      rw [show x.t = τ from h.xt, show y.t = τ from h.yt, e3]
      exact near_bind' (near_runEvalEvents hS bo _ ht _) fun _ => follows_ite Iff.rfl (fun _ => near_pure _) fun _ =>
        near_bind' (near_ofExcept _) fun _ => near_pure _

theorem near_call (bo : BisectOpts α) (argsort : List α → List Nat) {c : Call α n} (hc : c.Later τ) :
    Alike.F τ (c.answer S bo argsort) (c.answer S bo argsort) := by
  cases c with
  | step q u => exact near_bind' (near_step hS q u) fun _ => near_pure _
  | skip q u => exact near_bind' (near_skip hS q u) fun _ => near_pure _
  | interpolate t => exact near_bind' (near_interpolate hc) fun _ => near_pure _
  | run ts => exact near_bind' (near_bind' (near_runEvents hS bo argsort hc none) fun _ => near_pure _) fun _ => near_pure _
  | runEvents ts es => exact near_bind' (near_runEvents hS bo argsort hc es) fun _ => near_pure _

theorem near_transcript (bo : BisectOpts α) (argsort : List α → List Nat) {cs : List (Call α n)} (hc : ∀ c ∈ cs, c.Later τ) :
    ∀ {x y : St α n k X}, Alike τ x y → ∀ v, transcript S bo argsort cs x = some v → ∃ v', transcript S bo argsort cs y = some v' ∧
      v'.results = v.results ∧ v'.history.t = v.history.t ∧ v'.history.y = v.history.y ∧ v'.history.f = v.history.f ∧ v'.h = v.h := by
  induction cs with
  | nil =>
    intro x y h v hv
    cases hv
    refine ⟨_, rfl, rfl, ?_⟩
    rcases h with rfl | h
    · exact ⟨rfl, rfl, rfl, rfl⟩
    · exact ⟨h.yt.trans h.xt.symm, h.ys.symm, h.fs.symm, h.h.symm⟩
  | cons c cs ih =>
    intro x y h v hv
    rw [transcript] at hv
    cases hr : (c.answer S bo argsort).run x with
    | none => rw [hr] at hv; cases hv
    | some p =>
      obtain ⟨r, x1⟩ := p
      rw [hr] at hv
      obtain ⟨r', y1, g1, g2, g3⟩ := follows_or (near_self _) (near_call hS bo argsort (hc c List.mem_cons_self)) x y h r x1 hr
      have hN : r = r' ∧ Alike τ x1 y1 := by
        cases r with
        | error e =>
          cases r' with
          | error e' => exact ⟨congrArg _ g2, g3 ⟨e, rfl⟩⟩
          | ok a' => exact g2.elim
        | ok a =>
          cases r' with
          | error e => exact g2.elim
          | ok a' => exact ⟨congrArg _ g2.1, g2.2⟩
      obtain ⟨rfl, hN⟩ := hN
      dsimp only at hv
      obtain ⟨w, hw, rfl⟩ := Option.map_eq_some_iff.1 hv
      obtain ⟨w', hw', h1, h2⟩ := ih (fun c hc' => hc c (List.mem_cons_of_mem _ hc')) hN w hw
      exact ⟨{ w' with results := r :: w'.results }, by rw [transcript, g1]; simp [hw'], by rw [h1], h2⟩

theorem near_onward (bo : BisectOpts α) (argsort : List α → List Nat) {cs : List (Call α n)} (hc : ∀ c ∈ cs, c.Later τ)
    {x y : St α n k X} (h : Alike τ x y) : onward S bo argsort cs x = onward S bo argsort cs y := by
  unfold onward
  cases e : transcript S bo argsort cs x with
  | some v =>
    obtain ⟨v', e', h1, h2, h3, h4, h5⟩ := near_transcript hS bo argsort hc h v e
    rw [e']
    simp [h1, h2, h3, h4, h5]
  | none =>
    cases e' : transcript S bo argsort cs y with
    | none => rfl
    | some v' =>
      obtain ⟨v, e1, _⟩ := near_transcript hS bo argsort hc h.symm v' e'
      rw [e] at e1; cases e1

end tail

/-! ### The one-step methods -/

section methods
variable {α : Type} [LinearOrder α]
variable [Add α] [Sub α] [Mul α] [Div α] [Neg α] [Zero α] [One α] [NatCast α] [BEq α]
variable {n : Nat} {X : Type}

theorem push_of_last {b b' : Buffer α n 0} (h1 : b.t = b'.t) (h2 : b.y = b'.y) (h3 : b.f = b'.f) (t : α) (y f : Vec α n) :
    b.push t y f = b'.push t y f := by
  have e : ∀ {A : Type} (a a' : Fin 2 → A) (z : A), a 1 = a' 1 → shiftIn (k := 0) a z = shiftIn (k := 0) a' z := by
    intro A a a' z h
    funext i
    fin_cases i
    · exact h
    · rfl
  unfold Buffer.push
  rw [e b.ts b'.ts t h1, e b.ys b'.ys y h2, e b.fs b'.fs f h3]

theorem Tail.push {τ : α} {x y : St α n 0 X} (h : Tail τ x y) (t : α) (z f : Vec α n) :
    ({ x with cache := x.cache.push t z f } : St α n 0 X) = { y with cache := y.cache.push t z f } := by
  obtain ⟨c, w, a⟩ := x
  obtain ⟨c', w', a'⟩ := y
  obtain rfl : w = w' := h.h
  obtain rfl : a = a' := h.aux
  have := push_of_last (h.xt.trans h.yt.symm) h.ys h.fs t z f
  simp only [this]

theorem Tail.with_aux {k : Nat} {τ : α} {x y : St α n k X} (h : Tail τ x y) (a : X) : Tail τ { x with aux := a } { y with aux := a } :=
  ⟨h.xt, h.yt, h.ys, h.fs, h.h, rfl, h.xo, h.yo⟩

/-- The same right-hand side evaluation. -/
theorem tail_ofExcept {A : Type} {k : Nat} {τ : α} (u : Except Err A) :
    Follows (Tail (n := n) (k := k) (X := X) τ) (fun a b x y => a = b ∧ Tail τ x y) (Tail τ) (Py.ofExcept u) (Py.ofExcept u) :=
  follows_ofExcept (by cases u <;> rfl) fun _ _ h => h

/-- Work on the scratch only. -/
theorem tail_zoom {k : Nat} {Y A : Type} {τ : α} {get' : X → Y} {set' : Y → X → X} (p : Py Y A) :
    Follows (Tail (n := n) (k := k) (X := X) τ) (fun a b x y => a = b ∧ Tail τ x y) (Tail τ)
      (Py.zoom (fun s => get' s.aux) (fun u s => { s with aux := set' u s.aux }) p)
      (Py.zoom (fun s => get' s.aux) (fun u s => { s with aux := set' u s.aux }) p) := by
  refine follows_zoom (R₁ := Eq) (Q₁ := fun a b u v => a = b ∧ u = v) (E₁ := Eq) ?_ (fun x y h => by rw [h.aux]) ?_ ?_
  · exact follows_self (fun _ => rfl) p
  · rintro x y h a _ u _ ⟨rfl, rfl⟩
    rw [h.aux]
    exact ⟨rfl, h.with_aux _⟩
  · rintro x y h u _ rfl
    rw [h.aux]
    exact h.with_aux _

theorem oneRow_erk {s : Nat} (T : Tableau α s) (rhs : Rhs α n) (b : Bound α) : OneRow ⟨erk T, rhs, b⟩ := by
  intro τ
  show Follows _ _ _ (erkBody T rhs) (erkBody T rhs)
  unfold erkBody erkFixedStep
  simp only [bind_assoc, pure_bind]
  refine follows_read fun x y h => ?_
  rw [h.xt, h.yt, h.ys, h.fs, h.h]
  refine follows_bind (tail_zoom (get' := fun K => K) (set' := fun K _ => K) _) fun _ _ => follows_fact fun _ => ?_
  refine follows_read fun x1 y1 h1 => ?_
  rw [h1.aux]
  refine follows_bind (tail_ofExcept _) fun f _ => follows_fact fun e => ?_
  subst e
  exact follows_modify fun x y h => h.push _ _ _

theorem oneRow_fsalBody {s : Nat} {I : Type} (lib : Lib α) (o : VarOptions α) (ex : α) (T : Tableau α s) (norm : ErrNorm α n s)
    (rhs : Rhs α n) (τ : α) :
    Follows (Tail τ) (fun _ _ x y => x = y) (Tail τ) (fsalBody (I := I) lib o ex T norm rhs) (fsalBody lib o ex T norm rhs) := by
  refine fsalBody.fixpoint_induct lib o ex T norm rhs
    (fun p => Follows (Tail τ) (fun _ _ x y => x = y) (Tail τ) p (fsalBody lib o ex T norm rhs)) (admissible_follows _) ?_
  intro loop ih
  rw [fsalBody.eq_1 lib o ex T norm rhs]
  unfold fsalFixedStep
  simp only [bind_assoc, pure_bind]
  refine follows_read fun x y h => ?_
  rw [h.xt, h.yt, h.ys, h.fs, h.h]
  refine follows_bind (tail_zoom (get' := fun a : FsalAux α n s I => a.K) (set' := fun K (a : FsalAux α n s I) => { a with K := K }) _) fun _ _ => follows_fact fun _ => ?_
  refine follows_read fun x1 y1 h1 => ?_
  rw [h1.aux]
  refine follows_bind (tail_ofExcept _) fun f _ => follows_fact fun e => ?_
  subst e
  refine follows_bind (Q := fun _ _ x y => Tail τ x y) (follows_modify fun x y h => by rw [h.aux]; exact h.with_aux _) fun _ _ => ?_
  refine follows_read fun x2 y2 h2 => ?_
  rw [h2.h, h2.aux, h2.ys]
  refine follows_bind (tail_ofExcept _) fun en _ => follows_fact fun e => ?_
  subst e
  refine follows_bind (tail_ofExcept _) fun p _ => follows_fact fun e => ?_
  subst e
  refine follows_bind (Q := fun _ _ x y => Tail τ x y)
    (follows_modify fun x y h => ⟨h.xt, h.yt, h.ys, h.fs, rfl, h.aux, h.xo, h.yo⟩) fun _ _ => ?_
  refine follows_ite Iff.rfl (fun _ => ?_) fun _ => ih
  exact follows_modify fun x y h => h.push _ _ _

theorem oneRow_fsal {s d : Nat} (lib : Lib α) (o : VarOptions α) (c : FsalCoef α s d) (rhs : Rhs α n) (b : Bound α) :
    OneRow ⟨fsal lib o c, rhs, b⟩ := fun τ => oneRow_fsalBody lib o _ _ _ rhs τ

theorem oneRow_dop (lib : Lib α) (o : VarOptions α) (c : DopCoef α) (rhs : Rhs α n) (b : Bound α) :
    OneRow ⟨dop853 lib o c, rhs, b⟩ := fun τ => oneRow_fsalBody lib o _ _ _ rhs τ

theorem multistepK_last (c : MultistepCoef α 0) {b b' : Buffer α n 0} (h2 : b.y = b'.y) (h3 : b.f = b'.f) (h : α) :
    multistepK (p := 0) c b h = multistepK (p := 0) c b' h := by
  have e : ∀ (a a' : Fin 2 → Vec α n), a 1 = a' 1 → (lastRows a : Fin (0 + 1) → Vec α n) = lastRows a' := by
    intro a a' h
    funext j
    fin_cases j
    exact h
  unfold multistepK
  rw [e b.ys b'.ys h2, e b.fs b'.fs h3]

/-- `ForwardEuler`, `AB1`. -/
theorem oneRow_explicit (c : MultistepCoef α 0) (rhs : Rhs α n) (b : Bound α) : OneRow ⟨explicitMultistep c, rhs, b⟩ := by
  intro τ
  show Follows _ _ _ (explicitMultistepBody c rhs) (explicitMultistepBody c rhs)
  unfold explicitMultistepBody
  refine follows_read fun x y h => ?_
  dsimp only
  rw [h.xt, h.yt, h.h, multistepK_last c h.ys h.fs]
  refine follows_bind (tail_ofExcept _) fun f _ => follows_fact fun e => ?_
  subst e
  exact follows_modify fun x y h => h.push _ _ _

/-- `BackwardEuler`, `BDF1`, `AM1`, `AM2`. -/
theorem oneRow_implicit (lib : Lib α) (zo : ZeroOpts α) (c : MultistepCoef α 0) (rhs : Rhs α n) (b : Bound α) :
    OneRow ⟨implicitMultistep lib zo c, rhs, b⟩ := by
  intro τ
  show Follows _ _ _ (implicitMultistepBody lib zo c rhs) (implicitMultistepBody lib zo c rhs)
  unfold implicitMultistepBody
  refine follows_read fun x y h => ?_
  dsimp only
  rw [h.xt, h.yt, h.h, h.ys, multistepK_last c h.ys h.fs]
  refine follows_bind (tail_ofExcept _) fun z _ => follows_fact fun e => ?_
  subst e
  refine follows_bind (tail_ofExcept _) fun f _ => follows_fact fun e => ?_
  subst e
  exact follows_modify fun x y h => h.push _ _ _

end methods
end Nbkode
