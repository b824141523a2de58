import Verif.Spec.Answers
import Verif.Spec.Run
import Verif.Proofs.RunSorted
import Verif.Proofs.PyLemmas

/-! Two programs run side by side from related states. -/

set_option autoImplicit false
set_option linter.unusedSectionVars false

namespace Nbkode
open Py Spec Solver

section follows
variable {σ τ A B A' B' : Type}

/-- Both calls return related values, or both raise the same exception. -/
def ExRel (Q : A → B → Prop) : Except Err A → Except Err B → Prop
  | .ok a, .ok b => Q a b
  | .error e, .error e' => e = e'
  | _, _ => False

/-- Whatever `p` does from a state, `q` does from a related one. `Q` relates values and states after a return,
`E` the states after an exception. -/
def Follows (R : σ → τ → Prop) (Q : A → B → σ → τ → Prop) (E : σ → τ → Prop) (p : Py σ A) (q : Py τ B) : Prop :=
  ∀ x y, R x y → ∀ r x', p.run x = some (r, x') → ∃ r' y', q.run y = some (r', y') ∧
    ExRel (fun a b => Q a b x' y') r r' ∧ ((∃ e, r = .error e) → E x' y')

variable {R R' : σ → τ → Prop} {E : σ → τ → Prop} {Q : A → B → σ → τ → Prop} {Q' : A' → B' → σ → τ → Prop}

theorem follows_pure {a : A} {b : B} (h : ∀ x y, R x y → Q a b x y) : Follows R Q E (pure a) (pure b) := by
  intro x y hR r x' hr
  rw [run_pure] at hr
  cases hr
  exact ⟨_, _, run_pure _ _, h _ _ hR, by rintro ⟨e, h⟩; cases h⟩

theorem follows_throw {e : Err} (h : ∀ x y, R x y → E x y) :
    Follows R Q E (throw e : Py σ A) (throw e : Py τ B) := by
  intro x y hR r x' hr
  rw [run_throw] at hr
  cases hr
  exact ⟨_, _, run_throw _ _, rfl, fun _ => h _ _ hR⟩

theorem follows_bind {p : Py σ A} {q : Py τ B} {f : A → Py σ A'} {g : B → Py τ B'} (h1 : Follows R Q E p q)
    (h2 : ∀ a b, Follows (Q a b) Q' E (f a) (g b)) : Follows R Q' E (p >>= f) (q >>= g) := by
  intro x y hR r x' hr
  rw [run_bind, andThen_eq_some] at hr
  rcases hr with ⟨e, s, h, hr⟩ | ⟨a, s, h, hr⟩
  · obtain ⟨r', y', g1, g2, g3⟩ := h1 x y hR _ _ h
    cases hr
    cases r' with
    | ok b => exact g2.elim
    | error e' =>
      cases (show e = e' from g2)
      exact ⟨.error e, _, by rw [run_bind, g1, andThen_error], rfl, fun _ => g3 ⟨e, rfl⟩⟩
  · obtain ⟨r', y', g1, g2, g3⟩ := h1 x y hR _ _ h
    cases r' with
    | error e' => exact g2.elim
    | ok b =>
      obtain ⟨r2, y2, g4, g5, g6⟩ := h2 a b s y' g2 r x' hr
      exact ⟨r2, y2, by rw [run_bind, g1, andThen_ok, g4], g5, g6⟩

theorem follows_ofExcept {u : Except Err A} {v : Except Err B} {Q0 : A → B → Prop} (h : ExRel Q0 u v)
    (hE : ∀ x y, R x y → E x y) :
    Follows R (fun a b x y => Q0 a b ∧ R x y) E (Py.ofExcept u : Py σ A) (Py.ofExcept v : Py τ B) := by
  intro x y hR r x' hr
  rw [run_ofExcept] at hr
  cases hr
  refine ⟨_, _, run_ofExcept _ _, ?_, fun _ => hE _ _ hR⟩
  cases u <;> cases v <;> first | exact ⟨h, hR⟩ | exact h

theorem follows_modify {f : σ → σ} {g : τ → τ} {Q : PUnit → PUnit → σ → τ → Prop} (h : ∀ x y, R x y → Q ⟨⟩ ⟨⟩ (f x) (g y)) :
    Follows R Q E (modify f : Py σ PUnit) (modify g : Py τ PUnit) := by
  intro x y hR r x' hr
  rw [run_modify] at hr
  cases hr
  exact ⟨_, _, run_modify _ _, h _ _ hR, by rintro ⟨e, h⟩; cases h⟩

theorem follows_weaken {Q2 : A → B → σ → τ → Prop} {p : Py σ A} {q : Py τ B} (h : Follows R Q E p q)
    (h1 : ∀ x y, R' x y → R x y) (h2 : ∀ a b x y, Q a b x y → Q2 a b x y) : Follows R' Q2 E p q := by
  intro x y hR r x' hr
  obtain ⟨r', y', g1, g2, g3⟩ := h x y (h1 x y hR) r x' hr
  refine ⟨r', y', g1, ?_, g3⟩
  cases r <;> cases r' <;> first | exact h2 _ _ _ _ g2 | exact g2

theorem follows_pre {p : Py σ A} {q : Py τ B} (h : Follows R Q E p q) (h1 : ∀ x y, R' x y → R x y) :
    Follows R' Q E p q := follows_weaken h h1 fun _ _ _ _ h => h

theorem follows_post {Q2 : A → B → σ → τ → Prop} {p : Py σ A} {q : Py τ B} (h : Follows R Q E p q)
    (h2 : ∀ a b x y, Q a b x y → Q2 a b x y) : Follows R Q2 E p q := follows_weaken h (fun _ _ h => h) h2

/-- Reading the state. -/
theorem follows_get {f : σ → Py σ A} {g : τ → Py τ B}
    (h : ∀ x y, R x y → Follows (fun u v => u = x ∧ v = y) Q E (f x) (g y)) :
    Follows R Q E ((get : Py σ σ) >>= f) ((get : Py τ τ) >>= g) := by
  intro x y hR r x' hr
  rw [run_bind, run_get, andThen_ok] at hr
  obtain ⟨r', y', g1, g2⟩ := h x y hR x y ⟨rfl, rfl⟩ r x' hr
  exact ⟨r', y', by rw [run_bind, run_get, andThen_ok, g1], g2⟩

/-- Reading the state when only the relation matters afterwards. -/
theorem follows_read {f : σ → Py σ A} {g : τ → Py τ B} (h : ∀ x y, R x y → Follows R Q E (f x) (g y)) :
    Follows R Q E ((get : Py σ σ) >>= f) ((get : Py τ τ) >>= g) :=
  follows_get fun x y hR => follows_pre (h x y hR) (by rintro _ _ ⟨rfl, rfl⟩; exact hR)

theorem follows_fact {P : Prop} {p : Py σ A} {q : Py τ B} (h : P → Follows R Q E p q) :
    Follows (fun x y => P ∧ R x y) Q E p q := fun x y hR => h hR.1 x y hR.2

theorem follows_ite {c d : Prop} [Decidable c] [Decidable d] {p p' : Py σ A} {q q' : Py τ B} (hc : c ↔ d)
    (h1 : c → Follows R Q E p q) (h2 : ¬ c → Follows R Q E p' q') :
    Follows R Q E (if c then p else p') (if d then q else q') := by
  by_cases h : c
  · rw [if_pos h, if_pos (hc.1 h)]; exact h1 h
  · rw [if_neg h, if_neg (fun h' => h (hc.2 h'))]; exact h2 h

/-- Starting from one pair of related states at a time. -/
theorem follows_each {p : Py σ A} {q : Py τ B} (h : ∀ x y, R x y → ∃ R', Follows R' Q E p q ∧ R' x y) : Follows R Q E p q := by
  intro x y hR
  obtain ⟨R', h1, h2⟩ := h x y hR
  exact h1 x y h2

theorem share {P P' : Prop} (h : P) (k : P → P') : P' := k h

theorem follows_zoom {σ₁ τ₁ : Type} {gs : σ → σ₁} {ss : σ₁ → σ → σ} {gt : τ → τ₁} {st : τ₁ → τ → τ}
    {R₁ : σ₁ → τ₁ → Prop} {Q₁ : A → B → σ₁ → τ₁ → Prop} {E₁ : σ₁ → τ₁ → Prop} {p : Py σ₁ A} {q : Py τ₁ B}
    (h : Follows R₁ Q₁ E₁ p q) (hR : ∀ x y, R x y → R₁ (gs x) (gt y))
    (hQ : ∀ x y, R x y → ∀ a b u v, Q₁ a b u v → Q a b (ss u x) (st v y))
    (hE : ∀ x y, R x y → ∀ u v, E₁ u v → E (ss u x) (st v y)) :
    Follows R Q E (Py.zoom gs ss p) (Py.zoom gt st q) := by
  intro x y hxy r x' hr
  rw [run_zoom] at hr
  cases hp : p.run (gs x) with
  | none => rw [hp] at hr; cases hr
  | some z =>
    obtain ⟨r1, u⟩ := z
    rw [hp] at hr
    simp only [Option.some.injEq, Prod.mk.injEq] at hr
    obtain ⟨rfl, rfl⟩ := hr
    obtain ⟨r', v, g1, g2, g3⟩ := h _ _ (hR x y hxy) _ _ hp
    refine ⟨r', st v y, by rw [run_zoom, g1], ?_, fun he => hE x y hxy _ _ (g3 he)⟩
    cases r1 <;> cases r' <;> first | exact hQ x y hxy _ _ _ _ g2 | exact g2

theorem admissible_follows (q : Py τ B) : Lean.Order.admissible (fun p : Py σ A => Follows R Q E p q) := by
  have := admissible_post (σ := σ) (A := A) (fun x r x' => ∀ y, R x y → ∃ r' y', q.run y = some (r', y') ∧
    ExRel (fun a b => Q a b x' y') r r' ∧ ((∃ e, r = .error e) → E x' y'))
  refine cast (congrArg _ (funext fun p => propext ⟨?_, ?_⟩)) this
  · intro h x y hR r x' hr; exact h x r x' hr y hR
  · intro h x r x' hr y hR; exact h x y hR r x' hr

theorem exRel_mono {Q0 Q1 : A → B → Prop} (h : ∀ a b, Q0 a b → Q1 a b) {u : Except Err A} {v : Except Err B}
    (hu : ExRel Q0 u v) : ExRel Q1 u v := by
  cases u <;> cases v <;> first | exact h _ _ hu | exact hu

theorem exRel_flip {Q0 : A → B → Prop} {u : Except Err A} {v : Except Err B} (hu : ExRel Q0 u v) :
    ExRel (fun b a => Q0 a b) v u := by
  cases u <;> cases v <;> first | exact hu | exact Eq.symm hu

end follows

section api
variable {α : Type} [LinearOrder α]
variable [Add α] [Sub α] [Mul α] [Div α] [Neg α] [Zero α] [One α] [NatCast α] [BEq α]
variable {n m k : Nat} {X Y : Type}

/-- Related arrays: copies with related contents, or views of the same row. -/
def RefRel (vec : Vec α n → Vec α m → Prop) : Ref α n k → Ref α m k → Prop
  | .own v, .own w => vec v w
  | .row i, .row j => i = j
  | _, _ => False

def BoundRel (tm : α → α → Prop) : Bound α → Bound α → Prop
  | .fin a, .fin b => tm a b
  | .inf, .inf => True
  | _, _ => False

/-- `b` is at most `c`: what exceeds `c` exceeds `b`. -/
def Below (b c : Bound α) : Prop := ∀ t, c.exceededBy t = true → b.exceededBy t = true

theorem below_refl (b : Bound α) : Below b b := fun _ h => h

theorem below_inf (b : Bound α) : Below b .inf := fun _ h => by cases h

theorem below_of_gt {b c : Bound α} (h : ¬ b.gt c = true) : Below b c := by
  intro t ht
  cases b <;> cases c <;> simp only [Bound.gt, Bound.exceededBy, decide_eq_true_iff, Bool.false_eq_true, not_true_eq_false, not_lt] at *
  exact lt_of_le_of_lt h ht

/-- Everything the API needs to know about two solvers that run side by side. -/
structure Corr (S : Solver α n k X) (S' : Solver α m k Y) where
  tm : α → α → Prop
  vec : Vec α n → Vec α m → Prop
  st : St α n k X → St α m k Y → Prop
  /-- The times at which a solver with this history may be asked to interpolate. -/
  rng : Buffer α n k → α → Prop
  rng_mono : ∀ {b t u}, rng b t → t ≤ u → rng b u
  rng_last : ∀ b, rng b b.t
  rng_old : ∀ {b t}, b.ts (Buffer.iOld k) ≤ t → rng b t
  lt : ∀ {a a' b b'}, tm a a' → tm b b' → (a < b ↔ a' < b')
  beq : ∀ {a a' b b'}, tm a a' → tm b b' → (a == b) = (a' == b')
  mid : ∀ {a a' b b'}, tm a a' → tm b b' → ExRel tm (pyDiv (a + b) ((2 : Nat) : α)) (pyDiv (a' + b') ((2 : Nat) : α))
  mid_between : ∀ {a b c : α}, pyDiv (a + b) ((2 : Nat) : α) = .ok c → a ≤ b → a ≤ c ∧ c ≤ b
  ts : ∀ {x y}, st x y → ∀ i, tm (x.cache.ts i) (y.cache.ts i)
  ys : ∀ {x y}, st x y → ∀ i, vec (x.cache.ys i) (y.cache.ys i)
  next : ∀ {x y}, st x y → tm (x.cache.t + x.h) (y.cache.t + y.h)
  bound : BoundRel tm S.tBound S'.tBound
  /-- A step that stays within `t_bound`. -/
  body : ∀ b, Follows (fun x y => st x y ∧ x.cache = b ∧ S.tBound.exceededBy (x.cache.t + x.h) = false)
    (fun _ _ x y => st x y ∧ ∀ u, b.t ≤ u → rng x.cache u) st (S.method.body S.rhs) (S'.method.body S'.rhs)
  interp : ∀ {t t'} b, tm t t' → rng b t → Follows (fun x y => st x y ∧ x.cache = b)
    (fun r r' x y => RefRel vec r r' ∧ st x y ∧ x.cache = b) st (S.method.interp S.rhs t) (S'.method.interp S'.rhs t')

namespace Corr
variable {S : Solver α n k X} {S' : Solver α m k Y} (C : Corr S S')

/-- The post-condition of most calls: related values, related states. -/
abbrev post {A B : Type} (Q : A → B → Prop) : A → B → St α n k X → St α m k Y → Prop := fun a b x y => Q a b ∧ C.st x y

/-- Related results side by side. -/
abbrev F {A B : Type} (Q : A → B → Prop) (p : Py (St α n k X) A) (q : Py (St α m k Y) B) : Prop :=
  Follows C.st (C.post Q) C.st p q

/-- Related results side by side, the history of the first solver being `b` before and after. -/
abbrev FA (b : Buffer α n k) {A B : Type} (Q : A → B → Prop) (p : Py (St α n k X) A) (q : Py (St α m k Y) B) : Prop :=
  Follows (fun x y => C.st x y ∧ x.cache = b) (fun a a' x y => Q a a' ∧ C.st x y ∧ x.cache = b) C.st p q

variable {C}

theorem le {a a' b b' : α} (h1 : C.tm a a') (h2 : C.tm b b') : a ≤ b ↔ a' ≤ b' := by
  rw [← not_lt, ← not_lt, C.lt h2 h1]

theorem bindA {c : Buffer α n k} {A B A' B' : Type} {Q : A → B → Prop} {Q' : A' → B' → Prop} {p : Py (St α n k X) A} {q : Py (St α m k Y) B}
    {f : A → Py (St α n k X) A'} {g : B → Py (St α m k Y) B'} (h1 : C.FA c Q p q)
    (h2 : ∀ a b, Q a b → C.FA c Q' (f a) (g b)) : C.FA c Q' (p >>= f) (q >>= g) :=
  follows_bind h1 fun a b => follows_fact fun h => h2 a b h

theorem pureA {c : Buffer α n k} {A B : Type} {Q : A → B → Prop} {a : A} {b : B} (h : Q a b) : C.FA c Q (pure a) (pure b) :=
  follows_pure fun _ _ hR => ⟨h, hR⟩

theorem throwA {c : Buffer α n k} {A B : Type} {Q : A → B → Prop} {e : Err} :
    C.FA c Q (throw e : Py (St α n k X) A) (throw e : Py (St α m k Y) B) := follows_throw fun _ _ h => h.1

theorem readA {c : Buffer α n k} {A B : Type} {Q : A → B → Prop} {f : St α n k X → Py (St α n k X) A} {g : St α m k Y → Py (St α m k Y) B}
    (h : ∀ x y, C.st x y → x.cache = c → C.FA c Q (f x) (g y)) : C.FA c Q (get >>= f) (get >>= g) :=
  follows_read fun x y h' => h x y h'.1 h'.2

theorem ofExceptA {c : Buffer α n k} {A B : Type} {Q : A → B → Prop} {u : Except Err A} {v : Except Err B} (h : ExRel Q u v) :
    C.FA c Q (Py.ofExcept u) (Py.ofExcept v) := follows_ofExcept h fun _ _ h => h.1

theorem bind {A B A' B' : Type} {Q : A → B → Prop} {Q' : A' → B' → Prop} {p : Py (St α n k X) A} {q : Py (St α m k Y) B}
    {f : A → Py (St α n k X) A'} {g : B → Py (St α m k Y) B'} (h1 : C.F Q p q)
    (h2 : ∀ a b, Q a b → C.F Q' (f a) (g b)) : C.F Q' (p >>= f) (q >>= g) :=
  follows_bind h1 fun a b => follows_fact fun h => h2 a b h

theorem pure' {A B : Type} {Q : A → B → Prop} {a : A} {b : B} (h : Q a b) : C.F Q (pure a) (pure b) :=
  follows_pure fun _ _ hR => ⟨h, hR⟩

theorem throw' {A B : Type} {Q : A → B → Prop} {e : Err} :
    C.F Q (throw e : Py (St α n k X) A) (throw e : Py (St α m k Y) B) := follows_throw fun _ _ h => h

theorem read {A B : Type} {Q : A → B → Prop} {f : St α n k X → Py (St α n k X) A} {g : St α m k Y → Py (St α m k Y) B}
    (h : ∀ x y, C.st x y → C.F Q (f x) (g y)) : C.F Q (get >>= f) (get >>= g) := follows_read h

theorem ofExcept {A B : Type} {Q : A → B → Prop} {u : Except Err A} {v : Except Err B} (h : ExRel Q u v) :
    C.F Q (Py.ofExcept u) (Py.ofExcept v) := follows_ofExcept h fun _ _ h => h

theorem weaken {A B : Type} {Q Q' : A → B → Prop} {p : Py (St α n k X) A} {q : Py (St α m k Y) B} (h : C.F Q p q)
    (hQ : ∀ a b, Q a b → Q' a b) : C.F Q' p q := follows_post h fun a b _ _ h => ⟨hQ a b h.1, h.2⟩

theorem deref {x : St α n k X} {y : St α m k Y} (h : C.st x y) {r : Ref α n k} {r' : Ref α m k} (hr : RefRel C.vec r r') :
    C.vec (r.deref x.cache) (r'.deref y.cache) := by
  cases r <;> cases r' <;> first | exact hr.elim | skip
  · exact hr
  · cases (show _ = _ from hr); exact C.ys h _

theorem exceeded {b b' : Bound α} (hb : BoundRel C.tm b b') {t t' : α} (ht : C.tm t t') :
    b.exceededBy t = b'.exceededBy t' := by
  cases b <;> cases b' <;> first | exact hb.elim | skip
  · simp only [Bound.exceededBy, decide_eq_decide]; exact C.lt hb ht
  · rfl

theorem boundLt {b b' : Bound α} (hb : BoundRel C.tm b b') {t t' : α} (ht : C.tm t t') : b.lt t = b'.lt t' := by
  cases b <;> cases b' <;> first | exact hb.elim | skip
  · simp only [Bound.lt, decide_eq_decide]; exact C.lt hb ht
  · rfl

theorem boundGt {b b' c c' : Bound α} (hb : BoundRel C.tm b b') (hc : BoundRel C.tm c c') : b.gt c = b'.gt c' := by
  cases b <;> cases b' <;> cases c <;> cases c' <;> first | exact hb.elim | exact hc.elim | skip
  · simp only [Bound.gt, decide_eq_decide]; exact C.lt hc hb
  · rfl
  · rfl
  · rfl

theorem pstepAt {b b' : Bound α} (hb : BoundRel C.tm b b') (hw : Below b S.tBound) (c : Buffer α n k) :
    Follows (fun x y => C.st x y ∧ x.cache = c) (fun r r' x y => r = r' ∧ C.st x y ∧
      (r = true → ∀ u, c.t ≤ u → C.rng x.cache u) ∧ (r = false → x.cache = c)) C.st (S.pstep b) (S'.pstep b') := by
  refine follows_get fun x y h => ?_
  refine follows_ite (by rw [exceeded hb (C.next h.1)]) (fun _ => ?_) fun hn => ?_
  · exact follows_pure (by rintro _ _ ⟨rfl, rfl⟩; exact ⟨rfl, h.1, (fun h => by cases h), fun _ => h.2⟩)
  · refine follows_bind (follows_pre (C.body c) ?_) fun _ _ => follows_pure fun _ _ hR => ⟨rfl, hR.1, fun _ => hR.2, fun h => by cases h⟩
    rintro _ _ ⟨rfl, rfl⟩
    exact ⟨h.1, h.2, Bool.eq_false_iff.2 fun hc => hn (hw _ hc)⟩

theorem pstep {b b' : Bound α} (hb : BoundRel C.tm b b') (hw : Below b S.tBound) : C.F Eq (S.pstep b) (S'.pstep b') :=
  follows_each fun x _ h => ⟨_, follows_post (pstepAt hb hw x.cache) fun _ _ _ _ h => ⟨h.1, h.2.1⟩, h, rfl⟩

theorem checkTime {b b' : Bound α} (hb : BoundRel C.tm b b') :
    C.F (fun _ _ => Below b S.tBound) (S.checkTime b) (S'.checkTime b') := by
  refine follows_ite (by rw [boundGt hb C.bound]) (fun _ => throw') fun h => pure' (below_of_gt h)

variable (C) in
/-- Related points. -/
def Pt (p : α × Vec α n) (q : α × Vec α m) : Prop := C.tm p.1 q.1 ∧ C.vec p.2 q.2

variable (C) in
abbrev Pts : List (α × Vec α n) → List (α × Vec α m) → Prop := List.Forall₂ C.Pt

theorem stepsLoop {b b' : Bound α} (hb : BoundRel C.tm b b') (hw : Below b S.tBound) : C.F C.Pts (S.stepsLoop b) (S'.stepsLoop b') := by
  refine stepsLoop.fixpoint_induct S b (fun p => C.F C.Pts p (S'.stepsLoop b')) (admissible_follows _) ?_
  intro loop ih
  rw [Solver.stepsLoop.eq_1 S' b']
  refine bind (pstep hb hw) fun c c' hc => ?_
  subst hc
  refine follows_ite Iff.rfl (fun _ => ?_) fun _ => pure' .nil
  exact read fun x y h => bind ih fun l l' hl => pure' (.cons ⟨C.ts h _, C.ys h _⟩ hl)

theorem skipLoop {b b' : Bound α} (hb : BoundRel C.tm b b') (hw : Below b S.tBound) : C.F (fun _ _ => True) (S.skipLoop b) (S'.skipLoop b') := by
  refine skipLoop.fixpoint_induct S b (fun p => C.F (fun _ _ => True) p (S'.skipLoop b')) (admissible_follows _) ?_
  intro loop ih
  rw [Solver.skipLoop.eq_1 S' b']
  refine bind (pstep hb hw) fun c c' hc => ?_
  subst hc
  exact follows_ite Iff.rfl (fun _ => ih) fun _ => pure' trivial

theorem nstepsLoop {b b' : Bound α} (hb : BoundRel C.tm b b') (hw : Below b S.tBound) (q : Nat) :
    C.F (fun u v => C.Pts u.1 v.1 ∧ u.2 = v.2) (S.nstepsLoop b q) (S'.nstepsLoop b' q) := by
  induction q with
  | zero => exact pure' ⟨.nil, rfl⟩
  | succ q ih =>
    rw [Solver.nstepsLoop, Solver.nstepsLoop]
    refine bind (pstep hb hw) fun c c' hc => ?_
    subst hc
    refine follows_ite Iff.rfl (fun _ => pure' ⟨.nil, rfl⟩) fun _ => ?_
    refine read fun x y h => bind ih ?_
    rintro ⟨l, c⟩ ⟨l', c'⟩ ⟨h1, h2⟩
    exact pure' ⟨.cons ⟨C.ts h _, C.ys h _⟩ h1, h2⟩

theorem nsteps {b b' : Bound α} (hb : BoundRel C.tm b b') (hw : Below b S.tBound) (q : Int) :
    C.F (fun u v => C.Pts u.1 v.1 ∧ u.2 = v.2) (S.nsteps q b) (S'.nsteps q b') :=
  follows_ite Iff.rfl (fun _ => throw') fun _ => nstepsLoop hb hw _

theorem nskipLoop {b b' : Bound α} (hb : BoundRel C.tm b b') (hw : Below b S.tBound) (q : Nat) :
    C.F Eq (S.nskipLoop b q) (S'.nskipLoop b' q) := by
  induction q with
  | zero => exact pure' rfl
  | succ q ih =>
    rw [Solver.nskipLoop, Solver.nskipLoop]
    refine bind (pstep hb hw) fun c c' hc => ?_
    subst hc
    exact follows_ite Iff.rfl (fun _ => pure' rfl) fun _ => ih

variable (C) in
inductive StepRel : StepOut α n k → StepOut α m k → Prop
  | arrays {l : List (α × Vec α n)} {l' : List (α × Vec α m)} : C.Pts l l' → StepRel (.arrays l) (.arrays l')
  | single {t t' : α} {r : Ref α n k} {r' : Ref α m k} : C.tm t t' → RefRel C.vec r r' → StepRel (.single t r) (.single t' r')
  | none : StepRel .none .none

def UptoRel (tm : α → α → Prop) : Option (Bound α) → Option (Bound α) → Prop
  | none, none => True
  | some b, some b' => BoundRel tm b b'
  | _, _ => False

theorem inPast {u u' : Option (Bound α)} (hu : UptoRel C.tm u u') {x : St α n k X} {y : St α m k Y} (h : C.st x y) :
    inPast u x = inPast u' y := by
  cases u <;> cases u' <;> first | exact hu.elim | rfl | skip
  exact boundLt hu (C.ts h _)

theorem step (q : Option Int) {u u' : Option (Bound α)} (hu : UptoRel C.tm u u') :
    C.F C.StepRel (S.step q u) (S'.step q u') := by
  refine read fun x y h => ?_
  rw [inPast hu h]
  refine follows_ite Iff.rfl (fun _ => pure' (.arrays .nil)) fun _ => ?_
  cases q <;> cases u <;> cases u' <;> first | exact hu.elim | skip
  · refine bind (pstep C.bound (below_refl _)) fun c c' hc => ?_
    subst hc
    refine follows_ite Iff.rfl (fun _ => ?_) fun _ => pure' .none
    exact read fun x y h => pure' (.single (C.ts h _) rfl)
  · exact bind (checkTime hu) fun _ _ hw => bind (stepsLoop hu hw) fun _ _ h => pure' (.arrays h)
  · refine bind (nsteps C.bound (below_refl _) _) ?_
    rintro ⟨l, c⟩ ⟨l', c'⟩ ⟨h1, h2⟩
    cases h2
    refine follows_ite Iff.rfl (fun _ => ?_) fun _ => pure' (.arrays h1)
    exact throw'
  · refine bind (checkTime hu) fun _ _ hw => bind (nsteps hu hw _) ?_
    rintro ⟨l, c⟩ ⟨l', c'⟩ ⟨h1, h2⟩
    exact pure' (.arrays h1)

theorem skip (q : Option Int) {u u' : Option (Bound α)} (hu : UptoRel C.tm u u') :
    C.F (fun _ _ => True) (S.skip q u) (S'.skip q u') := by
  refine read fun x y h => ?_
  rw [inPast hu h]
  refine follows_ite Iff.rfl (fun _ => pure' trivial) fun _ => ?_
  cases q <;> cases u <;> cases u' <;> first | exact hu.elim | skip
  · exact bind (nskipLoop C.bound (below_refl _) _) fun _ _ _ => pure' trivial
  · exact bind (checkTime hu) fun _ _ hw => skipLoop hu hw
  · refine bind (nskipLoop C.bound (below_refl _) _) fun c c' hc => ?_
    subst hc
    refine follows_ite Iff.rfl (fun _ => throw') fun _ => pure' trivial
  · exact bind (checkTime hu) fun _ _ hw => bind (nskipLoop hu hw _) fun _ _ _ => pure' trivial

theorem interpAt {c : Buffer α n k} {t t' : α} (ht : C.tm t t') (hc : C.rng c t) :
    C.FA c (RefRel C.vec) (S.interpAt t) (S'.interpAt t') := C.interp c ht hc

theorem interpolateA {c : Buffer α n k} {t t' : α} (ht : C.tm t t') :
    C.FA c (RefRel C.vec) (S.interpolate t) (S'.interpolate t') := by
  refine readA fun x y h hx => ?_
  have h1 := le (C.ts h (Buffer.iOld k)) ht
  have h2 := le ht (C.ts h (Buffer.iLast k))
  refine follows_ite ?_ (fun _ => throwA) fun hc => ?_
  · unfold Buffer.t
    rw [decide_eq_decide.2 h1, decide_eq_decide.2 h2]
  · have hc' : x.cache.ts (Buffer.iOld k) ≤ t := by
      by_contra hn
      exact hc (by simp [hn])
    exact interpAt ht (C.rng_old (by rw [← hx]; exact hc'))

theorem interpolate {t t' : α} (ht : C.tm t t') : C.F (RefRel C.vec) (S.interpolate t) (S'.interpolate t') :=
  follows_each fun x _ h => ⟨_, follows_post (interpolateA (c := x.cache) ht) fun _ _ _ _ h => ⟨h.1, h.2.1⟩, h, rfl⟩

variable (C) in
/-- Related states that may interpolate at all times of `L`. -/
def stL (L : List α) (x : St α n k X) (y : St α m k Y) : Prop := C.st x y ∧ ∀ u ∈ L, C.rng x.cache u

theorem advance {b b' : Bound α} (hb : BoundRel C.tm b b') (hw : Below b S.tBound) {t t' : α} (ht : C.tm t t') {L : List α} (hL : ∀ u ∈ L, t ≤ u) :
    Follows (C.stL L) (fun r r' x y => r = r' ∧ C.stL L x y) C.st (S.advance b t) (S'.advance b' t') := by
  refine advance.fixpoint_induct S b t (fun p => Follows (C.stL L) (fun r r' x y => r = r' ∧ C.stL L x y) C.st p (S'.advance b' t'))
    (admissible_follows _) ?_
  intro loop ih
  rw [Solver.advance.eq_1 S' b' t']
  refine follows_get fun x y h => follows_ite (C.lt (C.ts h.1 _) ht) (fun hlt => ?_) fun _ => follows_pure ?_
  · refine follows_bind (follows_pre (pstepAt hb hw x.cache) ?_) fun c c' => ?_
    · rintro _ _ ⟨rfl, rfl⟩; exact ⟨h.1, rfl⟩
    refine follows_fact fun hc => ?_
    subst hc
    refine follows_ite Iff.rfl (fun hc => follows_pre ih ?_) fun hc => follows_pure ?_
    · rintro x1 y1 ⟨h1, h2, -⟩
      exact ⟨h1, fun u hu => h2 hc u (hlt.le.trans (hL u hu))⟩
    · rintro x1 y1 ⟨h1, -, h2⟩
      exact ⟨rfl, h1, fun u hu => by rw [h2 (by simpa using hc)]; exact h.2 u hu⟩
  · rintro _ _ ⟨rfl, rfl⟩; exact ⟨rfl, h⟩

theorem runEval {b b' : Bound α} (hb : BoundRel C.tm b b') (hw : Below b S.tBound) {l l' : List α} (hl : List.Forall₂ C.tm l l') (hs : l.Pairwise (· ≤ ·)) :
    Follows (C.stL l) (C.post C.Pts) C.st (S.runEval b l) (S'.runEval b' l') := by
  induction hl with
  | nil => exact follows_pure fun _ _ h => ⟨.nil, h.1⟩
  | @cons t t' l l' ht hl ih =>
    rw [Solver.runEval, Solver.runEval]
    obtain ⟨hs1, hs2⟩ := List.pairwise_cons.mp hs
    refine follows_bind (advance hb hw ht (L := t :: l) ?_) fun c c' => follows_fact fun hc => ?_
    · intro u hu
      rcases List.mem_cons.mp hu with rfl | hu
      · exact le_refl _
      · exact hs1 u hu
    subst hc
    refine follows_ite Iff.rfl (fun _ => ?_) fun _ => follows_pure fun _ _ h => ⟨.nil, h.1⟩
    refine follows_each fun x0 y0 h0 => ⟨fun x y => C.st x y ∧ x.cache = x0.cache, ?_, ⟨h0.1, rfl⟩⟩
    refine follows_bind (interpAt (c := x0.cache) ht (h0.2 t List.mem_cons_self)) fun r r' => follows_fact fun hr => follows_read fun x y h => ?_
    refine follows_bind (follows_pre (ih hs2) ?_) fun o o' => follows_fact fun ho => follows_pure fun _ _ h' => ⟨?_, h'⟩
    · rintro x1 y1 ⟨h1, h2⟩
      exact ⟨h1, fun u hu => by rw [h2]; exact h0.2 u (List.mem_cons_of_mem _ hu)⟩
    · exact .cons ⟨ht, deref h.1 hr⟩ ho

/-! ### Events -/

variable (C) in
/-- Related event objects. -/
structure EvRel (e : Event α n k) (e' : Event α m k) : Prop where
  func : ∀ t t' y y', C.tm t t' → C.vec y y' → e.func t y = e'.func t' y'
  isTerminal : e.isTerminal = e'.isTerminal
  direction : e.direction = e'.direction
  lastT : C.tm e.lastT e'.lastT
  lastValue : e.lastValue = e'.lastValue
  t : List.Forall₂ C.tm e.t e'.t
  y : List.Forall₂ (RefRel C.vec) e.y e'.y

variable (C) in
/-- Related user events. -/
structure SpecRel (e : EventSpec α n) (e' : EventSpec α m) : Prop where
  func : ∀ t t' y y', C.tm t t' → C.vec y y' → e.func t y = e'.func t' y'
  terminal : e.terminal = e'.terminal
  direction : e.direction = e'.direction

def OptRel {A B : Type} (Q : A → B → Prop) : Option A → Option B → Prop
  | none, none => True
  | some a, some b => Q a b
  | _, _ => False

variable (C) in
def LastRel : Option (α × Ref α n k) → Option (α × Ref α m k) → Prop :=
  OptRel fun p q => C.tm p.1 q.1 ∧ RefRel C.vec p.2 q.2

variable (C) in
structure HandlerRel (e : EventHandler α n k) (e' : EventHandler α m k) : Prop where
  events : List.Forall₂ C.EvRel e.events e'.events
  last : C.LastRel e.lastEvent e'.lastEvent

theorem forall₂_getLast {A B : Type} {Q : A → B → Prop} {l : List A} {l' : List B} (h : List.Forall₂ Q l l') :
    OptRel Q l.getLast? l'.getLast? := by
  induction h with
  | nil => trivial
  | cons h1 h2 ih =>
    cases h2 with
    | nil => exact h1
    | cons h3 h4 => simpa using ih

theorem forall₂_append {A B : Type} {Q : A → B → Prop} {l l2 : List A} {l' l2' : List B} (h : List.Forall₂ Q l l')
    (h2 : List.Forall₂ Q l2 l2') : List.Forall₂ Q (l ++ l2) (l' ++ l2') := by
  induction h with
  | nil => exact h2
  | cons h1 _ ih => exact .cons h1 ih

theorem forall₂_snoc {A B : Type} {Q : A → B → Prop} {l : List A} {l' : List B} (h : List.Forall₂ Q l l') {a : A} {b : B}
    (hab : Q a b) : List.Forall₂ Q (l ++ [a]) (l' ++ [b]) := forall₂_append h (.cons hab .nil)

theorem eventAtSol {c : Buffer α n k} {f : α → Vec α n → α} {f' : α → Vec α m → α}
    (hf : ∀ t t' y y', C.tm t t' → C.vec y y' → f t y = f' t' y') {t t' : α} (ht : C.tm t t') (hc : C.rng c t) :
    C.FA c Eq (eventAtSol f S.interpAt t) (eventAtSol f' S'.interpAt t') :=
  bindA (interpAt ht hc) fun _ _ hr => readA fun _ _ h _ => pureA (hf _ _ _ _ ht (deref h hr))

theorem bisectLoop {c : Buffer α n k} {fn : α → Py (St α n k X) α} {fn' : α → Py (St α m k Y) α}
    (hfn : ∀ t t', C.tm t t' → C.rng c t → C.FA c Eq (fn t) (fn' t')) (tol rtol : α) (q : Nat) :
    ∀ l l' yl r r' d d', C.tm l l' → C.tm r r' → OptRel (fun a b => C.tm a b ∧ C.rng c a) d d' → l ≤ r → C.rng c l →
      C.FA c (fun a b => C.tm a b ∧ C.rng c a) (bisectLoop fn tol rtol q l yl r d) (bisectLoop fn' tol rtol q l' yl r' d') := by
  induction q with
  | zero =>
    intro l l' yl r r' d d' _ _ hd _ _
    cases d <;> cases d' <;> first | exact hd.elim | skip
    · exact throwA
    · exact pureA hd
  | succ q ih =>
    intro l l' yl r r' d d' hl hr _ hlr hc
    rw [Nbkode.bisectLoop, Nbkode.bisectLoop]
    have hm : ExRel (fun a b => C.tm a b ∧ l ≤ a ∧ a ≤ r) (pyDiv (l + r) ((2 : Nat) : α)) (pyDiv (l' + r') ((2 : Nat) : α)) := by
      have h1 := C.mid hl hr
      cases h2 : pyDiv (l + r) ((2 : Nat) : α) with
      | error e => rw [h2] at h1; revert h1; cases pyDiv (l' + r') ((2 : Nat) : α) <;> exact fun h => h
      | ok a =>
        rw [h2] at h1
        revert h1
        cases pyDiv (l' + r') ((2 : Nat) : α) with
        | error e => exact fun h => h
        | ok b => exact fun h => ⟨h, C.mid_between h2 hlr⟩
    refine bindA (ofExceptA hm) fun a a' ⟨ha, ha1, ha2⟩ => ?_
    have hca := C.rng_mono hc ha1
    refine bindA (hfn _ _ ha hca) fun v v' hv => ?_
    subst hv
    refine follows_ite Iff.rfl (fun _ => pureA ⟨ha, hca⟩) fun _ => follows_ite Iff.rfl (fun _ => ?_) fun _ => ?_
    · exact ih _ _ _ _ _ _ _ ha hr ⟨ha, hca⟩ ha2 hca
    · exact ih _ _ _ _ _ _ _ hl ha ⟨ha, hca⟩ ha1 hc

theorem bisect {c : Buffer α n k} {fn : α → Py (St α n k X) α} {fn' : α → Py (St α m k Y) α}
    (hfn : ∀ t t', C.tm t t' → C.rng c t → C.FA c Eq (fn t) (fn' t')) (tol rtol : α) (q : Nat) {l l' r r' : α} (hl : C.tm l l')
    (hr : C.tm r r') (hc : C.rng c l) :
    C.FA c (fun a b => C.tm a b ∧ C.rng c a) (bisect fn l r tol q rtol) (bisect fn' l' r' tol q rtol) := by
  unfold Nbkode.bisect
  by_cases hlr : l < r
  · have hlr' := (C.lt hl hr).1 hlr
    simp only [hlr, hlr', decide_true, Bool.not_true, Bool.false_eq_true, if_false]
    have hcr := C.rng_mono hc hlr.le
    refine bindA (hfn _ _ hl hc) fun v v' hv => ?_
    subst hv
    refine follows_ite Iff.rfl (fun _ => pureA ⟨hl, hc⟩) fun _ => bindA (hfn _ _ hr hcr) fun w w' hw => ?_
    subst hw
    refine follows_ite Iff.rfl (fun _ => pureA ⟨hr, hcr⟩) fun _ => ?_
    refine follows_ite Iff.rfl (fun _ => bindA (Q := fun _ _ => True) throwA fun _ _ _ => ?_) fun _ => ?_
    · exact bisectLoop hfn _ _ _ _ _ _ _ _ _ _ hl hr trivial hlr.le hc
    · exact bisectLoop hfn _ _ _ _ _ _ _ _ _ _ hl hr trivial hlr.le hc
  · have hlr' : ¬ l' < r' := fun h => hlr ((C.lt hl hr).2 h)
    rw [if_pos (by simp [hlr]), if_pos (by simp [hlr'])]
    intro x y h res x' hres
    rw [run_bind, run_throw, andThen_error] at hres
    cases hres
    exact ⟨.error .valueError, y, by rw [run_bind, run_throw, andThen_error], rfl, fun _ => h.1⟩

theorem event {c : Buffer α n k} (bo : BisectOpts α) {e : Event α n k} {e' : Event α m k} (he : C.EvRel e e') (hc : C.rng c e.lastT) :
    C.FA c (fun p q => C.EvRel p.1 q.1 ∧ p.2 = q.2 ∧ p.1.lastT = c.t) (e.evaluate bo S.interpAt) (e'.evaluate bo S'.interpAt) := by
  unfold Event.evaluate
  refine readA fun x y h hx => ?_
  have hv : e.func x.cache.t x.cache.y = e'.func y.cache.t y.cache.y := he.func _ _ _ _ (C.ts h _) (C.ys h _)
  have ht : C.tm x.cache.t y.cache.t := C.ts h _
  dsimp only
  rw [hv, he.direction, he.lastValue, he.isTerminal]
  have kont : ∀ w w', C.EvRel w w' → C.FA c (fun p q => C.EvRel p.1 q.1 ∧ p.2 = q.2 ∧ p.1.lastT = c.t)
      (pure ({ w with lastT := x.cache.t, lastValue := e'.func y.cache.t y.cache.y },
        triggers e'.direction e'.lastValue (e'.func y.cache.t y.cache.y) && e'.isTerminal))
      (pure ({ w' with lastT := y.cache.t, lastValue := e'.func y.cache.t y.cache.y },
        triggers e'.direction e'.lastValue (e'.func y.cache.t y.cache.y) && e'.isTerminal)) :=
    fun w w' hw => pureA ⟨{ hw with lastT := ht, lastValue := rfl }, rfl, by rw [hx]⟩
  refine follows_ite Iff.rfl (fun _ => ?_) fun _ => bindA (pureA he) kont
  apply share
  case k =>
    intro main
    exact follows_ite Iff.rfl (fun _ => bindA (Q := fun a b => C.tm a b ∧ C.rng c a) (pureA ⟨ht, by rw [hx]; exact C.rng_last c⟩) main) fun _ =>
      bindA (bisect (fun t t' h h' => eventAtSol he.func h h') _ _ _ he.lastT ht hc) main
  rintro ρ ρ' ⟨hρ, hcρ⟩
  refine follows_ite ?_ (fun _ => bindA (pureA he) kont) fun _ => bindA (interpAt hρ hcρ) fun r r' hr => bindA (pureA ?_) kont
  · have := forall₂_getLast he.t
    revert this
    generalize e.t.getLast? = u
    generalize e'.t.getLast? = v
    intro this
    cases u <;> cases v <;> first | exact this.elim | exact Iff.rfl | exact iff_of_eq (congrArg (· = true) (C.beq this hρ))
  exact { he with isTerminal := rfl, direction := rfl, lastValue := rfl, t := forall₂_snoc he.t hρ, y := forall₂_snoc he.y hr }

theorem lastEvent {e : Event α n k} {e' : Event α m k} (he : C.EvRel e e') : C.LastRel e.lastEvent e'.lastEvent := by
  unfold Event.lastEvent
  have h1 := forall₂_getLast he.t
  have h2 := forall₂_getLast he.y
  revert h1 h2
  cases e.t.getLast? <;> cases e'.t.getLast? <;> cases e.y.getLast? <;> cases e'.y.getLast? <;> intro h1 h2 <;>
    first | exact h1.elim | exact h2.elim | trivial | exact ⟨h1, h2⟩

theorem handlerLoop {c : Buffer α n k} (bo : BisectOpts α) {l : List (Event α n k)} {l' : List (Event α m k)}
    (hl : List.Forall₂ C.EvRel l l') (hc : ∀ e ∈ l, C.rng c e.lastT) :
    ∀ z d d', C.LastRel d d' → C.FA c (fun p q => List.Forall₂ C.EvRel p.1 q.1 ∧ p.2.1 = q.2.1 ∧ C.LastRel p.2.2 q.2.2 ∧
      ∀ e ∈ p.1, e.lastT = c.t) (handlerLoop bo S.interpAt l z d) (handlerLoop bo S'.interpAt l' z d') := by
  induction hl with
  | nil => intro z d d' hd; exact pureA ⟨.nil, rfl, hd, by simp⟩
  | cons he hl ih =>
    intro z d d' hd
    rw [Nbkode.handlerLoop, Nbkode.handlerLoop]
    refine bindA (event bo he (hc _ List.mem_cons_self)) ?_
    rintro ⟨w, stop⟩ ⟨w', stop'⟩ ⟨hw, rfl, hw2⟩
    refine bindA (ih (fun e he => hc e (List.mem_cons_of_mem _ he)) (z || stop) _ _ ?_) ?_
    · cases stop
      · exact hd
      · dsimp only
        have := lastEvent hw
        revert this
        cases w.lastEvent <;> cases w'.lastEvent <;> intro this <;> first | exact this.elim | exact hd | exact this
    · rintro ⟨a, b, u⟩ ⟨a', b', u'⟩ ⟨h1, h2, h3, h4⟩
      refine pureA ⟨.cons hw h1, h2, h3, fun e he => ?_⟩
      rcases List.mem_cons.mp he with rfl | he
      · exact hw2
      · exact h4 e he

theorem handler {c : Buffer α n k} (bo : BisectOpts α) {e : EventHandler α n k} {e' : EventHandler α m k} (he : C.HandlerRel e e')
    (hc : ∀ v ∈ e.events, C.rng c v.lastT) :
    C.FA c (fun p q => C.HandlerRel p.1 q.1 ∧ p.2 = q.2 ∧ ∀ v ∈ p.1.events, v.lastT = c.t)
      (e.evaluate bo S.interpAt) (e'.evaluate bo S'.interpAt) := by
  unfold EventHandler.evaluate
  refine bindA (handlerLoop bo he.events hc _ _ _ he.last) ?_
  rintro ⟨a, b, c⟩ ⟨a', b', c'⟩ ⟨h1, h2, h3, h4⟩
  exact pureA ⟨⟨h1, h3⟩, h2, h4⟩

variable (C) in
/-- Related states that may interpolate at all times of `L`; the events have been evaluated there. -/
def stE (L : List α) (e : EventHandler α n k) (x : St α n k X) (y : St α m k Y) : Prop :=
  C.stL L x y ∧ ∀ v ∈ e.events, v.lastT = x.cache.t

theorem advanceEvents (bo : BisectOpts α) {b b' : Bound α} (hb : BoundRel C.tm b b') (hw : Below b S.tBound) {t t' : α} (ht : C.tm t t') {L : List α}
    (hL : ∀ u ∈ L, t ≤ u) : ∀ e e', C.HandlerRel e e' →
      Follows (C.stE L e) (fun p q x y => (C.HandlerRel p.1 q.1 ∧ p.2 = q.2) ∧ C.stE L p.1 x y) C.st
        (S.advanceEvents bo b t e) (S'.advanceEvents bo b' t' e') := by
  refine advanceEvents.fixpoint_induct S bo b t (fun g => ∀ e e', C.HandlerRel e e' →
    Follows (C.stE L e) (fun p q x y => (C.HandlerRel p.1 q.1 ∧ p.2 = q.2) ∧ C.stE L p.1 x y) C.st
      (g e) (S'.advanceEvents bo b' t' e')) ?_ ?_
  · refine Lean.Order.admissible_pi_apply (fun e (P : Py (St α n k X) (EventHandler α n k × AdvRes)) => ∀ e', C.HandlerRel e e' →
      Follows (C.stE L e) (fun p q x y => (C.HandlerRel p.1 q.1 ∧ p.2 = q.2) ∧ C.stE L p.1 x y) C.st
        P (S'.advanceEvents bo b' t' e')) fun e => ?_
    refine Lean.Order.admissible_pi _ fun e' => Lean.Order.admissible_pi _ fun _ => admissible_follows _
  · intro loop ih e e' he
    rw [Solver.advanceEvents.eq_1 S' bo b' t' e']
    refine follows_get fun x y h => follows_ite (C.lt (C.ts h.1.1 _) ht) (fun hlt => ?_) fun _ => follows_pure ?_
    · refine follows_bind (follows_pre (pstepAt hb hw x.cache) ?_) fun c c' => ?_
      · rintro _ _ ⟨rfl, rfl⟩; exact ⟨h.1.1, rfl⟩
      refine follows_fact fun hc => ?_
      subst hc
      refine follows_ite Iff.rfl (fun hc => ?_) fun hc => follows_pure ?_
      · refine follows_each fun x1 y1 h1 => ⟨fun x y => C.st x y ∧ x.cache = x1.cache, ?_, ⟨h1.1, rfl⟩⟩
        have hr := h1.2.1 hc
        refine follows_bind (handler (c := x1.cache) bo he fun v hv => hr _ (by rw [h.2 v hv])) ?_
        rintro ⟨w, stop⟩ ⟨w', stop'⟩
        refine follows_fact ?_
        rintro ⟨hw, hst, hw2⟩
        cases (show stop = stop' from hst)
        have hL2 : ∀ x2 y2, (C.st x2 y2 ∧ x2.cache = x1.cache) → C.stE L w x2 y2 := by
          rintro x2 y2 ⟨g1, g2⟩
          exact ⟨⟨g1, fun u hu => by rw [g2]; exact hr u (hlt.le.trans (hL u hu))⟩, fun v hv => by rw [g2]; exact hw2 v hv⟩
        exact follows_ite Iff.rfl (fun _ => follows_pure fun x2 y2 h2 => ⟨⟨hw, rfl⟩, hL2 x2 y2 h2⟩) fun _ => follows_pre (ih _ _ hw) hL2
      · rintro x1 y1 ⟨h1, -, h2⟩
        have h2 := h2 (by simpa using hc)
        exact ⟨⟨he, rfl⟩, ⟨h1, fun u hu => by rw [h2]; exact h.1.2 u hu⟩, fun v hv => by rw [h2]; exact h.2 v hv⟩
    · rintro _ _ ⟨rfl, rfl⟩; exact ⟨⟨he, rfl⟩, h⟩

theorem runEvalEvents (bo : BisectOpts α) {b b' : Bound α} (hb : BoundRel C.tm b b') (hw : Below b S.tBound) {l l' : List α}
    (hl : List.Forall₂ C.tm l l') (hs : l.Pairwise (· ≤ ·)) : ∀ e e', C.HandlerRel e e' →
      Follows (C.stE l e) (C.post fun p q => C.HandlerRel p.1 q.1 ∧ C.Pts p.2 q.2) C.st
        (S.runEvalEvents bo b l e) (S'.runEvalEvents bo b' l' e') := by
  induction hl with
  | nil => intro e e' he; exact follows_pure fun _ _ h => ⟨⟨he, .nil⟩, h.1.1⟩
  | @cons t t' l l' ht hl ih =>
    intro e e' he
    rw [Solver.runEvalEvents, Solver.runEvalEvents]
    obtain ⟨hs1, hs2⟩ := List.pairwise_cons.mp hs
    refine follows_bind (advanceEvents bo hb hw ht (L := t :: l) ?_ _ _ he) ?_
    · intro u hu
      rcases List.mem_cons.mp hu with rfl | hu
      · exact le_refl _
      · exact hs1 u hu
    rintro ⟨w, res⟩ ⟨w', res'⟩
    refine follows_fact ?_
    rintro ⟨hw, hres⟩
    cases (show res = res' from hres)
    cases res
    · refine follows_each fun x0 y0 h0 => ⟨fun x y => C.st x y ∧ x.cache = x0.cache, ?_, ⟨h0.1.1, rfl⟩⟩
      refine follows_bind (interpAt (c := x0.cache) ht (h0.1.2 t List.mem_cons_self)) fun r r' => follows_fact fun hr => follows_read fun x y h => ?_
      refine follows_bind (follows_pre (ih hs2 _ _ hw) ?_) ?_
      · rintro x1 y1 ⟨h1, h2⟩
        exact ⟨⟨h1, fun u hu => by rw [h2]; exact h0.1.2 u (List.mem_cons_of_mem _ hu)⟩, fun v hv => by rw [h2]; exact h0.2 v hv⟩
      rintro ⟨v, o⟩ ⟨v', o'⟩
      refine follows_fact ?_
      rintro ⟨h1, h2⟩
      exact follows_pure fun _ _ h' => ⟨⟨h1, .cons ⟨ht, deref h.1 hr⟩ h2⟩, h'⟩
    · exact follows_pure fun _ _ h => ⟨⟨hw, .nil⟩, h.1.1⟩
    · refine follows_read fun x y h => ?_
      have := hw.last
      revert this
      rcases w.lastEvent with _ | ⟨te, re⟩ <;> rcases w'.lastEvent with _ | ⟨te', re'⟩ <;> intro this <;> first | exact this.elim | skip
      · exact follows_throw fun _ _ h => h.1.1
      · exact follows_pure fun _ _ h' => ⟨⟨hw, .cons ⟨this.1, deref h.1.1 this.2⟩ .nil⟩, h'.1.1⟩

theorem isSorted {l l' : List α} (hl : List.Forall₂ C.tm l l') : isSorted l = isSorted l' := by
  induction hl with
  | nil => rfl
  | cons h1 h2 ih =>
    cases h2 with
    | nil => rfl
    | cons h3 h4 =>
      rw [Solver.isSorted, Solver.isSorted, ih, decide_eq_decide.2 (le h1 h3)]

theorem listMax {l l' : List α} (hl : List.Forall₂ C.tm l l') : ∀ {a a'}, C.tm a a' → C.tm (listMax a l) (listMax a' l') := by
  induction hl with
  | nil => intro a a' h; exact h
  | @cons b b' l l' h1 h2 ih =>
    intro a a' h
    refine ih (a := pyMax a b) (a' := pyMax a' b') ?_
    unfold pyMax
    by_cases hc : a < b
    · rw [if_pos hc, if_pos ((C.lt h h1).1 hc)]; exact h1
    · rw [if_neg hc, if_neg (fun h' => hc ((C.lt h h1).2 h'))]; exact h

theorem fancyIndex_rel {A B : Type} {Q : A → B → Prop} {a : List A} {b : List B} (h : List.Forall₂ Q a b) (idx : List Nat) :
    ExRel (List.Forall₂ Q) (fancyIndex a idx) (fancyIndex b idx) := by
  unfold fancyIndex
  induction idx with
  | nil => exact List.Forall₂.nil
  | cons i idx ih =>
    rw [List.mapM_cons, List.mapM_cons]
    have hi : OptRel Q a[i]? b[i]? := by
      clear ih
      induction h generalizing i with
      | nil => trivial
      | cons h1 h2 ih2 =>
        cases i with
        | zero => exact h1
        | succ i => simpa using ih2 i
    revert ih
    generalize (List.mapM (fun i => match a[i]? with | some x => Except.ok x | none => Except.error Err.indexError) idx) = u
    generalize (List.mapM (fun i => match b[i]? with | some x => Except.ok x | none => Except.error Err.indexError) idx) = v
    intro ih
    revert hi
    generalize a[i]? = p
    generalize b[i]? = q
    intro hi
    cases p <;> cases q <;> first | exact hi.elim | exact rfl | skip
    cases u <;> cases v <;> first | exact ih | exact List.Forall₂.cons hi ih

theorem checkTimeA {c : Buffer α n k} {b b' : Bound α} (hb : BoundRel C.tm b b') :
    C.FA c (fun _ _ => True) (S.checkTime b) (S'.checkTime b') := by
  refine follows_ite (by rw [boundGt hb C.bound]) (fun _ => throwA) fun _ => pureA trivial

theorem interpolateAll {c : Buffer α n k} {l l' : List α} (hl : List.Forall₂ C.tm l l') :
    C.FA c (List.Forall₂ (RefRel C.vec)) (S.interpolateAll l) (S'.interpolateAll l') := by
  induction hl with
  | nil => exact pureA .nil
  | cons ht hl ih =>
    rw [Solver.interpolateAll, Solver.interpolateAll]
    exact bindA (interpolateA ht) fun _ _ hr => bindA ih fun _ _ hrs => pureA (.cons hr hrs)

theorem filter_rel {A B : Type} {Q : A → B → Prop} {a : List A} {b : List B} (h : List.Forall₂ Q a b) {p : A → Bool} {q : B → Bool}
    (hpq : ∀ x y, Q x y → p x = q y) : List.Forall₂ Q (a.filter p) (b.filter q) := by
  induction h with
  | nil => exact .nil
  | cons h1 h2 ih =>
    rw [List.filter_cons, List.filter_cons, ← hpq _ _ h1]
    split
    · exact .cons h1 ih
    · exact ih

variable (C) in
/-- Related results of `run_events`. -/
structure RunRel (o : RunOut α n k) (o' : RunOut α m k) : Prop where
  out : C.Pts o.out o'.out
  tEvents : List.Forall₂ (List.Forall₂ C.tm) o.tEvents o'.tEvents
  yEvents : List.Forall₂ (List.Forall₂ (RefRel C.vec)) o.yEvents o'.yEvents

theorem zip_rel {A B A' B' : Type} {Q : A → A' → Prop} {Q' : B → B' → Prop} {a : List A} {a' : List A'} (h : List.Forall₂ Q a a')
    {b : List B} {b' : List B'} (h' : List.Forall₂ Q' b b') :
    List.Forall₂ (fun p q => Q p.1 q.1 ∧ Q' p.2 q.2) (a.zip b) (a'.zip b') := by
  induction h generalizing b b' with
  | nil => exact .nil
  | cons h1 h2 ih =>
    cases h' with
    | nil => exact .nil
    | cons h3 h4 => exact .cons ⟨h1, h3⟩ (ih h4)

theorem map_rel {A B A' B' : Type} {Q : A → A' → Prop} {Q' : B → B' → Prop} {a : List A} {a' : List A'} (h : List.Forall₂ Q a a')
    {f : A → B} {f' : A' → B'} (hf : ∀ x y, Q x y → Q' (f x) (f' y)) : List.Forall₂ Q' (a.map f) (a'.map f') := by
  induction h with
  | nil => exact .nil
  | cons h1 h2 ih => exact .cons (hf _ _ h1) ih

theorem runEvents (bo : BisectOpts α) {argsort : List α → List Nat}
    (ha : ∀ l l', List.Forall₂ C.tm l l' → argsort l = argsort l') (hA : ∀ l, IsArgsort l (argsort l)) {l l' : List α} (hl : List.Forall₂ C.tm l l')
    {es : Option (List (EventSpec α n))} {es' : Option (List (EventSpec α m))} (hes : OptRel (List.Forall₂ C.SpecRel) es es') :
    C.F C.RunRel (S.runEvents bo argsort l es) (S'.runEvents bo argsort l' es') := by
  unfold Solver.runEvents
  dsimp only
  rw [← isSorted hl, ← ha l l' hl]
  apply share
  case k =>
    intro main
    refine follows_ite Iff.rfl (fun hso => bind (Q := fun t t' => List.Forall₂ C.tm t t' ∧ t.Pairwise (· ≤ ·))
      (pure' ⟨hl, (isSorted_iff _).mp hso⟩) main) fun _ => bind (ofExcept ?_) main
    have h1 := fancyIndex_rel hl (argsort l)
    obtain ⟨e, hp⟩ := fancyIndex_perm (hA l).perm
    have hst := (hA l).sorted
    rw [e] at h1 ⊢
    revert h1
    cases fancyIndex l' (argsort l) with
    | error _ => exact fun h => h
    | ok t' => exact fun h => ⟨h, hst⟩
  · rintro t t' ⟨ht, hsorted⟩
    cases ht with
    | nil => exact throw'
    | cons h0 htl =>
      rename_i t0 t0' tl tl'
      have hall : List.Forall₂ C.tm (t0 :: tl) (t0' :: tl') := .cons h0 htl
      dsimp only
      refine follows_get fun x y h => follows_pre (R := fun u v => C.st u v ∧ u.cache = x.cache) ?_ (by rintro _ _ ⟨rfl, rfl⟩; exact ⟨h, rfl⟩)
      have hg : List.Forall₂ C.SpecRel (es.getD []) (es'.getD []) := by
        cases es <;> cases es' <;> first | exact hes.elim | exact .nil | exact hes
      have hempty : (es.getD []).isEmpty = (es'.getD []).isEmpty := by
        revert hg
        cases es.getD [] <;> cases es'.getD [] <;> intro hg <;> first | rfl | cases hg
      have hold : List.Forall₂ C.tm ((t0 :: tl).filter fun ti => decide (ti ≤ x.t)) ((t0' :: tl').filter fun ti => decide (ti ≤ y.t)) :=
        filter_rel hall fun a b hab => decide_eq_decide.2 (le hab (C.ts h _))
      have hrun : List.Forall₂ C.tm ((t0 :: tl).filter fun ti => !decide (ti ≤ x.t)) ((t0' :: tl').filter fun ti => !decide (ti ≤ y.t)) :=
        filter_rel hall fun a b hab => congrArg (! ·) (decide_eq_decide.2 (le hab (C.ts h _)))
      have hoe : ((t0 :: tl).filter fun ti => decide (ti ≤ x.t)).isEmpty = ((t0' :: tl').filter fun ti => decide (ti ≤ y.t)).isEmpty := by
        revert hold
        generalize ((t0 :: tl).filter fun ti => decide (ti ≤ x.t)) = u
        generalize ((t0' :: tl').filter fun ti => decide (ti ≤ y.t)) = v
        intro hold
        cases hold <;> rfl
      rw [hempty, hoe]
      have hruns := hsorted.filter (fun ti => !decide (ti ≤ x.t))
      have hgt : ∀ u ∈ (t0 :: tl).filter (fun ti => !decide (ti ≤ x.t)), x.t ≤ u := by
        intro u hu
        have := (List.mem_filter.mp hu).2
        simp only [Bool.not_eq_true', decide_eq_false_iff_not, not_le] at this
        exact this.le
      have hxt : x.t = x.cache.t := rfl
      revert hold hrun hruns hgt
      generalize ((t0 :: tl).filter fun ti => decide (ti ≤ x.t)) = u
      generalize ((t0' :: tl').filter fun ti => decide (ti ≤ y.t)) = v
      generalize ((t0 :: tl).filter fun ti => !decide (ti ≤ x.t)) = w
      generalize ((t0' :: tl').filter fun ti => !decide (ti ≤ y.t)) = z
      intro hold hrun hruns hgt
      apply share
      case k =>
        intro tail
        exact follows_ite (C.lt h0 (C.ts h _)) (fun _ => follows_bind (throwA (Q := fun _ _ => True)) fun _ _ => follows_fact fun _ => tail) fun _ => tail
      refine follows_bind (checkTimeA (b := .fin (Solver.listMax t0 tl)) (b' := .fin (Solver.listMax t0' tl')) (listMax htl h0)) fun _ _ => follows_fact fun _ => ?_
      refine follows_bind (interpolateAll hold) fun rs rs' => follows_fact fun hrs => follows_read fun x1 y1 ⟨h1, hx1⟩ => ?_
      apply share
      case k =>
        intro last
        refine follows_ite Iff.rfl (fun _ => ?_) fun _ => ?_
        · refine follows_bind (follows_pre (runEval C.bound (below_refl _) hrun hruns) ?_) fun _ _ => follows_fact fun ho => ?_
          · rintro u v ⟨g1, g2⟩
            exact ⟨g1, fun q hq => by rw [g2]; exact C.rng_mono (C.rng_last _) (hgt q hq)⟩
          exact bind (Q := fun p q => C.Pts p.1 q.1 ∧ List.Forall₂ (List.Forall₂ C.tm) p.2.1 q.2.1 ∧
              List.Forall₂ (List.Forall₂ (RefRel C.vec)) p.2.2 q.2.2) (pure' ⟨ho, .nil, .nil⟩) last
        · refine follows_read fun x2 y2 ⟨h2, hx2⟩ => follows_bind (follows_pre (runEvalEvents bo C.bound (below_refl _) hrun hruns _ _ ⟨?_, trivial⟩) ?_) ?_
          · refine map_rel hg fun e e' he => ?_
            exact { func := he.func, isTerminal := by simp only [buildEvent, he.terminal],
                    direction := by simp only [buildEvent, he.direction], lastT := C.ts h2 _,
                    lastValue := he.func _ _ _ _ (C.ts h2 _) (C.ys h2 _), t := .nil, y := .nil }
          · rintro u v ⟨g1, g2⟩
            refine ⟨⟨g1, fun q hq => by rw [g2]; exact C.rng_mono (C.rng_last _) (hgt q hq)⟩, fun v hv => ?_⟩
            obtain ⟨e, -, rfl⟩ := List.mem_map.mp hv
            show x2.cache.t = u.cache.t
            rw [hx2, g2]
          · rintro ⟨e, o⟩ ⟨e', o'⟩
            refine follows_fact ?_
            rintro ⟨he, ho⟩
            exact bind (pure' ⟨ho, map_rel he.events fun _ _ h => h.t, map_rel he.events fun _ _ h => h.y⟩) last
      rintro ⟨o, tE, yE⟩ ⟨o', tE', yE'⟩ ⟨g1, g2, g3⟩
      have hout : C.Pts (u.zip (rs.map fun r => r.deref x1.cache) ++ o) (v.zip (rs'.map fun r => r.deref y1.cache) ++ o') :=
        forall₂_append (zip_rel hold (map_rel hrs fun r r' hr => deref h1 hr)) g1
      apply share
      case k =>
        intro fin
        exact follows_ite Iff.rfl (fun _ => bind (Q := fun _ _ => True) throw' fun _ _ _ => fin) fun _ => fin
      refine follows_ite Iff.rfl (fun _ => pure' ⟨hout, g2, g3⟩) fun _ => ?_
      exact bind (ofExcept (fancyIndex_rel hout _)) fun _ _ ho => pure' ⟨ho, g2, g3⟩

theorem run (bo : BisectOpts α) {argsort : List α → List Nat}
    (ha : ∀ l l', List.Forall₂ C.tm l l' → argsort l = argsort l') (hA : ∀ l, IsArgsort l (argsort l)) {l l' : List α} (hl : List.Forall₂ C.tm l l') :
    C.F C.Pts (S.run bo argsort l) (S'.run bo argsort l') :=
  bind (runEvents bo ha hA hl (es := none) (es' := none) trivial) fun _ _ h => pure' h.out

/-! ### Calls -/

variable (C) in
inductive CallRel : Call α n → Call α m → Prop
  | step (q : Option Int) {u u' : Option (Bound α)} : UptoRel C.tm u u' → CallRel (.step q u) (.step q u')
  | skip (q : Option Int) {u u' : Option (Bound α)} : UptoRel C.tm u u' → CallRel (.skip q u) (.skip q u')
  | interpolate {t t' : α} : C.tm t t' → CallRel (.interpolate t) (.interpolate t')
  | run {l l' : List α} : List.Forall₂ C.tm l l' → CallRel (.run l) (.run l')
  | runEvents {l l' : List α} {es : Option (List (EventSpec α n))} {es' : Option (List (EventSpec α m))} :
      List.Forall₂ C.tm l l' → OptRel (List.Forall₂ C.SpecRel) es es' → CallRel (.runEvents l es) (.runEvents l' es')

variable (C) in
inductive AnsRel : Answer α n k → Answer α m k → Prop
  | step {o : StepOut α n k} {o' : StepOut α m k} : C.StepRel o o' → AnsRel (.step o) (.step o')
  | skip : AnsRel .skip .skip
  | interpolate {r : Ref α n k} {r' : Ref α m k} : RefRel C.vec r r' → AnsRel (.interpolate r) (.interpolate r')
  | run {o : List (α × Vec α n)} {o' : List (α × Vec α m)} : C.Pts o o' → AnsRel (.run o) (.run o')
  | runEvents {o : RunOut α n k} {o' : RunOut α m k} : C.RunRel o o' → AnsRel (.runEvents o) (.runEvents o')

theorem call (bo : BisectOpts α) {argsort : List α → List Nat}
    (ha : ∀ l l', List.Forall₂ C.tm l l' → argsort l = argsort l') (hA : ∀ l, IsArgsort l (argsort l)) {c : Call α n} {c' : Call α m} (hc : C.CallRel c c') :
    C.F C.AnsRel (c.answer S bo argsort) (c'.answer S' bo argsort) := by
  cases hc with
  | step q hu => exact bind (step q hu) fun _ _ h => pure' (.step h)
  | skip q hu => exact bind (skip q hu) fun _ _ _ => pure' .skip
  | interpolate ht => exact bind (interpolate ht) fun _ _ h => pure' (.interpolate h)
  | run hl => exact bind (run bo ha hA hl) fun _ _ h => pure' (.run h)
  | runEvents hl hes => exact bind (runEvents bo ha hA hl hes) fun _ _ h => pure' (.runEvents h)

end Corr
end api
end Nbkode
