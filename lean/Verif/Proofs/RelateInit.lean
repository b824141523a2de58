import Verif.Proofs.RelateCorr
import Verif.Proofs.Construct
import Verif.Proofs.Halting

/-! Constructors run side by side under a change of variables. -/

set_option autoImplicit false
set_option linter.unusedSectionVars false

namespace Nbkode
open Py Spec Solver

section init
variable {α : Type} [Field α] [LinearOrder α] [IsStrictOrderedRing α]
variable {n m k : Nat} {V : Vars α n m}

theorem Vars.Hist.init (g : Buffer α n k) (g' : Buffer α m k) {t t' : α} {y f : Vec α n} {y' f' : Vec α m} (ht : V.tm t t') (hy : V.vec y y')
    (hf : V.slp f f') : V.Hist (Buffer.init g t y f) (Buffer.init g' t' y' f') := by
  constructor <;> intro i
  · rw [init_ts, init_ts]; exact ht
  · rw [init_ys, init_ys]; exact hy
  · rw [init_fs, init_fs]; exact hf

theorem Vars.Hist.pushN {b : Buffer α n k} {b' : Buffer α m k} (H : V.Hist b b') {t t' : α} {y f : Vec α n} {y' f' : Vec α m} (ht : V.tm t t')
    (hy : V.vec y y') (hf : V.slp f f') (q : Nat) : V.Hist (b.pushN t y f q) (b'.pushN t' y' f' q) := by
  induction q with
  | zero => exact H
  | succ q ih => exact ih.push ht hy hf

/-- The keyword `h` has no effect on a variable-step solver. -/
theorem variableInit_h {X : Type} (o : VarOptions α) (sel : Rhs α n → α → Vec α n → Vec α n → Except Err α) (g : Buffer α n k) (aux : X)
    (rhs : Rhs α n) (t : α) (y : Vec α n) (h h' first : Option α) :
    variableInit o sel g aux rhs t y h first = variableInit o sel g aux rhs t y h' first := by
  unfold variableInit solverInit
  cases rhs t y <;> rfl

theorem fsalInit_h {s d : Nat} (P : Fin (s + 2) → Fin d → α) (o : VarOptions α) (sel : Rhs α n → α → Vec α n → Vec α n → Except Err α)
    (g : Buffer α n 0) (K : Fin (s + 2) → Vec α n) (I : RkItp α n d) (rhs : Rhs α n) (t : α) (y : Vec α n) (h h' first : Option α) :
    fsalInit P o sel g K I rhs t y h first = fsalInit P o sel g K I rhs t y h' first := by
  unfold fsalInit
  rw [variableInit_h _ _ _ _ _ _ _ h h']

theorem dopInit_h (d : DopDense α) (o : VarOptions α) (sel : Rhs α n → α → Vec α n → Vec α n → Except Err α)
    (g : Buffer α n 0) (K : Fin 13 → Vec α n) (I : DopItp α n) (rhs : Rhs α n) (t : α) (y : Vec α n) (h h' first : Option α) :
    dopInit d o sel g K I rhs t y h first = dopInit d o sel g K I rhs t y h' first := by
  unfold dopInit
  rw [variableInit_h _ _ _ _ _ _ _ h h']

variable [BEq α] [LawfulBEq α] (L : V.Lawful)
include L

theorem solverInit_rel {X Y : Type} (g : Buffer α n k) (g' : Buffer α m k) (aux : X) (aux' : Y) {rhs : Rhs α n} {rhs' : Rhs α m}
    (hf : V.RhsRel rhs rhs') {t t' : α} {y : Vec α n} {y' : Vec α m} (ht : V.tm t t') (hy : V.vec y y') {h h' : Option α}
    (hh : V.hr (h.getD 1) (h'.getD 1)) :
    ExRel (fun s s' => V.StRel s s' ∧ (s.aux = aux ∧ s.h = h.getD 1) ∧ ∀ i, s.cache.ts i = t)
      (solverInit g aux rhs t y h) (solverInit g' aux' rhs' t' y' h') := by
  unfold solverInit
  refine exRel_bind L (hf _ _ _ _ ht hy) fun a b hab => ?_
  exact ⟨⟨Vars.Hist.init g g' ht hy hab, hh⟩, ⟨rfl, rfl⟩, fun i => init_ts _ _ _ _ _⟩

/-- What is known of a variable-step solver before its interpolator is updated for the first time. -/
theorem variableInit_rel {X Y : Type} {o o' : VarOptions α} (h1 : o'.maxStep = o.maxStep) (h2 : o.atol < 0 ↔ o'.atol < 0)
    {sel : Rhs α n → α → Vec α n → Vec α n → Except Err α} {sel' : Rhs α m → α → Vec α m → Vec α m → Except Err α}
    (g : Buffer α n k) (g' : Buffer α m k) (aux : X) (aux' : Y) {rhs : Rhs α n} {rhs' : Rhs α m}
    (hf : V.RhsRel rhs rhs') {t t' : α} {y : Vec α n} {y' : Vec α m} (ht : V.tm t t') (hy : V.vec y y') {h h' first first' : Option α}
    (hh : V.hr (h.getD 1) (h'.getD 1))
    (hfirst : Corr.OptRel (fun a b => V.hr a b ∧ 0 < a) first first' ∧
      (first = none → ∀ f f', V.slp f f' → ExRel (fun a b => V.hr a b ∧ 0 < a) (sel rhs t y f) (sel' rhs' t' y' f'))) :
    ExRel (fun s s' => V.StRel s s' ∧ 0 < s.h ∧ ∀ i, s.cache.ts i = t)
      (variableInit o sel g aux rhs t y h first) (variableInit o' sel' g' aux' rhs' t' y' h' first') := by
  have hI := solverInit_rel L g g' aux aux' hf ht hy hh
  unfold variableInit
  cases e : solverInit g aux rhs t y h with
  | error q =>
    cases e' : solverInit g' aux' rhs' t' y' h' with
    | error q' => rw [e, e'] at hI; exact hI
    | ok s' => rw [e, e'] at hI; exact hI.elim
  | ok s =>
    cases e' : solverInit g' aux' rhs' t' y' h' with
    | error q' => rw [e, e'] at hI; exact hI.elim
    | ok s' =>
      rw [e, e'] at hI
      obtain ⟨hs, -, hts⟩ := hI
      have hst : s.t = t ∧ s.y = y ∧ s'.t = t' ∧ s'.y = y' := by
        unfold solverInit at e e'
        cases q : rhs t y with
        | error _ => rw [q] at e; cases e
        | ok f =>
          cases q' : rhs' t' y' with
          | error _ => rw [q'] at e'; cases e'
          | ok f' =>
            rw [q] at e; rw [q'] at e'
            cases e; cases e'
            exact ⟨init_ts _ _ _ _ _, init_ys _ _ _ _ _, init_ts _ _ _ _ _, init_ys _ _ _ _ _⟩
      rw [h1]
      have fin : ExRel (fun s s' => V.StRel s s' ∧ 0 < s.h ∧ ∀ i, s.cache.ts i = t)
          ((match first with | some h => pure h | none => sel rhs s.t s.y s.f) >>= fun h' => (pure { s with h := h' } : Except Err (St α n k X)))
          ((match first' with | some h => pure h | none => sel' rhs' s'.t s'.y s'.f) >>= fun h' => (pure { s' with h := h' } : Except Err (St α m k Y))) := by
        rcases first with _ | a <;> rcases first' with _ | a'
        · have h3 := hfirst.2 rfl s.f s'.f (hs.1.fs _)
          dsimp only
          rw [hst.1, hst.2.1, hst.2.2.1, hst.2.2.2]
          revert h3
          cases sel rhs t y s.f <;> cases sel' rhs' t' y' s'.f <;> intro h3 <;> first | exact h3.elim | exact h3 | skip
          exact ⟨⟨hs.1, h3.1⟩, h3.2, hts⟩
        · exact hfirst.1.elim
        · exact hfirst.1.elim
        · exact ⟨⟨hs.1, hfirst.1.1⟩, hfirst.1.2, hts⟩
      have hc' : ∀ h : ¬ o.atol < 0, ¬ o'.atol < 0 := fun hc h => hc (h2.2 h)
      rcases hM : o.maxStep with mm | _
      · by_cases hm : 0 < mm
        · by_cases hc : o.atol < 0
          · simp [hm, hc, h2.1 hc, bind, Except.bind, ExRel, throw, throwThe, MonadExceptOf.throw]
          · rcases first with _ | a <;> rcases first' with _ | a' <;>
              simpa [hm, hc, hc' hc, bind, Except.bind, pure, Except.pure] using fin
        · simp [hm, bind, Except.bind, ExRel, throw, throwThe, MonadExceptOf.throw]
      · by_cases hc : o.atol < 0
        · simp [hc, h2.1 hc, bind, Except.bind, ExRel, throw, throwThe, MonadExceptOf.throw]
        · rcases first with _ | a <;> rcases first' with _ | a' <;>
            simpa [hc, hc' hc, bind, Except.bind, pure, Except.pure] using fin

theorem fsalInit_rel {s d : Nat} (P : Fin (s + 2) → Fin d → α) {o o' : VarOptions α} (h1 : o'.maxStep = o.maxStep)
    (h2 : o.atol < 0 ↔ o'.atol < 0) {sel : Rhs α n → α → Vec α n → Vec α n → Except Err α}
    {sel' : Rhs α m → α → Vec α m → Vec α m → Except Err α} (g : Buffer α n 0) (g' : Buffer α m 0) (K : Fin (s + 2) → Vec α n)
    (K' : Fin (s + 2) → Vec α m) (I : RkItp α n d) (I' : RkItp α m d) {rhs : Rhs α n} {rhs' : Rhs α m}
    (hf : V.RhsRel rhs rhs') {t t' : α} {y : Vec α n} {y' : Vec α m} (ht : V.tm t t') (hy : V.vec y y') {h h' first first' : Option α}
    (hh : V.hr (h.getD 1) (h'.getD 1))
    (hfirst : Corr.OptRel (fun a b => V.hr a b ∧ 0 < a) first first' ∧
      (first = none → ∀ f f', V.slp f f' → ExRel (fun a b => V.hr a b ∧ 0 < a) (sel rhs t y f) (sel' rhs' t' y' f'))) :
    ExRel V.RkSt (fsalInit P o sel g K I rhs t y h first) (fsalInit P o' sel' g' K' I' rhs' t' y' h' first') := by
  unfold fsalInit
  refine exRel_bind L (variableInit_rel L h1 h2 g g' _ _ hf ht hy hh hfirst) ?_
  rintro x x' ⟨hs, hp, hts⟩
  have e : ∀ {q : Nat} (x : St α q 0 (FsalAux α q s (RkItp α q d))), (rkUpdate P).run x = some (.ok (), { x with aux := { x.aux with itp :=
      { Q := fun j => vdot (fun i => P i j) x.aux.K, updatedT := x.cache.t } } }) := fun x => rfl
  rw [e, e]
  exact ⟨hs, hp, by dsimp only; rw [hts, hts], Or.inl (by dsimp only; rw [hts, hts]), Or.inl (hs.1.ts _), le_refl _,
    Or.inr (by dsimp only [Buffer.t]; rw [hts, hts])⟩

theorem follows_dopUpdate_init (d : DopDense α) {rhs : Rhs α n} {rhs' : Rhs α m} (hf : V.RhsRel rhs rhs') (t : α) :
    Follows (fun x y => V.StRel x y ∧ 0 < x.h ∧ ∀ i, x.cache.ts i = t) (fun _ _ => V.DopSt) (fun _ _ => True)
      (dopUpdate d rhs) (dopUpdate d rhs') := by
  unfold dopUpdate
  refine follows_bind (Q := fun _ _ x y => V.StRel x y ∧ 0 < x.h ∧ ∀ i, x.cache.ts i = t) (follows_modify fun _ _ h => h) fun _ _ => ?_
  refine follows_get fun x y ⟨h, hp, ht⟩ => ?_
  have hdt := L.tm_sub (h.1.ts (Buffer.iLast 0)) (h.1.ts (Buffer.iPrev 0))
  have hz : x.cache.ts (Buffer.iLast 0) - x.cache.ts (Buffer.iPrev 0) = 0 := by rw [ht, ht, sub_self]
  refine follows_bind (Q := fun _ _ x1 y1 => (x1.cache = x.cache ∧ y1.cache = y.cache) ∧ V.StRel x1 y1 ∧ 0 < x1.h)
    (follows_zoom (follows_dopExtra L d hf (h.1.ts _) hdt (h.1.ys _) 0 3 rfl) ?_ ?_ ?_) fun _ _ => follows_modify ?_
  · intro _ _ _; exact Or.inl hz
  · rintro _ _ ⟨rfl, rfl⟩ _ _ u v huv
    exact ⟨⟨rfl, rfl⟩, h, hp⟩
  · intros; trivial
  · rintro p q ⟨⟨c1, c2⟩, g, g'⟩
    have c1' : ∀ i, p.cache.ts i = t := by intro i; rw [c1, ht]
    refine ⟨g, g', ?_, Or.inl ?_, Or.inl (h.1.ts _), ?_, Or.inr ?_⟩ <;> dsimp only <;> rw [c1']
    · rw [c1']
    · rw [c1']
    · rw [ht]
    · rw [ht]

theorem dopInit_rel (d : DopDense α) {o o' : VarOptions α} (h1 : o'.maxStep = o.maxStep)
    (h2 : o.atol < 0 ↔ o'.atol < 0) {sel : Rhs α n → α → Vec α n → Vec α n → Except Err α}
    {sel' : Rhs α m → α → Vec α m → Vec α m → Except Err α} (g : Buffer α n 0) (g' : Buffer α m 0) (K : Fin 13 → Vec α n)
    (K' : Fin 13 → Vec α m) (I : DopItp α n) (I' : DopItp α m) {rhs : Rhs α n} {rhs' : Rhs α m}
    (hf : V.RhsRel rhs rhs') {t t' : α} {y : Vec α n} {y' : Vec α m} (ht : V.tm t t') (hy : V.vec y y') {h h' first first' : Option α}
    (hh : V.hr (h.getD 1) (h'.getD 1))
    (hfirst : Corr.OptRel (fun a b => V.hr a b ∧ 0 < a) first first' ∧
      (first = none → ∀ f f', V.slp f f' → ExRel (fun a b => V.hr a b ∧ 0 < a) (sel rhs t y f) (sel' rhs' t' y' f'))) :
    ExRel V.DopSt (dopInit d o sel g K I rhs t y h first) (dopInit d o' sel' g' K' I' rhs' t' y' h' first') := by
  unfold dopInit
  refine exRel_bind L (variableInit_rel L h1 h2 g g' _ _ hf ht hy hh hfirst) ?_
  intro x x' hx
  obtain ⟨r, x1, hr⟩ := dopUpdate_returns d rhs x
  obtain ⟨r', x1', hr', g1, -⟩ := follows_dopUpdate_init L d hf t x x' hx r x1 hr
  rw [hr, hr']
  cases r <;> cases r' <;> first | exact g1.elim | exact g1

/-! ### Multistep methods -/

theorem follows_startFixed {k' : Nat} {X Y : Type} {S : Solver α n k' X} {S' : Solver α m k' Y} (C : Corr S S')
    (hC : ∀ x y, C.st x y → V.StRel x y) (q : Nat) : ∀ (b : Buffer α n k) (b' : Buffer α m k), V.Hist b b' →
      Follows C.st (fun u v _ _ => V.Hist u v) C.st (startFixed S q b) (startFixed S' q b') := by
  induction q with
  | zero => intro b b' h; exact follows_pure fun _ _ _ => h
  | succ q ih =>
    intro b b' h
    rw [startFixed, startFixed]
    refine follows_bind (C.step none (u := none) (u' := none) trivial) fun _ _ => follows_fact fun _ => follows_read fun x y hxy => ?_
    have := (hC _ _ hxy).1
    exact ih _ _ (h.push (this.ts _) (this.ys _) (this.fs _))

omit [LawfulBEq α] [BEq α] [Field α] [LinearOrder α] [IsStrictOrderedRing α] L in
theorem runFrom_rel {σ τ A B : Type} {R R1 : σ → τ → Prop} {R' R1' : τ → σ → Prop} {Q : A → B → Prop} {Q' : B → A → Prop}
    {p : Py σ A} {q : Py τ B} (h : Follows R (fun a b _ _ => Q a b) R1 p q) (h' : Follows R' (fun a b _ _ => Q' a b) R1' q p) {x : σ} {y : τ}
    (hx : R x y) (hy : R' y x) : Corr.OptRel (ExRel Q) (runFrom x p) (runFrom y q) := by
  unfold runFrom
  cases e : p.run x with
  | some z =>
    obtain ⟨r', y', g1, g2, -⟩ := h x y hx z.1 z.2 e
    rw [g1]
    exact g2
  | none =>
    cases e' : q.run y with
    | none => trivial
    | some z =>
      obtain ⟨r', y', g1, g2, -⟩ := h' y x hy z.1 z.2 e'
      rw [e] at g1; cases g1

/-- The starters of two multistep solvers correspond. -/
inductive StarterRel (V : Vars α n m) (rhs : Rhs α n) (rhs' : Rhs α m) (p : Nat) (t t' : α) (y : Vec α n) (y' : Vec α m) (h h' : α) :
    Starter α n → Starter α m → Prop
  | none : StarterRel V rhs rhs' p t t' y y' h h' .none .none
  | fixed {k' : Nat} {X Y : Type} {M : Method α n k' X} {M' : Method α m k' Y} {mk : Rhs α n → α → Vec α n → Option α → Except Err (St α n k' X)}
      {mk' : Rhs α m → α → Vec α m → Option α → Except Err (St α m k' Y)}
      (C : Corr ⟨M, rhs, .inf⟩ ⟨M', rhs', .inf⟩) (D : Corr ⟨M', rhs', .inf⟩ ⟨M, rhs, .inf⟩) :
      (∀ x y, C.st x y → V.StRel x y) → (∀ x y, D.st x y → V.flip.StRel x y) →
      ExRel (fun x x' => C.st x x' ∧ D.st x' x) (mk rhs t y (some h)) (mk' rhs' t' y' (some h')) →
      StarterRel V rhs rhs' p t t' y y' h h' (.fixed M mk) (.fixed M' mk')
  | var {k' : Nat} {X Y : Type} {M : Method α n k' X} {M' : Method α m k' Y} {mk : Rhs α n → α → Vec α n → Except Err (St α n k' X)}
      {mk' : Rhs α m → α → Vec α m → Except Err (St α m k' Y)}
      (C : Corr ⟨M, rhs, .inf⟩ ⟨M', rhs', .inf⟩) (D : Corr ⟨M', rhs', .inf⟩ ⟨M, rhs, .inf⟩) :
      C.tm = V.tm → C.vec = V.vec → D.tm = V.flip.tm → D.vec = V.flip.vec →
      ExRel (fun x x' => C.st x x' ∧ D.st x' x) (mk rhs t y) (mk' rhs' t' y') →
      List.Forall₂ V.tm (startTimes p h) (startTimes p h') →
      StarterRel V rhs rhs' p t t' y y' h h' (.variable M mk) (.variable M' mk')

omit [BEq α] [LawfulBEq α] L in
theorem pushAll_rel {rhs : Rhs α n} {rhs' : Rhs α m} (hf : V.RhsRel rhs rhs') {l : List (α × Vec α n)} {l' : List (α × Vec α m)}
    (hl : List.Forall₂ (fun p q => V.tm p.1 q.1 ∧ V.vec p.2 q.2) l l') : ∀ {b : Buffer α n k} {b' : Buffer α m k}, V.Hist b b' →
      ExRel V.Hist (pushAll rhs l b) (pushAll rhs' l' b') := by
  induction hl with
  | nil => intro b b' h; exact h
  | @cons x x' l l' hx hl ih =>
    intro b b' h
    obtain ⟨t, y⟩ := x
    obtain ⟨t', y'⟩ := x'
    rw [pushAll, pushAll]
    have h1 := hf t t' y y' hx.1 hx.2
    revert h1
    cases rhs t y <;> cases rhs' t' y' <;> intro h1 <;> first | exact h1.elim | exact h1 | exact ih (h.push hx.1 hx.2 h1)

theorem multistepInit_rel {p : Nat} (g : Buffer α n (histExtra p)) (g' : Buffer α m (histExtra p)) (bo : BisectOpts α)
    {argsort : List α → List Nat} (ha : ∀ l l', List.Forall₂ V.tm l l' → argsort l = argsort l') (hA : ∀ l, IsArgsort l (argsort l))
    {rhs : Rhs α n} {rhs' : Rhs α m} (hf : V.RhsRel rhs rhs') {t t' : α} {y : Vec α n} {y' : Vec α m} (ht : V.tm t t') (hy : V.vec y y')
    {h h' : Option α} (hh : V.hr (h.getD 1) (h'.getD 1)) {str : Starter α n} {str' : Starter α m}
    (hs : StarterRel V rhs rhs' p t t' y y' (h.getD 1) (h'.getD 1) str str') :
    Corr.OptRel (ExRel V.StRel) (multistepInit g bo argsort str rhs t y h) (multistepInit g' bo argsort str' rhs' t' y' h') := by
  have hI := solverInit_rel L g g' () () hf ht hy hh
  unfold multistepInit
  cases e : solverInit g () rhs t y h with
  | error q =>
    cases e' : solverInit g' () rhs' t' y' h' with
    | error q' => rw [e, e'] at hI; exact hI
    | ok s' => rw [e, e'] at hI; exact hI.elim
  | ok s =>
    cases e' : solverInit g' () rhs' t' y' h' with
    | error q' => rw [e, e'] at hI; exact hI.elim
    | ok s' =>
      rw [e, e'] at hI
      obtain ⟨hst, -, -⟩ := hI
      have hval : (s.t = t ∧ s.y = y ∧ s.h = h.getD 1) ∧ s'.t = t' ∧ s'.y = y' ∧ s'.h = h'.getD 1 := by
        unfold solverInit at e e'
        cases q : rhs t y with
        | error _ => rw [q] at e; cases e
        | ok f =>
          cases q' : rhs' t' y' with
          | error _ => rw [q'] at e'; cases e'
          | ok f' =>
            rw [q] at e; rw [q'] at e'
            cases e; cases e'
            exact ⟨⟨init_ts _ _ _ _ _, init_ys _ _ _ _ _, rfl⟩, init_ts _ _ _ _ _, init_ys _ _ _ _ _, rfl⟩
      have full : Corr.OptRel (ExRel V.StRel)
          (some (.ok { s with cache := s.cache.pushN s.t s.y s.f (histExtra p + 1) }) : Option (Except Err (St α n (histExtra p) Unit)))
          (some (.ok { s' with cache := s'.cache.pushN s'.t s'.y s'.f (histExtra p + 1) }) : Option (Except Err (St α m (histExtra p) Unit))) :=
        ⟨hst.1.pushN (hst.1.ts _) (hst.1.ys _) (hst.1.fs _) _, hst.2⟩
      have finish : ∀ r r', Corr.OptRel (ExRel V.Hist) r r' → Corr.OptRel (ExRel V.StRel)
          (r.map fun e => e.map fun b => ({ s with cache := b } : St α n (histExtra p) Unit))
          (r'.map fun e => e.map fun b => ({ s' with cache := b } : St α m (histExtra p) Unit)) := by
        intro r r' hr
        rcases r with _ | (_ | _) <;> rcases r' with _ | (_ | _) <;> first | exact hr.elim | exact hr | exact ⟨hr, hst.2⟩
      dsimp only
      by_cases hp : p = 0
      · rw [if_pos hp, if_pos hp]; exact full
      rw [if_neg hp, if_neg hp]
      obtain ⟨⟨v1, v2, v3⟩, v4, v5, v6⟩ := hval
      rw [← v1, ← v2, ← v3, ← v4, ← v5, ← v6] at hs
      cases hs with
      | none => exact full
      | @fixed k' X Y M M' mk mk' C D hC hD hmk =>
        dsimp only
        cases q : mk rhs s.t s.y (some s.h) with
        | error w =>
          cases q' : mk' rhs' s'.t s'.y (some s'.h) with
          | error w' => rw [q, q'] at hmk; exact hmk
          | ok w' => rw [q, q'] at hmk; exact hmk.elim
        | ok w =>
          cases q' : mk' rhs' s'.t s'.y (some s'.h) with
          | error w' => rw [q, q'] at hmk; exact hmk.elim
          | ok w' =>
            rw [q, q'] at hmk
            exact finish _ _ (runFrom_rel (follows_startFixed L C hC p _ _ hst.1) (follows_startFixed L.flip D hD p _ _ hst.1.flip) hmk.1 hmk.2)
      | @var k' X Y M M' mk mk' C D c1 c2 d1 d2 hmk htimes =>
        dsimp only
        cases q : mk rhs s.t s.y with
        | error w =>
          cases q' : mk' rhs' s'.t s'.y with
          | error w' => rw [q, q'] at hmk; exact hmk
          | ok w' => rw [q, q'] at hmk; exact hmk.elim
        | ok w =>
          cases q' : mk' rhs' s'.t s'.y with
          | error w' => rw [q, q'] at hmk; exact hmk.elim
          | ok w' =>
            rw [q, q'] at hmk
            have h1 : Follows C.st (fun u v _ _ => V.Hist u v) C.st (startVariable ⟨M, rhs, .inf⟩ bo argsort p s.h s.cache)
                (startVariable ⟨M', rhs', .inf⟩ bo argsort p s'.h s'.cache) := by
              unfold startVariable
              refine follows_bind (C.run bo (by rw [c1]; exact ha) hA (by rw [c1]; exact htimes)) fun o o' => follows_fact fun ho => ?_
              refine follows_post (follows_ofExcept (pushAll_rel hf ?_ hst.1) fun _ _ h => h) fun _ _ _ _ h => h.1
              rw [← c1, ← c2]; exact ho
            have h2 : Follows D.st (fun u v _ _ => V.flip.Hist u v) D.st (startVariable ⟨M', rhs', .inf⟩ bo argsort p s'.h s'.cache)
                (startVariable ⟨M, rhs, .inf⟩ bo argsort p s.h s.cache) := by
              unfold startVariable
              refine follows_bind (D.run bo (l := startTimes p s'.h) (l' := startTimes p s.h) ?_ hA ?_) fun o o' => follows_fact fun ho => ?_
              · rw [d1]; exact fun l l' hl => (ha _ _ (forall₂_flip (fun a b h => h) hl)).symm
              · rw [d1]; exact forall₂_flip (fun a b h => h) htimes
              · refine follows_post (follows_ofExcept (pushAll_rel hf.flip ?_ hst.1.flip) fun _ _ h => h) fun _ _ _ _ h => h.1
                rw [← d1, ← d2]; exact ho
            exact finish _ _ (runFrom_rel h1 h2 hmk.1 hmk.2)

/-- From related constructors to related observations. -/
theorem observe_rel {X Y : Type} {S : Solver α n k X} {S' : Solver α m k Y} (C : Corr S S') (D : Corr S' S) (c1 : C.tm = V.tm) (c2 : C.vec = V.vec)
    (d1 : D.tm = V.flip.tm) (d2 : D.vec = V.flip.vec) (hst : ∀ x y, C.st x y → V.StRel x y) (bo : BisectOpts α) {argsort : List α → List Nat}
    (ha : ∀ l l', List.Forall₂ V.tm l l' → argsort l = argsort l') (hA : ∀ l, IsArgsort l (argsort l)) {cs : List (Call α n)}
    {cs' : List (Call α m)} (hc : List.Forall₂ C.CallRel cs cs') {i : Option (Except Err (St α n k X))} {i' : Option (Except Err (St α m k Y))}
    (hi : Corr.OptRel (ExRel fun x y => C.st x y ∧ D.st y x) i i') :
    Corr.OptRel (ExRel fun v v' => List.Forall₂ (ExRel C.AnsRel) v.results v'.results ∧ V.Hist v.history v'.history ∧ V.hr v.h v'.h)
      (observe S bo argsort cs i) (observe S' bo argsort cs' i') := by
  rcases i with _ | (e | x) <;> rcases i' with _ | (e' | y) <;> first | exact hi.elim | exact hi | skip
  have h := Corr.both (C := C) D (by rw [c1, d1]; exact fun _ _ => Iff.rfl) (by rw [c2, d2]; exact fun _ _ => Iff.rfl) bo
    (by rw [c1]; exact ha) hA hc hi.1 hi.2
  show Corr.OptRel _ ((transcript S bo argsort cs x).map Except.ok) ((transcript S' bo argsort cs' y).map Except.ok)
  revert h
  cases transcript S bo argsort cs x <;> cases transcript S' bo argsort cs' y <;> intro h <;> first | exact h.elim | exact h | skip
  obtain ⟨h1, x1, y1, h2, e1, e2, e3, e4⟩ := h
  show _ ∧ _
  exact ⟨h1, by rw [e1, e2]; exact (hst _ _ h2).1, by rw [e3, e4]; exact (hst _ _ h2).2⟩

end init
end Nbkode
