import Verif.Proofs.Fits
import Verif.Props.Uninitialised
import Verif.Props.Adaptive
import Verif.Props.Startup
import Verif.Proofs.Restart
import Verif.Props.DenseOutput

/-!
# C94: starting a new solver where the old one stands

A solver that was used for a while is given up, and a new one is constructed from its time, its state and its step size. For the
one-step methods (all the Runge-Kutta methods, and the multistep methods of order one) the new solver goes on exactly as the old
one would have: every sequence of calls that does not look back gives the same results. For the other multistep methods it does not.
-/

set_option autoImplicit false
set_option linter.unusedSectionVars false

namespace Nbkode
open Py Spec Solver

section field
variable {α : Type} [Field α] [LinearOrder α] [IsStrictOrderedRing α] [BEq α] [LawfulBEq α]
variable {n : Nat} {X : Type}

namespace Restart
open Unchanged

/-- The state with its history forgotten. -/
def forget (s : St α n 0 X) : St α n 0 X := { s with cache := Buffer.init s.cache s.t s.y s.f }

theorem tail_forget {s : St α n 0 X} (h : s.cache.ts (Buffer.iOld 0) ≤ s.t) : Tail s.t s (forget s) where
  xt := rfl
  yt := init_ts _ _ _ _ _
  ys := (init_ys _ _ _ _ _).symm
  fs := (init_fs _ _ _ _ _).symm
  h := rfl
  aux := rfl
  xo := h
  yo := (init_ts _ _ _ _ _).le

/-- All the rows of the history are the current point of `s`. -/
structure Now (s s1 : St α n 0 X) : Prop where
  ts : ∀ i, s1.cache.ts i = s.t
  ys : ∀ i, s1.cache.ys i = s.y
  fs : ∀ i, s1.cache.fs i = s.f
  h : s1.h = s.h

theorem Now.stRel {s s1 : St α n 0 X} (h : Now s s1) : (Change.clock n (1 : α) 0).vars.StRel (forget s) s1 := by
  refine ⟨⟨fun i => ?_, fun i => ?_, fun i => ?_⟩, ?_⟩
  · show _ = (Change.clock n 1 0).time _
    rw [time, h.ts]; exact (init_ts _ _ _ _ _).symm
  · show _ = (Change.clock n 1 0).state _
    rw [state, h.ys]; exact (init_ys _ _ _ _ _).symm
  · show _ = (Change.clock n 1 0).slope _
    rw [slope, h.fs]; exact (init_fs _ _ _ _ _).symm
  · show _ = (1 : α) * _
    rw [one_mul, h.h]; rfl

/-- The same seen, and so the same onward. -/
theorem onward_of_observe {S : Solver α n 0 X} {bo : BisectOpts α} {argsort : List α → List Nat} {cs : List (Call α n)} {x y : St α n 0 X}
    (h : observe S bo argsort cs (some (.ok x)) = observe S bo argsort cs (some (.ok y))) : onward S bo argsort cs x = onward S bo argsort cs y := by
  have e : transcript S bo argsort cs x = transcript S bo argsort cs y :=
    Option.map_injective (fun a b h => by cases h; rfl) h
  unfold onward
  rw [e]

/-- From a correspondence with the state without its history. -/
theorem onward_of_corr {S : Solver α n 0 X} (D : Corr S S) (E : Corr S S) (c1 : D.tm = (Change.clock n (1 : α) 0).vars.tm)
    (c2 : D.vec = (Change.clock n (1 : α) 0).vars.vec) (d1 : E.tm = (Change.clock n (1 : α) 0).vars.flip.tm)
    (d2 : E.vec = (Change.clock n (1 : α) 0).vars.flip.vec) (hst : ∀ x y, D.st x y → (Change.clock n (1 : α) 0).vars.StRel x y)
    (hR : OneRow S) (bo : BisectOpts α) (argsort : List α → List Nat) (hA : ∀ l, IsArgsort l (argsort l)) {s s1 : St α n 0 X}
    (ho : s.cache.ts (Buffer.iOld 0) ≤ s.t) (h1 : D.st (forget s) s1) (h2 : E.st s1 (forget s)) {cs : List (Call α n)}
    (hc : ∀ c ∈ cs, c.Later s.t) : onward S bo argsort cs s = onward S bo argsort cs s1 := by
  refine (near_onward hR bo argsort hc (Or.inr (tail_forget ho))).trans (onward_of_observe ?_)
  have := Change.seen_of_same _ ⟨D, c1, c2, observe_rel lawful D E c1 c2 d1 d2 hst bo (Unchanged.argsort argsort) hA
    (Change.calls _ (Unchanged.calls cs) D c1 c2) (i := some (.ok (forget s))) (i' := some (.ok s1)) ⟨h1, h2⟩⟩
  rw [map_seen] at this
  exact this.symm

/-- Fixed-step methods. -/
theorem fixed_going {Me : Method α n 0 X} (hM : IsFixed Me) {rhs : Rhs α n} {b : Bound α} {bo : BisectOpts α} {argsort : List α → List Nat}
    {s0 s : St α n 0 X} (h0 : 0 < s0.h) (ht : s0.cache.ts (Buffer.iOld 0) ≤ s0.t) (h : Session ⟨Me, rhs, b⟩ bo argsort s0 s) :
    s.cache.ts (Buffer.iOld 0) ≤ s.t := by
  refine (session_invariant (fun x => 0 < x.h ∧ x.cache.ts (Buffer.iOld 0) ≤ x.t) ?_ h ⟨h0, ht⟩).2
  intro x x' hp hx
  have hS := IsFixed.shaped hM
  cases hp with
  | @body r _ _ _ h =>
    refine ⟨by rw [hS.body_h _ _ _ _ h]; exact hx.1, ?_⟩
    cases r with
    | error e => rw [St.t, hS.body_err _ _ _ _ h]; exact hx.2
    | ok u =>
      have e := hS.body_fixed _ _ _ h
      obtain ⟨t, y, f, h1, -⟩ := hS.body_ok _ _ _ h
      rw [e, h1]
      show x.t ≤ _
      exact le_add_of_nonneg_right hx.1.le
  | interp t h =>
    obtain ⟨h1, h2⟩ := hS.interp _ _ _ _ _ h
    rw [St.t, h1, h2]; exact hx

/-- The times, states and slopes just after the base constructor. -/
theorem solverInit_at {g : Buffer α n 0} {aux : X} {rhs : Rhs α n} {s : St α n 0 X} (hf : rhs s.t s.y = .ok s.f) {h : Option α}
    (hh : h.getD 1 = s.h) : ∃ s1, solverInit g aux rhs s.t s.y h = .ok s1 ∧ Now s s1 ∧ s1.aux = aux := by
  refine ⟨{ cache := Buffer.init g s.t s.y s.f, h := h.getD 1, aux := aux }, ?_, ⟨?_, ?_, ?_, hh⟩, rfl⟩
  · unfold solverInit; rw [hf]; rfl
  · exact init_ts _ _ _ _
  · exact init_ys _ _ _ _
  · exact init_fs _ _ _ _

/-- What the states of a variable-step solver have in common. -/
structure Going {s : Nat} {I : Type} (ut : I → α) (x : St α n 0 (FsalAux α n s I)) : Prop where
  pos : 0 < x.h
  mono : x.cache.ts (Buffer.iPrev 0) ≤ x.cache.ts (Buffer.iLast 0)
  ut_le : ut x.aux.itp ≤ x.cache.ts (Buffer.iLast 0)

theorem stRel_self {k : Nat} (x : St α n k X) : (Change.clock n (1 : α) 0).vars.StRel x x :=
  ⟨⟨fun _ => (time _).symm, fun _ => (state _).symm, fun _ => (slope _).symm⟩, (one_mul _).symm⟩

theorem Going.self {s : Nat} {I : Type} {ut : I → α} {RI : I → I → Prop} {x : St α n 0 (FsalAux α n s I)} (h : Going ut x)
    (hI : RI x.aux.itp x.aux.itp) : (Change.clock n (1 : α) 0).vars.VarRel ut ut RI x x :=
  ⟨stRel_self x, h.pos, h.mono, Or.inr fun _ => (slope _).symm, Or.inl (time _).symm, h.ut_le, Or.inl hI⟩

theorem VarRel.going {s : Nat} {I : Type} {ut : I → α} {RI : I → I → Prop} {x y : St α n 0 (FsalAux α n s I)}
    (h : (Change.clock n (1 : α) 0).vars.VarRel ut ut RI x y) : Going ut x := ⟨h.pos, h.mono, h.ut_le⟩

/-- The state without its history and a new solver. -/
theorem varRel_forget {s : Nat} {I : Type} {ut : I → α} (RI : I → I → Prop) {x x1 : St α n 0 (FsalAux α n s I)} (h : Going ut x)
    (h1 : Now x x1) (hu : ut x1.aux.itp = x.t) : (Change.clock n (1 : α) 0).vars.VarRel ut ut RI (forget x) x1 := by
  have e : ∀ i, (forget x).cache.ts i = x.t := init_ts _ _ _ _
  have hu' : ut (forget x).aux.itp ≤ x.t := h.ut_le
  exact ⟨h1.stRel, h.pos, by rw [e, e], Or.inl (by rw [e, e]), Or.inr ⟨by rw [e]; exact hu', by rw [h1.ts]; exact hu.le⟩,
    by rw [e]; exact hu', Or.inr (by rw [e]; exact hu')⟩

/-- The options were accepted by the first constructor, so the second one accepts them. -/
theorem variableInit_at {o : VarOptions α} {sel sel' : Rhs α n → α → Vec α n → Vec α n → Except Err α} {g g' : Buffer α n 0} {X : Type}
    {aux aux' : X} {rhs : Rhs α n} {t0 : α} {y0 : Vec α n} {h h' first : Option α} {s0 x : St α n 0 X}
    (h0 : variableInit o sel g aux rhs t0 y0 h first = .ok s0) (hf : rhs x.t x.y = .ok x.f) :
    ∃ x1, variableInit o sel' g' aux' rhs x.t x.y h' (some x.h) = .ok x1 ∧ Now x x1 ∧ x1.aux = aux' := by
  obtain ⟨x1, e1, e2, e3⟩ := solverInit_at (g := g') (aux := aux') (s := { x with h := h'.getD 1 }) hf (h := h') rfl
  refine ⟨{ x1 with h := x.h }, ?_, ⟨e2.ts, e2.ys, e2.fs, rfl⟩, e3⟩
  unfold variableInit at h0 ⊢
  have e1' : solverInit g' aux' rhs x.t x.y h' = .ok x1 := e1
  rw [e1']
  cases hs : solverInit g aux rhs t0 y0 h with
  | error e => rw [hs] at h0; cases h0
  | ok z =>
    rw [hs] at h0
    cases hm : o.maxStep with
    | inf =>
      by_cases c2 : o.atol < 0
      · simp [hm, c2, bind, Except.bind, throw, throwThe, MonadExceptOf.throw] at h0
      · simp [c2, bind, Except.bind, pure, Except.pure]
    | fin m =>
      by_cases c1 : 0 < m
      · by_cases c2 : o.atol < 0
        · simp [hm, c1, c2, bind, Except.bind, throw, throwThe, MonadExceptOf.throw] at h0
        · simp [c1, c2, bind, Except.bind, pure, Except.pure]
      · simp [hm, c1, bind, Except.bind, throw, throwThe, MonadExceptOf.throw] at h0

/-- An update of the dense output of `DOP853` right after construction only evaluates the right-hand side at the current point. -/
theorem dopExtra_here (d : DopDense α) {rhs : Rhs α n} {t : α} {y f : Vec α n} (hf : rhs t y = .ok f) (l : List (Fin 3)) :
    ∀ K, ∃ K', (dopExtra d rhs t 0 y l).run K = some (.ok (), K') := by
  induction l with
  | nil => intro K; exact ⟨K, rfl⟩
  | cons e l ih =>
    intro K
    rw [dopExtra]
    simp only [run_bind, run_get, andThen_ok, run_ofExcept, run_modify, mul_zero, add_zero]
    rw [show (y + fun _ => (0 : α)) = y from by funext i; exact add_zero _, hf]
    exact ih _

theorem dopUpdate_here (d : DopDense α) {rhs : Rhs α n} {x : St α n 0 (FsalAux α n 11 (DopItp α n))} {t : α} {y f : Vec α n}
    (hf : rhs t y = .ok f) (h1 : ∀ i, x.cache.ts i = t) (h2 : ∀ i, x.cache.ys i = y) :
    ∃ i, i.updatedT = t ∧ (dopUpdate d rhs).run x = some (.ok (), setItp i x) := by
  rcases dopUpdate_run d rhs x with ⟨Kx, -, h⟩ | ⟨h, -⟩
  · exact ⟨_, h1 _, h⟩
  · refine (h ?_).elim
    obtain ⟨K', hK⟩ := dopExtra_here d hf (List.finRange 3) (dopCopy x.aux.K x.aux.itp.Kext)
    refine ⟨K', (dopExtra_stages d rhs _ _ _ _ x.aux.itp.Kext K').1 ?_⟩
    rw [h1, h1, h2, sub_self]
    exact hK

theorem fsalInit_ut {s d : Nat} {P : Fin (s + 2) → Fin d → α} {o : VarOptions α} {sel : Rhs α n → α → Vec α n → Vec α n → Except Err α}
    {g : Buffer α n 0} {K : Fin (s + 2) → Vec α n} {I : RkItp α n d} {rhs : Rhs α n} {t0 : α} {y0 : Vec α n} {h first : Option α}
    {st : St α n 0 (FsalAux α n s (RkItp α n d))} (hs : fsalInit P o sel g K I rhs t0 y0 h first = .ok st) :
    st.aux.itp.updatedT = st.cache.ts (Buffer.iLast 0) := by
  unfold fsalInit at hs
  cases h0 : variableInit (X := FsalAux α n s (RkItp α n d)) o sel g ⟨K, I⟩ rhs t0 y0 h first with
  | error e => rw [h0] at hs; simp [bind, Except.bind] at hs
  | ok s0 =>
    rw [h0] at hs
    simp only [bind, Except.bind, rkUpdate, run_modify, pure, Except.pure, Except.ok.injEq] at hs
    subst hs
    rfl

theorem dopInit_ut {d : DopDense α} {o : VarOptions α} {sel : Rhs α n → α → Vec α n → Vec α n → Except Err α}
    {g : Buffer α n 0} {K : Fin 13 → Vec α n} {I : DopItp α n} {rhs : Rhs α n} {t0 : α} {y0 : Vec α n} {h first : Option α}
    {st : St α n 0 (FsalAux α n 11 (DopItp α n))} (hs : dopInit d o sel g K I rhs t0 y0 h first = .ok st) :
    st.aux.itp.updatedT = st.cache.ts (Buffer.iLast 0) := by
  unfold dopInit at hs
  cases h0 : variableInit (X := FsalAux α n 11 (DopItp α n)) o sel g ⟨K, I⟩ rhs t0 y0 h first with
  | error e => rw [h0] at hs; simp [bind, Except.bind] at hs
  | ok s0 =>
    rw [h0] at hs
    rcases dopUpdate_run d rhs s0 with ⟨Kx, -, e⟩ | ⟨-, e, Kx, e'⟩
    · simp only [bind, Except.bind, e, pure, Except.pure, Except.ok.injEq] at hs
      subst hs
      rfl
    · simp only [bind, Except.bind, e'] at hs
      cases hs

theorem dopInterp_ut {d : DopDense α} {rhs : Rhs α n} {t : α} {p q : St α n 0 (FsalAux α n 11 (DopItp α n))} {r : Except Err (Ref α n 0)}
    (hp : p.aux.itp.updatedT ≤ p.cache.ts (Buffer.iLast 0)) (h : (dopInterp d rhs t).run p = some (r, q)) :
    q.aux.itp.updatedT ≤ p.cache.ts (Buffer.iLast 0) := by
  rw [dopInterp_run] at h
  split at h
  · cases h; exact hp
  · split at h
    · cases h; exact hp
    · have key : ∀ {u : Except Err Unit} {p1 : St α n 0 (FsalAux α n 11 (DopItp α n))},
          (if t < p.aux.itp.updatedT then some (.ok (), p) else (dopUpdate d rhs).run p) = some (u, p1) →
          p1.aux.itp.updatedT ≤ p.cache.ts (Buffer.iLast 0) := by
        intro u p1 h
        split at h
        · cases h; exact hp
        · rcases dopUpdate_run d rhs p with ⟨Kx, -, e⟩ | ⟨-, e, Kx, e'⟩
          · rw [e] at h; cases h; exact le_refl _
          · rw [e'] at h; cases h; exact hp
      rw [andThen_eq_some] at h
      rcases h with ⟨e, s1, h1, h2⟩ | ⟨a, s1, h1, h2⟩
      · cases h2; exact key h1
      · split at h2 <;> cases h2 <;> exact key h1

end Restart
open Restart Unchanged

variable (bo : BisectOpts α) (argsort : List α → List Nat) (hA : ∀ l, IsArgsort l (argsort l)) (rhs : Rhs α n) (b : Bound α)
include hA

/-- C94: the fixed-step Runge-Kutta methods. -/
theorem C94_erk {s : Nat} (T : Tableau α s) (g0 : Buffer α n 0) (K0 : ErkAux α n s) (t0 : α) (y0 : Vec α n) (h : Option α)
    (s0 x : St α n 0 (ErkAux α n s)) (hs0 : erkInit g0 K0 rhs t0 y0 h = .ok s0) (h0 : 0 < s0.h)
    (hx : Session ⟨erk T, rhs, b⟩ bo argsort s0 x) (g : Buffer α n 0) (K : ErkAux α n s) :
    ∃ x1, erkInit g K rhs x.t x.y (some x.h) = .ok x1 ∧ ∀ cs, (∀ c ∈ cs, c.Later x.t) →
      onward ⟨erk T, rhs, b⟩ bo argsort cs x = onward ⟨erk T, rhs, b⟩ bo argsort cs x1 := by
  have hc : Consistent rhs s0.cache ∧ ∀ i, s0.cache.ts i = s0.t := by
    obtain ⟨h1, h2, -⟩ := C14_construction _ _ _ _ _ _ _ hs0
    obtain ⟨f0, -, hc, -⟩ := solverInit_ok hs0
    exact ⟨h1, fun i => by rw [h2, hc, init_ts]⟩
  have hf := (C14_f_is_derivative _ (Or.inl (IsFixed.erk T)) _ _ _ _ hc.1 hx).2
  have ho := fixed_going (IsFixed.erk T) h0 (hc.2 _).le hx
  obtain ⟨x1, e1, e2, -⟩ := solverInit_at (g := g) (aux := K) hf (h := some x.h) rfl
  refine ⟨x1, e1, fun cs hcs => ?_⟩
  have hR := Change.rhsRel _ (Unchanged.rhs rhs)
  exact onward_of_corr (lawful.erk T hR (boundRel b)) (lawful.flip.erk T hR.flip (boundRel_flip (boundRel b))) rfl rfl rfl rfl (fun _ _ h => h)
    (oneRow_erk T rhs b) bo argsort hA ho e2.stRel e2.stRel.flip hcs

/-- The order one multistep methods. -/
theorem Restart.multistep {Me : Method α n (histExtra 0) Unit} (hM : IsFixed Me) (hR : OneRow (k := 0) ⟨Me, rhs, b⟩)
    (hbody : Follows (Change.clock n (1 : α) 0).vars.StRel (fun _ _ => (Change.clock n (1 : α) 0).vars.StRel) (Change.clock n (1 : α) 0).vars.StRel
      (Me.body rhs) (Me.body rhs))
    (hbody' : Follows (Change.clock n (1 : α) 0).vars.flip.StRel (fun _ _ => (Change.clock n (1 : α) 0).vars.flip.StRel)
      (Change.clock n (1 : α) 0).vars.flip.StRel (Me.body rhs) (Me.body rhs))
    (hi : ∀ rhs t, Me.interp rhs t = hermiteInterp t) (s0 x : St α n (histExtra 0) Unit) (h0 : 0 < s0.h)
    (hs0 : Consistent rhs s0.cache ∧ ∀ i, s0.cache.ts i = s0.t)
    (hx : Session ⟨Me, rhs, b⟩ bo argsort s0 x) (g : Buffer α n (histExtra 0)) (str : Starter α n) :
    ∃ x1, multistepInit (p := 0) g bo argsort str rhs x.t x.y (some x.h) = some (.ok x1) ∧ ∀ cs, (∀ c ∈ cs, c.Later x.t) →
      onward ⟨Me, rhs, b⟩ bo argsort cs x = onward ⟨Me, rhs, b⟩ bo argsort cs x1 := by
  have hf := (C14_f_is_derivative _ (Or.inl hM) _ _ _ _ hs0.1 hx).2
  have ho := fixed_going hM h0 (hs0.2 _).le hx
  obtain ⟨x1, e1, e2, -⟩ := solverInit_at (g := g) (aux := ()) (rhs := rhs) (s := x) hf (h := some x.h) rfl
  have e3 : Now x { x1 with cache := Buffer.pushN (k := 0) x1.cache x1.t x1.y x1.f 1 } := by
    refine ⟨?_, ?_, ?_, e2.h⟩ <;> intro i <;> dsimp only [Buffer.pushN, Buffer.push, shiftIn] <;> split
    · exact e2.ts _
    · exact e2.ts _
    · exact e2.ys _
    · exact e2.ys _
    · exact e2.fs _
    · exact e2.fs _
  refine ⟨{ x1 with cache := Buffer.pushN (k := 0) x1.cache x1.t x1.y x1.f 1 }, ?_, fun cs hcs => ?_⟩
  · unfold multistepInit
    have e1' : solverInit (k := histExtra 0) g () rhs x.t x.y (some x.h) = .ok x1 := e1
    rw [e1']
    rfl
  exact onward_of_corr (lawful.hermite (S := ⟨Me, rhs, b⟩) (S' := ⟨Me, rhs, b⟩) (boundRel b) hbody (fun _ => hi _ _) fun _ => hi _ _)
    (lawful.flip.hermite (S := ⟨Me, rhs, b⟩) (S' := ⟨Me, rhs, b⟩) (boundRel_flip (boundRel b)) hbody' (fun _ => hi _ _) fun _ => hi _ _)
    rfl rfl rfl rfl (fun _ _ h => h) hR bo argsort hA ho e3.stRel e3.stRel.flip hcs

theorem Restart.multistep_start {g : Buffer α n (histExtra 0)} {str : Starter α n} {t0 : α} {y0 : Vec α n} {h : Option α}
    {s0 : St α n (histExtra 0) Unit} (hi : multistepInit (p := 0) g bo argsort str rhs t0 y0 h = some (.ok s0)) :
    Consistent rhs s0.cache ∧ ∀ i, s0.cache.ts i = s0.t := by
  unfold multistepInit at hi
  cases hs : solverInit g () rhs t0 y0 h with
  | error e => rw [hs] at hi; cases hi
  | ok z =>
    rw [hs] at hi
    obtain ⟨f0, hf0, hc, -⟩ := solverInit_ok hs
    cases hi
    have w : ∀ i, (Buffer.pushN z.cache z.t z.y z.f 1).ts i = t0 ∧ (Buffer.pushN z.cache z.t z.y z.f 1).ys i = y0 ∧
        (Buffer.pushN z.cache z.t z.y z.f 1).fs i = f0 := by
      intro i
      have e1 : z.t = t0 := by rw [St.t, hc]; exact init_ts _ _ _ _ _
      have e2 : z.y = y0 := by rw [St.y, hc]; exact init_ys _ _ _ _ _
      have e3 : z.f = f0 := by rw [St.f, hc]; exact init_fs _ _ _ _ _
      rw [e1, e2, e3, hc]
      dsimp only [Buffer.pushN, Buffer.push, shiftIn]
      split
      · exact ⟨init_ts _ _ _ _ _, init_ys _ _ _ _ _, init_fs _ _ _ _ _⟩
      · exact ⟨rfl, rfl, rfl⟩
    refine ⟨fun i => ?_, fun i => (w i).1.trans (w _).1.symm⟩
    show rhs ((Buffer.pushN z.cache z.t z.y z.f 1).ts i) ((Buffer.pushN z.cache z.t z.y z.f 1).ys i) = .ok ((Buffer.pushN z.cache z.t z.y z.f 1).fs i)
    rw [(w i).1, (w i).2.1, (w i).2.2]; exact hf0

/-- C94: explicit multistep methods of order one: `ForwardEuler`, `AB1`. -/
theorem C94_explicit_order_one (cf : MultistepCoef α 0) (hcf : ∑ j, cf.A j = -1) (g0 : Buffer α n (histExtra 0)) (str0 : Starter α n) (t0 : α)
    (y0 : Vec α n) (h : Option α) (s0 x : St α n (histExtra 0) Unit)
    (hs0 : multistepInit (p := 0) g0 bo argsort str0 rhs t0 y0 h = some (.ok s0)) (h0 : 0 < s0.h) (hx : Session ⟨explicitMultistep cf, rhs, b⟩ bo argsort s0 x)
    (g : Buffer α n (histExtra 0)) (str : Starter α n) :
    ∃ x1, multistepInit (p := 0) g bo argsort str rhs x.t x.y (some x.h) = some (.ok x1) ∧ ∀ cs, (∀ c ∈ cs, c.Later x.t) →
      onward ⟨explicitMultistep cf, rhs, b⟩ bo argsort cs x = onward ⟨explicitMultistep cf, rhs, b⟩ bo argsort cs x1 := by
  have hc := multistep_start bo argsort hA rhs hs0
  have hR := Change.rhsRel _ (Unchanged.rhs rhs)
  exact Restart.multistep bo argsort hA rhs b (IsFixed.explicitMultistep cf) (oneRow_explicit cf rhs b) (follows_explicit lawful cf hcf hR)
    (follows_explicit lawful.flip cf hcf hR.flip) (fun _ _ => rfl) s0 x h0 hc hx g str

/-- C94: implicit multistep methods of order one: `BackwardEuler`, `BDF1`, `AM1`, `AM2`. -/
theorem C94_implicit_order_one (lib : Lib α) (zo : ZeroOpts α) (cf : MultistepCoef α 0) (g0 : Buffer α n (histExtra 0)) (str0 : Starter α n) (t0 : α)
    (y0 : Vec α n) (h : Option α) (s0 x : St α n (histExtra 0) Unit)
    (hs0 : multistepInit (p := 0) g0 bo argsort str0 rhs t0 y0 h = some (.ok s0)) (h0 : 0 < s0.h)
    (hx : Session ⟨implicitMultistep lib zo cf, rhs, b⟩ bo argsort s0 x) (g : Buffer α n (histExtra 0)) (str : Starter α n) :
    ∃ x1, multistepInit (p := 0) g bo argsort str rhs x.t x.y (some x.h) = some (.ok x1) ∧ ∀ cs, (∀ c ∈ cs, c.Later x.t) →
      onward ⟨implicitMultistep lib zo cf, rhs, b⟩ bo argsort cs x = onward ⟨implicitMultistep lib zo cf, rhs, b⟩ bo argsort cs x1 := by
  have hc := multistep_start bo argsort hA rhs hs0
  exact Restart.multistep bo argsort hA rhs b (IsFixed.implicitMultistep lib zo cf) (oneRow_implicit lib zo cf rhs b)
    (Change.follows_implicit lib zo cf zero_lt_one (Unchanged.rhs rhs)) (Change.follows_implicit_flip lib zo cf zero_lt_one (Unchanged.rhs rhs))
    (fun _ _ => rfl) s0 x h0 hc hx g str

/-- C94: `RungeKutta23` and `RungeKutta45`. The current step size is passed on as `first_step`. -/
theorem C94_fsal {s d : Nat} (lib : Lib α) (o : VarOptions α) (ho : SaneOptions o) (cf : FsalCoef α s d)
    (sel0 : Rhs α n → α → Vec α n → Vec α n → Except Err α) (g0 : Buffer α n 0) (K0 : Fin (s + 2) → Vec α n) (I0 : RkItp α n d) (t0 : α)
    (y0 : Vec α n) (h first : Option α) (s0 x : St α n 0 (FsalAux α n s (RkItp α n d)))
    (hs0 : fsalInit cf.P o sel0 g0 K0 I0 rhs t0 y0 h first = .ok s0) (h0 : 0 < s0.h) (hx : Session ⟨fsal lib o cf, rhs, b⟩ bo argsort s0 x)
    (sel : Rhs α n → α → Vec α n → Vec α n → Except Err α) (g : Buffer α n 0) (K : Fin (s + 2) → Vec α n) (I : RkItp α n d) (h' : Option α) :
    ∃ x1, fsalInit cf.P o sel g K I rhs x.t x.y h' (some x.h) = .ok x1 ∧ ∀ cs, (∀ c ∈ cs, c.Later x.t) →
      onward ⟨fsal lib o cf, rhs, b⟩ bo argsort cs x = onward ⟨fsal lib o cf, rhs, b⟩ bo argsort cs x1 := by
  have hR := Change.rhsRel _ (Unchanged.rhs rhs)
  let D := lawful.fsal lib ho (control lib o) cf hR (boundRel b)
  have hself : ∀ {z : St α n 0 (FsalAux α n s (RkItp α n d))}, Going RkItp.updatedT z → (Change.clock n (1 : α) 0).vars.RkSt z z :=
    fun h => h.self fun _ => (slope _).symm
  have hc := (C14_construction_fsal _ _ _ _ _ _ _ _ _ _ _ _ hs0).1
  have hf := (C14_f_is_derivative _ (Or.inr ⟨_, _, _, .fsal cf⟩) _ _ _ _ hc hx).2
  obtain ⟨z, hz, -⟩ := fsalInit_ok hs0
  have hts := fsalInit_times hs0
  have hg0 : Going RkItp.updatedT s0 := by
    have := fsalInit_ut hs0
    exact ⟨h0, by rw [hts, hts], this.le⟩
  have hg : Going RkItp.updatedT x := by
    refine session_invariant (S := ⟨fsal lib o cf, rhs, b⟩) (fun x => Going RkItp.updatedT x) ?_ hx hg0
    intro p q hp hpg
    cases hp with
    | @body r _ hA' hF hb =>
      obtain ⟨r', q', e1, e2, e3⟩ := D.body p.cache p p ⟨hself hpg, rfl, not_exceeded (fits_mono hA' hF)⟩ r q hb
      cases hb.symm.trans e1
      cases r with
      | error e => exact VarRel.going (e3 ⟨e, rfl⟩)
      | ok u => exact VarRel.going e2.1
    | @interp r t hi =>
      obtain ⟨c1, c2, -⟩ := rkInterp_state _ _ _ _ _ hi
      refine ⟨by rw [c2]; exact hpg.pos, by rw [c1]; exact hpg.mono, ?_⟩
      have : q.aux.itp.updatedT = p.aux.itp.updatedT ∨ q.aux.itp.updatedT = p.cache.t := by
        have hi' : (rkInterp cf.P t).run p = some (r, q) := hi
        rw [rkInterp_run] at hi'
        dsimp only at hi'
        split at hi'
        · cases hi'; exact Or.inl rfl
        · split at hi'
          · cases hi'; exact Or.inl rfl
          · split at hi' <;> cases hi' <;> split <;> first | exact Or.inl rfl | exact Or.inr rfl
      rw [c1]
      rcases this with e | e
      · rw [e]; exact hpg.ut_le
      · rw [e]; exact le_refl _
  obtain ⟨x1, e1, e2, e3⟩ := variableInit_at (x := x) (sel' := sel) (g' := g) (aux' := (⟨K, I⟩ : FsalAux α n s (RkItp α n d))) (h' := h') hz hf
  have hrun : (rkUpdate cf.P).run x1 = some (.ok (), rkFresh cf.P x1) := rfl
  refine ⟨rkFresh cf.P x1, ?_, fun cs hcs => ?_⟩
  · unfold fsalInit
    rw [e1]
    simp only [bind, Except.bind, hrun]
    rfl
  have hV := varRel_forget (Change.clock n (1 : α) 0).vars.RkRel (x1 := rkFresh cf.P x1) hg ⟨e2.ts, e2.ys, e2.fs, e2.h⟩ (e2.ts _)
  exact onward_of_corr D (lawful.flip.fsal lib ho (control lib o).flip cf hR.flip (boundRel_flip (boundRel b))) rfl rfl rfl rfl (fun _ _ h => h.st)
    (oneRow_fsal lib o cf rhs b) bo argsort hA hg.mono hV (hV.flip lawful) hcs

/-- C94: `DOP853`. -/
theorem C94_dop853 (lib : Lib α) (o : VarOptions α) (ho : SaneOptions o) (cf : DopCoef α)
    (sel0 : Rhs α n → α → Vec α n → Vec α n → Except Err α) (g0 : Buffer α n 0) (K0 : Fin 13 → Vec α n) (I0 : DopItp α n) (t0 : α)
    (y0 : Vec α n) (h first : Option α) (s0 x : St α n 0 (FsalAux α n 11 (DopItp α n)))
    (hs0 : dopInit cf.toDopDense o sel0 g0 K0 I0 rhs t0 y0 h first = .ok s0) (h0 : 0 < s0.h)
    (hx : Session ⟨dop853 lib o cf, rhs, b⟩ bo argsort s0 x)
    (sel : Rhs α n → α → Vec α n → Vec α n → Except Err α) (g : Buffer α n 0) (K : Fin 13 → Vec α n) (I : DopItp α n) (h' : Option α) :
    ∃ x1, dopInit cf.toDopDense o sel g K I rhs x.t x.y h' (some x.h) = .ok x1 ∧ ∀ cs, (∀ c ∈ cs, c.Later x.t) →
      onward ⟨dop853 lib o cf, rhs, b⟩ bo argsort cs x = onward ⟨dop853 lib o cf, rhs, b⟩ bo argsort cs x1 := by
  have hR := Change.rhsRel _ (Unchanged.rhs rhs)
  let D := lawful.dop ho (control lib o) cf hR (boundRel b)
  have hself : ∀ {z : St α n 0 (FsalAux α n 11 (DopItp α n))}, Going DopItp.updatedT z → (Change.clock n (1 : α) 0).vars.DopSt z z :=
    fun h => h.self fun _ => (Change.clock_lin _ _ _).symm
  have hc := (C14_construction_dop853 _ _ _ _ _ _ _ _ _ _ _ _ hs0).1
  have hf := (C14_f_is_derivative _ (Or.inr ⟨_, _, _, .dop853 cf⟩) _ _ _ _ hc hx).2
  obtain ⟨z, hz, -⟩ := dopInit_ok hs0
  have hts := dopInit_times hs0
  have hg0 : Going DopItp.updatedT s0 := by
    have := dopInit_ut hs0
    exact ⟨h0, by rw [hts, hts], this.le⟩
  have hg : Going DopItp.updatedT x := by
    refine session_invariant (S := ⟨dop853 lib o cf, rhs, b⟩) (fun x => Going DopItp.updatedT x) ?_ hx hg0
    intro p q hp hpg
    cases hp with
    | @body r _ hA' hF hb =>
      obtain ⟨r', q', e1, e2, e3⟩ := D.body p.cache p p ⟨hself hpg, rfl, not_exceeded (fits_mono hA' hF)⟩ r q hb
      cases hb.symm.trans e1
      cases r with
      | error e => exact VarRel.going (e3 ⟨e, rfl⟩)
      | ok u => exact VarRel.going e2.1
    | @interp r t hi =>
      obtain ⟨c1, c2, -⟩ := dopInterp_state _ _ _ _ _ _ hi
      refine ⟨by rw [c2]; exact hpg.pos, by rw [c1]; exact hpg.mono, ?_⟩
      rw [c1]
      exact dopInterp_ut hpg.ut_le hi
  obtain ⟨x1, e1, e2, e3⟩ := variableInit_at (x := x) (sel' := sel) (g' := g) (aux' := (⟨K, I⟩ : FsalAux α n 11 (DopItp α n))) (h' := h') hz hf
  obtain ⟨i, hi, hrun⟩ := dopUpdate_here cf.toDopDense hf e2.ts e2.ys
  refine ⟨setItp i x1, ?_, fun cs hcs => ?_⟩
  · unfold dopInit
    rw [e1]
    simp only [bind, Except.bind, hrun]
    rfl
  have hV := varRel_forget (Change.clock n (1 : α) 0).vars.DopRel (x1 := setItp i x1) hg ⟨e2.ts, e2.ys, e2.fs, e2.h⟩ hi
  exact onward_of_corr D (lawful.flip.dop ho (control lib o).flip cf hR.flip (boundRel_flip (boundRel b))) rfl rfl rfl rfl (fun _ _ h => h.st)
    (oneRow_dop lib o cf rhs b) bo argsort hA hg.mono hV (hV.flip lawful) hcs

omit hA in
/-- C94 is false for the multistep methods of order at least two (`ORDER = p + 1`), whatever the coefficients: the start-up steps of
the new solver move it away from the time at which it was asked to start. -/
theorem C94_refuted_multistep {p : Nat} (hp : p ≠ 0) {Me : Method α n (histExtra p) Unit} (x : St α n (histExtra p) Unit) (hx : x.h ≠ 0)
    {s : Nat} (T : Tableau α s) (gs : Buffer α n 0) (K : ErkAux α n s) (g : Buffer α n (histExtra p)) (f : α → Vec α n → Vec α n) :
    ∃ x1, multistepInit g bo argsort (erkStarter T gs K) (pureRhs f) x.t x.y (some x.h) = some (.ok x1) ∧ x1.t = x.t + (p : α) * x.h ∧
      onward ⟨Me, pureRhs f, b⟩ bo argsort [] x ≠ onward ⟨Me, pureRhs f, b⟩ bo argsort [] x1 := by
  obtain ⟨x1, hs⟩ := C34_erk_starter_succeeds hp T gs K g bo argsort f x.t x.y x.h
  have h1 := C34_erk_starter hp T gs K g bo argsort _ x.t x.y x.h x1 hs (Buffer.iLast _)
  have h2 : (Buffer.iLast (histExtra p)).val = p := by simp only [Buffer.iLast, histExtra]; omega
  rw [h2] at h1
  refine ⟨x1, hs, h1, fun h => ?_⟩
  have h3 : x.t = x1.t := congrArg (fun r => r.2.1) (Option.some.inj h)
  have h4 : x1.t = x.t + (p : α) * x.h := h1
  rw [h4] at h3
  have : (p : α) * x.h = 0 := by linear_combination -h3
  rcases mul_eq_zero.1 this with h | h
  · exact hp (by exact_mod_cast h)
  · exact hx h

end field

/-! ### Cases -/

namespace Demo

/-- `y' = y`, the state of an `AdamsBashforth2` solver without starting steps (`first_stepper_cls=None`) at `(t, y)` with `h = 1`. -/
def ab2At (t y : ℚ) : St ℚ 1 (histExtra 1) Unit := ⟨⟨fun _ => t, fun _ _ => y, fun _ _ => y⟩, 1, ()⟩

/-- `AdamsBashforth2` for `y' = y`. -/
def ab2 : Solver ℚ 1 (histExtra 1) Unit := ⟨explicitMultistep AdamsBashforth2, pureRhs fun _ y => y, .inf⟩

theorem ab2_init (t y : ℚ) (g : Buffer ℚ 1 (histExtra 1)) (bo : BisectOpts ℚ) (argsort : List ℚ → List Nat) :
    multistepInit g bo argsort .none (pureRhs fun _ y => y) t (fun _ => y) (some 1) = some (.ok (ab2At t y)) := by
  show some (Except.ok (_ : St ℚ 1 (histExtra 1) Unit)) = _
  congr 2
  show (⟨⟨_, _, _⟩, 1, ()⟩ : St ℚ 1 0 Unit) = ⟨⟨_, _, _⟩, 1, ()⟩
  congr 2 <;> funext i <;> fin_cases i <;> rfl

/-- The state after a step. -/
def ab2Next (x : St ℚ 1 (histExtra 1) Unit) : St ℚ 1 (histExtra 1) Unit :=
  { x with cache := x.cache.push (x.t + x.h) (multistepK AdamsBashforth2 x.cache x.h) (multistepK AdamsBashforth2 x.cache x.h) }

theorem ab2_step (x : St ℚ 1 (histExtra 1) Unit) :
    (ab2.step none none).run x = some (.ok (.single (ab2Next x).t (.row (Buffer.iLast _))), ab2Next x) := by
  rfl

/-- C94 is false even without starting steps, where the new solver does start at the right time: the next step is different. -/
theorem C94_refuted_no_start (bo : BisectOpts ℚ) (argsort : List ℚ → List Nat) (g : Buffer ℚ 1 (histExtra 1)) :
    ∃ s0 x x1, multistepInit g bo argsort .none (pureRhs fun _ y => y) 0 (fun _ => 1) (some 1) = some (.ok s0) ∧
      Session ab2 bo argsort s0 x ∧ multistepInit g bo argsort .none (pureRhs fun _ y => y) x.t x.y (some x.h) = some (.ok x1) ∧
      onward ab2 bo argsort [] x = onward ab2 bo argsort [] x1 ∧
      onward ab2 bo argsort [.step none none] x ≠ onward ab2 bo argsort [.step none none] x1 := by
  refine ⟨ab2At 0 1, ab2Next (ab2At 0 1), ab2At 1 2, ab2_init _ _ _ _ _, ?_, ?_, ?_, ?_⟩
  · exact .call (.step none none) (.ok ()) (.start _) (by
      show ((ab2.step none none >>= fun _ => pure ()) : Py _ Unit).run _ = _
      rw [run_bind, ab2_step]; rfl)
  · have e1 : (ab2Next (ab2At 0 1)).t = 1 := by decide +kernel
    have e2 : (ab2Next (ab2At 0 1)).y = fun _ => 2 := by decide +kernel
    rw [e1, e2]
    exact ab2_init _ _ _ _ _
  · have e1 : (ab2Next (ab2At 0 1)).t = (ab2At 1 2).t := by decide +kernel
    have e2 : (ab2Next (ab2At 0 1)).y = (ab2At 1 2).y := by decide +kernel
    have e3 : (ab2Next (ab2At 0 1)).f = (ab2At 1 2).f := by decide +kernel
    show some ([], (ab2Next (ab2At 0 1)).t, (ab2Next (ab2At 0 1)).y, (ab2Next (ab2At 0 1)).f, (1 : ℚ)) =
      some ([], (ab2At 1 2).t, (ab2At 1 2).y, (ab2At 1 2).f, 1)
    rw [e1, e2, e3]
  · intro h
    have hr : ∀ x, onward ab2 bo argsort [.step none none] x = some ([.ok (.step (.single (ab2Next x).t (.row (Buffer.iLast _))))],
        (ab2Next x).t, (ab2Next x).y, (ab2Next x).f, x.h) := by
      intro x; rfl
    rw [hr, hr] at h
    have h2 : (ab2Next (ab2Next (ab2At 0 1))).y = (ab2Next (ab2At 1 2)).y := congrArg (fun r => r.2.2.1) (Option.some.inj h)
    revert h2
    decide +kernel


/-- C94: a solver constructed where `Heun3` stands after a step gives the same answers to the calls of `Demo.calls`. -/
example (bo : BisectOpts ℚ) (argsort : List ℚ → List Nat) (hA : ∀ l, IsArgsort l (argsort l)) (g : Buffer ℚ 1 0) (K : ErkAux ℚ 1 2) :
    ∃ s0 x x1, erkInit g K logistic 0 (fun _ => 1/4) (some (1/2)) = .ok s0 ∧ Session ⟨erk Heun3, logistic, .fin 10⟩ bo argsort s0 x ∧ x.t = 1/2 ∧
      erkInit g K logistic x.t x.y (some x.h) = .ok x1 ∧
      onward ⟨erk Heun3, logistic, .fin 10⟩ bo argsort calls x = onward ⟨erk Heun3, logistic, .fin 10⟩ bo argsort calls x1 := by
  obtain ⟨s0, hs0⟩ : ∃ s0, erkInit g K logistic 0 (fun _ => 1/4) (some (1/2)) = .ok s0 := ⟨_, rfl⟩
  obtain ⟨f0, -, hc, hh, -⟩ := solverInit_ok hs0
  have ht : s0.t = 0 := by rw [St.t, hc]; exact init_ts _ _ _ _ _
  have hh : s0.h = 1/2 := hh
  let S : Solver ℚ 1 0 (ErkAux ℚ 1 2) := ⟨erk Heun3, logistic, .fin 10⟩
  obtain ⟨x, hx⟩ : ∃ x, Takes S s0 x := by
    obtain ⟨K', hK⟩ := stages_pure (m := 3) le_rfl Heun3 (fun _ y i => y i * (1 - y i)) s0.t s0.h s0.y s0.f s0.aux
    exact ⟨_, by
      unfold Takes
      show (erkBody Heun3 logistic).run s0 = _
      rw [show logistic = pureRhs fun _ y i => y i * (1 - y i) from rfl, erkBody_run Heun3 _ s0 hK]
      rfl⟩
  have hfix : x.t = 1/2 := by
    have := (IsFixed.shaped (IsFixed.erk Heun3)).body_fixed _ _ _ hx
    rw [this, ht, hh]; norm_num
  have hses : Session S bo argsort s0 x := by
    refine .call (.step none none) (.ok ()) (.start _) ?_
    have hp : (S.pstep S.tBound).run s0 = some (.ok true, x) := pstep_true.2 ⟨by
      show ¬ (10 < s0.t + s0.h)
      rw [ht, hh]; norm_num, hx⟩
    show ((S.step none none >>= fun _ => pure ()) : Py _ Unit).run _ = _
    rw [run_bind, step_none_run, hp]
    rfl
  obtain ⟨x1, e1, e2⟩ := C94_erk bo argsort hA logistic (.fin 10) Heun3 g K 0 (fun _ => 1/4) (some (1/2)) s0 x hs0 (by rw [hh]; norm_num) hses g K
  refine ⟨s0, x, x1, hs0, hses, hfix, e1, e2 calls fun c hc => ?_⟩
  rw [hfix]
  fin_cases hc <;> simp only [Call.Later, List.mem_cons, List.not_mem_nil, or_false, forall_eq_or_imp, forall_eq] <;> norm_num

/-- C94 applies to `ForwardEuler`, `BackwardEuler`, `RungeKutta45` and `DOP853`. -/
example {lib : Lib ℚ} (zo : ZeroOpts ℚ) (bo : BisectOpts ℚ) (argsort : List ℚ → List Nat) (hA : ∀ l, IsArgsort l (argsort l))
    (o : VarOptions ℚ) (ho : SaneOptions o) (g : Buffer ℚ 1 0) (str : Starter ℚ 1) (x : St ℚ 1 (histExtra 0) Unit)
    (s0 : St ℚ 1 (histExtra 0) Unit) (hs0 : multistepInit (p := 0) g bo argsort str logistic 0 (fun _ => 1/4) (some (1/2)) = some (.ok s0))
    (h0 : 0 < s0.h) (s1 x1 : St ℚ 1 0 (FsalAux ℚ 1 5 (RkItp ℚ 1 4)))
    (sel : Rhs ℚ 1 → ℚ → Vec ℚ 1 → Vec ℚ 1 → Except Err ℚ) 
    (hs1 : fsalInit RungeKutta45.P o sel g 0 ⟨0, 0⟩ logistic 0 (fun _ => 1/4) none (some (1/10)) = .ok s1) (h1 : 0 < s1.h)
    (s2 x2 : St ℚ 1 0 (FsalAux ℚ 1 11 (DopItp ℚ 1)))
    (hs2 : dopInit DOP853.toDopDense o sel g 0 ⟨0, 0, 0⟩ logistic 0 (fun _ => 1/4) none (some (1/10)) = .ok s2) (h2 : 0 < s2.h)
    (hx : Session ⟨explicitMultistep ForwardEuler, logistic, .inf⟩ bo argsort s0 x)
    (hy : Session ⟨implicitMultistep lib zo BackwardEuler, logistic, .inf⟩ bo argsort s0 x)
    (hz : Session ⟨fsal lib o RungeKutta45, logistic, .inf⟩ bo argsort s1 x1)
    (hw : Session ⟨dop853 lib o DOP853, logistic, .inf⟩ bo argsort s2 x2) :=
  And.intro (C94_explicit_order_one bo argsort hA logistic .inf ForwardEuler (by simp [ForwardEuler, AdamsBashforth1, adamsA]) g str 0
    (fun _ => 1/4) _ s0 x hs0 h0 hx g str) <|
  And.intro (C94_implicit_order_one bo argsort hA logistic .inf lib zo BackwardEuler g str 0 (fun _ => 1/4) _ s0 x hs0 h0 hy g str) <|
  And.intro (C94_fsal bo argsort hA logistic .inf lib o ho RungeKutta45 sel g 0 ⟨0, 0⟩ 0 (fun _ => 1/4) none _ s1 x1 hs1 h1 hz sel g 0 ⟨0, 0⟩ none)
    (C94_dop853 bo argsort hA logistic .inf lib o ho DOP853 sel g 0 ⟨0, 0, 0⟩ 0 (fun _ => 1/4) none _ s2 x2 hs2 h2 hw sel g 0 ⟨0, 0, 0⟩ none)

end Demo
end Nbkode
