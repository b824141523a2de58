import Verif.Proofs.History
import Verif.Proofs.Construct
import Verif.Proofs.Adaptive
import Verif.Props.Stepping

/-!
# Whole sessions: C04 (times), C07, C11, C13, C14, C15

`Session S bo argsort s s'` (`Spec/History.lean`) is any finite sequence of `step`, `skip`, `interpolate`, `run`
and `run_events` calls with any arguments, whether they return or raise.
-/

set_option autoImplicit false
set_option linter.unusedSectionVars false

namespace Nbkode
open Py Spec Solver

/-! ## No arithmetic law needed: C13, C14, C15 -/
section lawless
variable {α : Type}
variable [Add α] [Sub α] [Mul α] [Div α] [Neg α] [Zero α] [One α] [NatCast α] [BEq α]
variable [LT α] [DecidableLT α] [LE α] [DecidableLE α]
variable {n k : Nat} {X : Type}

theorem progress_trans {S : Solver α n k X} {a b c : Buffer α n k}
    {l l' : List (α × Vec α n × Vec α n)} (h : Progress S a l b) (h' : Progress S b l' c) :
    Progress S a (l ++ l') c := by
  induction h' with
  | refl => simpa using h
  | step _ ht ih => rw [← List.append_assoc]; exact .step ih ht

theorem prim_progress {S : Solver α n k X} (hM : IsLibrary S.method) {s s' : St α n k X}
    (h : Prim S s s') : ∃ l, Progress S s.cache l s'.cache := by
  cases h with
  | @body r b hb hf h =>
    cases r with
    | ok u => exact ⟨_, .step (.refl _) h⟩
    | error e => exact ⟨[], by rw [hM.shaped.body_err _ _ _ _ h]; exact .refl _⟩
  | interp t h => exact ⟨[], by rw [(hM.shaped.interp _ _ _ _ _ h).1]; exact .refl _⟩

theorem moves_progress {S : Solver α n k X} (hM : IsLibrary S.method) {s s' : St α n k X}
    (h : Relation.ReflTransGen (Prim S) s s') : ∃ l, Progress S s.cache l s'.cache := by
  induction h with
  | refl => exact ⟨[], .refl _⟩
  | tail _ hp ih =>
    obtain ⟨l, hl⟩ := ih
    obtain ⟨l', hl'⟩ := prim_progress hM hp
    exact ⟨_, progress_trans hl hl'⟩

/-- **C15.** Whatever a call does - return, or raise because the right-hand side or the nonlinear solver raised
at any evaluation - the history afterwards results from the history before by completed steps only: no
partial step is ever visible. -/
theorem C15_only_completed_steps (S : Solver α n k X) (hM : IsLibrary S.method)
    (bo : BisectOpts α) (argsort : List α → List Nat) (c : Call α n) (s s' : St α n k X)
    (r : Except Err Unit) (h : (c.exec S bo argsort).run s = some (r, s')) :
    ∃ l, Progress S s.cache l s'.cache :=
  moves_progress hM (post_prim (moves_exec bo argsort c _ _ _ h))

/-- **C15**, for a whole session. -/
theorem C15_session (S : Solver α n k X) (hM : IsLibrary S.method) (bo : BisectOpts α)
    (argsort : List α → List Nat) (s s' : St α n k X) (h : Session S bo argsort s s') :
    ∃ l, Progress S s.cache l s'.cache :=
  moves_progress hM (session_moves h)

/-- **C15**, `step`/`skip` without a target: when the integration step attempted after the points `l` raises
`e`, then so does the call, and the history is the one after `l`. -/
theorem C15_step_raises (S : Solver α n k X) (hM : IsLibrary S.method) (m : Nat)
    (s s1 s2 : St α n k X) (l : List (St α n k X)) (e : Err) (hp : Path S S.tBound s l s1)
    (hl : l.length < m) (hf : Fits S.tBound s1)
    (hb : (S.method.body S.rhs).run s1 = some (.error e, s2)) :
    (S.step (some (m : Int)) none).run s = some (.error e, s2) ∧
    (S.skip (some (m : Int)) none).run s = some (.error e, s2) ∧ s2.cache = s1.cache := by
  have h1 : (S.nstepsLoop S.tBound m).run s = some (.error e, s2) :=
    nstepsLoop_error.mpr ⟨l, s1, hp, hl, hf, hb⟩
  have h2 : (S.step (some (m : Int)) none).run s = some (.error e, s2) := by
    rw [step_n_run, h1]; simp
  refine ⟨h2, ?_, hM.shaped.body_err _ _ _ _ hb⟩
  have := C02_skip_eq_step S (some m) none s
  simp only [Option.map_some, Int.ofNat_eq_natCast] at this
  rw [this, h2]; simp [effect, Except.map]

/-- **C15**, `step`/`skip` with a target. -/
theorem C15_step_upto_raises (S : Solver α n k X) (hM : IsLibrary S.method) (u : Bound α)
    (s s1 s2 : St α n k X) (l : List (St α n k X)) (e : Err) (hu : ¬ Past u s)
    (hb : ¬ Beyond u S.tBound) (hp : Path S u s l s1) (hf : Fits u s1)
    (he : (S.method.body S.rhs).run s1 = some (.error e, s2)) :
    (S.step none (some u)).run s = some (.error e, s2) ∧
    (S.skip none (some u)).run s = some (.error e, s2) ∧ s2.cache = s1.cache := by
  have h1 : (S.stepsLoop u).run s = some (.error e, s2) :=
    stepsLoop_error.mpr ⟨l, s1, hp, hf, he⟩
  have h2 : (S.step none (some u)).run s = some (.error e, s2) := by
    rw [step_upto_run _ _ _ hu hb, h1]; simp
  refine ⟨h2, ?_, hM.shaped.body_err _ _ _ _ he⟩
  have := C02_skip_eq_step S none (some u) s
  simp only [Option.map_none] at this
  rw [this, h2]; simp [effect, Except.map]

/-- **C14.** If every slot of the history holds a point with its derivative, it still does after any session:
in particular `solver.f = rhs(solver.t, solver.y)`. -/
theorem C14_f_is_derivative (S : Solver α n k X) (hM : IsLibrary S.method) (bo : BisectOpts α)
    (argsort : List α → List Nat) (s s' : St α n k X) (hs : Consistent S.rhs s.cache)
    (h : Session S bo argsort s s') :
    Consistent S.rhs s'.cache ∧ S.rhs s'.t s'.y = .ok s'.f := by
  have key : Consistent S.rhs s'.cache := by
    refine session_invariant (fun s => Consistent S.rhs s.cache) ?_ h hs
    intro s s' hp hs
    cases hp with
    | @body r b hb hf h =>
      cases r with
      | error e => show Consistent S.rhs s'.cache; rw [hM.shaped.body_err _ _ _ _ h]; exact hs
      | ok u =>
        obtain ⟨t, y, f, h1, h2⟩ := hM.shaped.body_ok _ _ _ h
        show Consistent S.rhs s'.cache
        rw [h1]
        intro i
        simp only [Buffer.push, shiftIn]
        split
        · exact hs _
        · exact h2
    | interp t h =>
      show Consistent S.rhs s'.cache
      rw [(hM.shaped.interp _ _ _ _ _ h).1]; exact hs
  exact ⟨key, key _⟩

/-- **C14**, the base constructor (fixed-step solvers). -/
theorem C14_construction (garbage : Buffer α n k) (aux : X) (rhs : Rhs α n) (t0 : α)
    (y0 : Vec α n) (h : Option α) (s : St α n k X)
    (hs : solverInit garbage aux rhs t0 y0 h = .ok s) :
    Consistent rhs s.cache ∧ s.t = t0 ∧ s.y = y0 := by
  obtain ⟨f0, hf, hc, _⟩ := solverInit_ok hs
  unfold St.t St.y
  rw [hc]
  refine ⟨fun i => ?_, init_ts _ _ _ _ _, init_ys _ _ _ _ _⟩
  rw [init_ts, init_ys, init_fs]; exact hf

/-- **C14**, the constructor of `RungeKutta23`/`RungeKutta45`, whatever the uninitialised stages. -/
theorem C14_construction_fsal {s d : Nat} (P : Fin (s + 2) → Fin d → α) (o : VarOptions α)
    (sel : Rhs α n → α → Vec α n → Vec α n → Except Err α) (garbage : Buffer α n 0)
    (K : Fin (s + 2) → Vec α n) (itp : RkItp α n d) (rhs : Rhs α n) (t0 : α) (y0 : Vec α n)
    (h first : Option α) (st : St α n 0 (FsalAux α n s (RkItp α n d)))
    (hs : fsalInit P o sel garbage K itp rhs t0 y0 h first = .ok st) :
    Consistent rhs st.cache ∧ st.t = t0 ∧ st.y = y0 := by
  obtain ⟨s0, h0, hc, _⟩ := fsalInit_ok hs
  obtain ⟨s1, h1, hc1, _⟩ := variableInit_ok h0
  have := C14_construction _ _ _ _ _ _ _ h1
  unfold St.t St.y at *
  rw [hc, hc1]; exact this

/-- **C14**, the constructor of `DOP853`, whatever the uninitialised stages. -/
theorem C14_construction_dop853 (d : DopDense α) (o : VarOptions α)
    (sel : Rhs α n → α → Vec α n → Vec α n → Except Err α) (garbage : Buffer α n 0)
    (K : Fin 13 → Vec α n) (itp : DopItp α n) (rhs : Rhs α n) (t0 : α) (y0 : Vec α n)
    (h first : Option α) (st : St α n 0 (FsalAux α n 11 (DopItp α n)))
    (hs : dopInit d o sel garbage K itp rhs t0 y0 h first = .ok st) :
    Consistent rhs st.cache ∧ st.t = t0 ∧ st.y = y0 := by
  obtain ⟨s0, h0, hc, _⟩ := dopInit_ok hs
  obtain ⟨s1, h1, hc1, _⟩ := variableInit_ok h0
  have := C14_construction _ _ _ _ _ _ _ h1
  unfold St.t St.y at *
  rw [hc, hc1]; exact this

theorem consistent_push {rhs : Rhs α n} {b : Buffer α n k} {t : α} {y f : Vec α n}
    (hb : Consistent rhs b) (h : rhs t y = .ok f) : Consistent rhs (b.push t y f) := by
  intro i
  simp only [Buffer.push, shiftIn]
  split
  · exact hb _
  · exact h

theorem consistent_pushN {rhs : Rhs α n} {b : Buffer α n k} {t : α} {y f : Vec α n}
    (hb : Consistent rhs b) (h : rhs t y = .ok f) (m : Nat) :
    Consistent rhs (b.pushN t y f m) := by
  induction m with
  | zero => exact hb
  | succ m ih => exact consistent_push ih h

theorem startFixed_consistent {k' : Nat} {X' : Type} {S' : Solver α n k' X'}
    (hM : IsLibrary S'.method) (m : Nat) (b : Buffer α n k) (hb : Consistent S'.rhs b)
    (s s' : St α n k' X') (hs : Consistent S'.rhs s.cache) (b' : Buffer α n k)
    (h : (startFixed S' m b).run s = some (.ok b', s')) : Consistent S'.rhs b' := by
  induction m generalizing b s with
  | zero =>
    simp only [startFixed, run_pure, Option.some.injEq, Prod.mk.injEq, Except.ok.injEq] at h
    rw [← h.1]; exact hb
  | succ m ih =>
    simp only [startFixed, run_bind, run_get, andThen_eq_ok] at h
    obtain ⟨a, s1, h1, s2, s3, h2, h3⟩ := h
    simp only [Option.some.injEq, Prod.mk.injEq, Except.ok.injEq] at h2
    obtain ⟨rfl, rfl⟩ := h2
    have hses : Session S' ⟨0, 0, 0⟩ (fun _ => []) s s1 :=
      .call (.step none none) (.ok ()) (.start _) (by
        simp only [Call.exec, run_bind, h1, andThen_ok, run_pure])
    have hc := C14_f_is_derivative S' hM _ _ _ _ hs hses
    exact ih _ (consistent_push hb hc.2) _ hc.1 h3

theorem pushAll_consistent {rhs : Rhs α n} (l : List (α × Vec α n)) (b b' : Buffer α n k)
    (hb : Consistent rhs b) (h : pushAll rhs l b = .ok b') : Consistent rhs b' := by
  induction l generalizing b with
  | nil => simp only [pushAll, Except.ok.injEq] at h; rw [← h]; exact hb
  | cons p l ih =>
    obtain ⟨t, y⟩ := p
    cases hf : rhs t y with
    | error e => simp [pushAll, hf, bind, Except.bind] at h
    | ok f =>
      simp only [pushAll, hf, bind, Except.bind] at h
      exact ih _ (consistent_push hb hf) h

/-- A starter of the library whose own constructor fills its history consistently. -/
def GoodStarter (rhs : Rhs α n) : Starter α n → Prop
  | .none => True
  | .fixed M make => IsLibrary M ∧ ∀ t y h s, make rhs t y h = .ok s → Consistent rhs s.cache
  | .variable M make => IsLibrary M ∧ ∀ t y s, make rhs t y = .ok s → Consistent rhs s.cache

/-- **C14**, the constructor of the multistep methods, for every starter of the library. -/
theorem C14_construction_multistep {p : Nat} (garbage : Buffer α n (histExtra p))
    (bo : BisectOpts α) (argsort : List α → List Nat) (starter : Starter α n) (rhs : Rhs α n)
    (hst : GoodStarter rhs starter) (t0 : α) (y0 : Vec α n) (h : Option α)
    (s : St α n (histExtra p) Unit)
    (hs : multistepInit garbage bo argsort starter rhs t0 y0 h = some (.ok s)) :
    Consistent rhs s.cache := by
  unfold multistepInit at hs
  cases h0 : solverInit garbage () rhs t0 y0 h with
  | error e => rw [h0] at hs; simp at hs
  | ok s0 =>
    rw [h0] at hs
    have hc := (C14_construction _ _ _ _ _ _ _ h0).1
    simp only at hs
    by_cases hp : p = 0
    · rw [if_pos hp] at hs
      simp only [Option.some.injEq, Except.ok.injEq] at hs
      subst hs
      exact consistent_pushN hc (hc _) _
    · rw [if_neg hp] at hs
      cases starter with
      | none =>
        simp only [Option.some.injEq, Except.ok.injEq] at hs
        subst hs
        exact consistent_pushN hc (hc _) _
      | fixed M mk =>
        simp only at hs
        cases hm : mk rhs s0.t s0.y (some s0.h) with
        | error e => rw [hm] at hs; simp at hs
        | ok s1 =>
          rw [hm] at hs
          simp only [runFrom] at hs
          cases hr : (startFixed ⟨M, rhs, .inf⟩ p s0.cache).run s1 with
          | none => rw [hr] at hs; simp at hs
          | some q =>
            obtain ⟨r, s2⟩ := q
            rw [hr] at hs
            cases r with
            | error e => simp [Except.map] at hs
            | ok b =>
              simp only [Option.map_some, Except.map, Option.some.injEq, Except.ok.injEq] at hs
              subst hs
              exact startFixed_consistent (S' := ⟨M, rhs, .inf⟩) hst.1 p _ hc s1 s2
                (hst.2 _ _ _ _ hm) b hr
      | «variable» M mk =>
        simp only at hs
        cases hm : mk rhs s0.t s0.y with
        | error e => rw [hm] at hs; simp at hs
        | ok s1 =>
          rw [hm] at hs
          simp only [runFrom] at hs
          cases hr : (startVariable ⟨M, rhs, .inf⟩ bo argsort p s0.h s0.cache).run s1 with
          | none => rw [hr] at hs; simp at hs
          | some q =>
            obtain ⟨r, s2⟩ := q
            rw [hr] at hs
            cases r with
            | error e => simp [Except.map] at hs
            | ok b =>
              simp only [Option.map_some, Except.map, Option.some.injEq, Except.ok.injEq] at hs
              subst hs
              simp only [startVariable, run_bind, andThen_eq_ok, run_ofExcept,
                Option.some.injEq, Prod.mk.injEq] at hr
              obtain ⟨out, s3, _, h2, _⟩ := hr
              exact pushAll_consistent _ _ _ hc h2

/-- The window of a log after pushing, slot by slot. -/
theorem window_pushList (b : Buffer α n k) (l : List (α × Vec α n × Vec α n)) :
    Window (l.foldl (fun b p => b.push p.1 p.2.1 p.2.2) b)
      (List.ofFn (fun i : Fin (k + 2) => (b.ts i, b.ys i, b.fs i)) ++ l) := by
  have key : ∀ i : Fin (k + 2), some ((pushList b l).ts i, (pushList b l).ys i, (pushList b l).fs i)
      = (List.ofFn (fun i : Fin (k + 2) => (b.ts i, b.ys i, b.fs i)) ++ l)[l.length + i.val]? := by
    intro i
    have h1 := shiftAll_window (fun i : Fin (k + 2) => (b.ts i, b.ys i, b.fs i)) l i
    rw [← h1]
    have h2 : ∀ (l : List (α × Vec α n × Vec α n)) (b : Buffer α n k),
        ((pushList b l).ts i, (pushList b l).ys i, (pushList b l).fs i) =
        shiftAll (fun i : Fin (k + 2) => (b.ts i, b.ys i, b.fs i)) l i := by
      intro l
      induction l with
      | nil => intro b; rfl
      | cons p l ih =>
        intro b
        refine (ih (b.push p.1 p.2.1 p.2.2)).trans ?_
        show shiftAll _ l i = shiftAll (shiftIn _ p) l i
        congr 1
        funext j
        simp only [Buffer.push, shiftIn]
        split <;> rfl
    rw [h2]
  refine ⟨(List.ofFn (fun i : Fin (k + 2) => (b.ts i, b.ys i, b.fs i)) ++ l).take l.length, ?_⟩
  conv_rhs => rw [← List.take_append_drop l.length
    (List.ofFn (fun i : Fin (k + 2) => (b.ts i, b.ys i, b.fs i)) ++ l)]
  congr 1
  apply List.ext_getElem?
  intro j
  rw [List.getElem?_drop, List.getElem?_ofFn]
  by_cases hj : j < k + 2
  · rw [dif_pos hj]; exact key ⟨j, hj⟩
  · rw [dif_neg hj, eq_comm, List.getElem?_eq_none_iff]
    rw [List.length_append, List.length_ofFn]; omega

/-- **C13**, the buffer: after construction (whatever the uninitialised memory) and any sequence of pushes, the
history is the window on the last `k + 2` entries of the log of pushed triples, padded with the
initial triple. -/
theorem C13_window_of_pushes (garbage : Buffer α n k) (t0 : α) (y0 f0 : Vec α n)
    (l : List (α × Vec α n × Vec α n)) :
    Window (l.foldl (fun b p => b.push p.1 p.2.1 p.2.2) (Buffer.init garbage t0 y0 f0))
      (List.replicate (k + 2) (t0, y0, f0) ++ l) := by
  have h := window_pushList (Buffer.init garbage t0 y0 f0) l
  simp only [init_ts, init_ys, init_fs] at h
  rwa [List.ofFn_const] at h

theorem progress_pushList {S : Solver α n k X} (hM : IsLibrary S.method) {b b' : Buffer α n k}
    {l : List (α × Vec α n × Vec α n)} (h : Progress S b l b') :
    b' = l.foldl (fun b p => b.push p.1 p.2.1 p.2.2) b := by
  induction h with
  | refl => rfl
  | @step l s s' _ ht ih =>
    obtain ⟨t, y, f, h1, _⟩ := hM.shaped.body_ok _ _ _ ht
    rw [List.foldl_append, ← ih]
    simp only [List.foldl_cons, List.foldl_nil, St.t, St.y, St.f]
    rw [h1, push_t, push_y, push_f]

/-- **C13**, the solver: after any session the history is the window on the last `k + 2` entries of
"the history before, then the points reached by the completed steps"; for a new solver the history before is
the initial triple repeated. -/
theorem C13_history_window (S : Solver α n k X) (hM : IsLibrary S.method) (bo : BisectOpts α)
    (argsort : List α → List Nat) (s s' : St α n k X) (h : Session S bo argsort s s') :
    ∃ l, Progress S s.cache l s'.cache ∧
      Window s'.cache
        (List.ofFn (fun i : Fin (k + 2) => (s.cache.ts i, s.cache.ys i, s.cache.fs i)) ++ l) ∧
      ∀ garbage t0 y0 f0, s.cache = Buffer.init garbage t0 y0 f0 →
        Window s'.cache (List.replicate (k + 2) (t0, y0, f0) ++ l) := by
  obtain ⟨l, hl⟩ := C15_session S hM bo argsort s s' h
  refine ⟨l, hl, ?_, ?_⟩
  · rw [progress_pushList hM hl]; exact window_pushList _ _
  · intro g t0 y0 f0 hc
    rw [hc] at hl
    rw [progress_pushList hM hl]
    exact C13_window_of_pushes _ _ _ _ _

end lawless

/-! ## Times: C04, C07, C11 -/
section order
variable {α : Type} [LinearOrder α]
variable [Add α] [Sub α] [Mul α] [Div α] [Neg α] [Zero α] [One α] [NatCast α] [BEq α]
variable {n k : Nat} {X : Type}

/-- **C07**, fixed-step methods: over any linearly ordered number type with any addition, the solver's time is
not past `t_bound` after any session if it was not before. -/
theorem C07_bound_fixed (S : Solver α n k X) (hM : IsFixed S.method) (bo : BisectOpts α)
    (argsort : List α → List Nat) (s s' : St α n k X) (hs : ¬ Past S.tBound s)
    (h : Session S bo argsort s s') : ¬ Past S.tBound s' := by
  refine session_invariant (fun s => ¬ Past S.tBound s) ?_ h hs
  intro s s' hp hs
  cases hp with
  | @body r b hb hf h =>
    cases r with
    | error e =>
      unfold Past St.t at *
      rw [hM.shaped.body_err _ _ _ _ h]; exact hs
    | ok u =>
      have ht := hM.shaped.body_fixed _ _ _ h
      unfold Past Allowed Beyond Fits NotBeyond at *
      rw [ht]
      cases hT : S.tBound with
      | inf => simp
      | fin tb =>
        rw [hT] at hb
        cases b with
        | inf => simp at hb
        | fin b =>
          simp only [Bound.fin.injEq, not_lt, decide_eq_false_iff_not] at *
          rcases hb with rfl | hb
          · exact hf
          · exact hf.trans hb
  | interp t h =>
    unfold Past St.t at *
    rw [(hM.shaped.interp _ _ _ _ _ h).1]; exact hs

theorem path_times_fixed (S : Solver α n k X) (hM : IsFixed S.method) (u : Bound α)
    (s s' : St α n k X) (l : List (St α n k X)) (hp : Path S u s l s') :
    ∀ x ∈ l, ¬ Past u x := by
  induction hp with
  | nil => simp
  | cons hf ht _ ih =>
    intro x hx
    rcases List.mem_cons.mp hx with rfl | hx
    · have := hM.shaped.body_fixed _ _ _ ht
      unfold Past Fits NotBeyond at *
      rw [this]
      cases u <;> simp_all
    · exact ih x hx

/-- **C04**, fixed-step methods: no time returned by `step(upto_t=u)` is beyond `u`. -/
theorem C04_times_fixed (S : Solver α n k X) (hM : IsFixed S.method) (u : Bound α)
    (s s' : St α n k X) (hs : ¬ Past u s) (out : List (α × Vec α n))
    (h : (S.step none (some u)).run s = some (.ok (.arrays out), s')) :
    ∀ p ∈ out, NotBeyond u p.1 := by
  obtain ⟨l, hp, rfl, -⟩ := C04_step_upto S u s s' out hs h
  intro p hp'
  obtain ⟨x, hx, rfl⟩ := List.mem_map.mp hp'
  have := path_times_fixed S hM u s s' l hp x hx
  unfold Past at this
  cases u with
  | fin u => exact this
  | inf => trivial

/-- What `step` returns lists the states it went through. -/
theorem step_arrays (S : Solver α n k X) (m : Option Nat) (u : Option (Bound α)) (s s' : St α n k X)
    (out : List (α × Vec α n)) (h : (S.step (m.map Int.ofNat) u).run s = some (.ok (.arrays out), s')) :
    out = [] ∨ ∃ b l s1, Path S b s l s1 ∧ out = l.map record := by
  unfold step at h
  simp only [run_bind, run_get, andThen_ok, run_ite, run_pure] at h
  split at h
  · simp only [Option.some.injEq, Prod.mk.injEq, Except.ok.injEq, StepOut.arrays.injEq] at h
    exact Or.inl h.1.symm
  · right
    cases m with
    | none =>
      cases u with
      | none =>
        simp only [Option.map_none, run_bind, run_ite, andThen_eq_ok] at h
        obtain ⟨c, s1, _, h2⟩ := h
        cases c <;> simp at h2
      | some u =>
        simp only [Option.map_none, run_bind, run_pure, andThen_eq_ok] at h
        obtain ⟨_, s1, h1, o, s2, h2, h3⟩ := h
        simp only [Option.some.injEq, Prod.mk.injEq, Except.ok.injEq, StepOut.arrays.injEq] at h3
        obtain ⟨rfl, rfl⟩ := h3
        unfold checkTime at h1
        split at h1
        · simp at h1
        · simp only [run_pure, Option.some.injEq, Prod.mk.injEq] at h1
          obtain ⟨_, rfl⟩ := h1
          obtain ⟨l, hp, ho, _⟩ := stepsLoop_ok.mp h2
          exact ⟨_, l, _, hp, ho⟩
    | some m =>
      cases u with
      | none =>
        simp only [Option.map_some, run_bind, run_ite, run_pure, andThen_eq_ok, nsteps,
          Int.ofNat_eq_natCast] at h
        rw [if_neg (by omega), Int.toNat_natCast] at h
        obtain ⟨⟨o, c⟩, s1, h1, h2⟩ := h
        cases c with
        | true => simp at h2
        | false =>
          simp at h2
          obtain ⟨rfl, rfl⟩ := h2
          obtain ⟨l, hp, ho, _⟩ := nstepsLoop_ok.mp h1
          exact ⟨_, l, _, hp, ho⟩
      | some u =>
        simp only [Option.map_some, run_bind, run_pure, andThen_eq_ok, nsteps,
          Int.ofNat_eq_natCast] at h
        rw [if_neg (by omega), Int.toNat_natCast] at h
        obtain ⟨_, s1, h1, ⟨o, c⟩, s2, h2, h3⟩ := h
        simp only [Option.some.injEq, Prod.mk.injEq, Except.ok.injEq, StepOut.arrays.injEq] at h3
        obtain ⟨rfl, rfl⟩ := h3
        unfold checkTime at h1
        split at h1
        · simp at h1
        · simp only [run_pure, Option.some.injEq, Prod.mk.injEq] at h1
          obtain ⟨_, rfl⟩ := h1
          obtain ⟨l, hp, ho, _⟩ := nstepsLoop_ok.mp h2
          exact ⟨_, l, _, hp, ho⟩

end order

section field
variable {α : Type} [Field α] [LinearOrder α] [IsStrictOrderedRing α] [BEq α]
variable {n k : Nat} {X : Type}

theorem wellConfigured_bound {S : Solver α n k X} (hM : WellConfigured S.method) {b : Bound α}
    {s s' : St α n k X} (hs : ¬ Past b s) (hf : Fits b s) (h : Takes S s s') : ¬ Past b s' := by
  obtain ⟨q, hq, hq1, ht⟩ := (hM.time _ _ _ _ h).2 rfl
  unfold Past Fits NotBeyond at *
  cases b with
  | inf => simp
  | fin b =>
    simp only [decide_eq_false_iff_not, not_lt] at *
    rw [ht]
    rcases le_total 0 s.h with h0 | h0
    · have := mul_le_of_le_one_right h0 hq1
      linarith
    · have := mul_nonpos_of_nonpos_of_nonneg h0 hq.le
      linarith

/-- **C07.** For every fixed-step method, and every variable-step method with options under which a rejected
attempt cannot enlarge the step: the solver's time is not past `t_bound` after any session if it was not
before. -/
theorem C07_bound (S : Solver α n k X) (hM : WellConfigured S.method) (bo : BisectOpts α)
    (argsort : List α → List Nat) (s s' : St α n k X) (hs : ¬ Past S.tBound s)
    (h : Session S bo argsort s s') : ¬ Past S.tBound s' := by
  refine session_invariant (fun s => ¬ Past S.tBound s) ?_ h hs
  intro s s' hp hs
  cases hp with
  | @body r b hb hf h =>
    cases r with
    | error e =>
      unfold Past St.t at *
      rw [hM.library.shaped.body_err _ _ _ _ h]; exact hs
    | ok u =>
      refine wellConfigured_bound hM hs ?_ h
      unfold Allowed Beyond Fits NotBeyond at *
      cases hT : S.tBound with
      | inf => simp
      | fin tb =>
        rw [hT] at hb
        cases b with
        | inf => simp at hb
        | fin b =>
          simp only [Bound.fin.injEq, not_lt, decide_eq_false_iff_not] at *
          rcases hb with rfl | hb
          · exact hf
          · exact hf.trans hb
  | interp t h =>
    unfold Past St.t at *
    rw [(hM.library.shaped.interp _ _ _ _ _ h).1]; exact hs

theorem path_not_past (S : Solver α n k X) (hM : WellConfigured S.method) (u : Bound α)
    (s s' : St α n k X) (l : List (St α n k X)) (hs : ¬ Past u s) (hp : Path S u s l s') :
    ∀ x ∈ l, ¬ Past u x := by
  induction hp with
  | nil => simp
  | cons hf ht _ ih =>
    have h1 := wellConfigured_bound hM hs hf ht
    intro x hx
    rcases List.mem_cons.mp hx with rfl | hx
    · exact h1
    · exact ih h1 x hx

/-- **C04**: no time returned by `step(upto_t=u)` is beyond `u`. -/
theorem C04_times (S : Solver α n k X) (hM : WellConfigured S.method) (u : Bound α)
    (s s' : St α n k X) (hs : ¬ Past u s) (out : List (α × Vec α n))
    (h : (S.step none (some u)).run s = some (.ok (.arrays out), s')) :
    ∀ p ∈ out, NotBeyond u p.1 := by
  obtain ⟨l, hp, rfl, -⟩ := C04_step_upto S u s s' out hs h
  intro p hp'
  obtain ⟨x, hx, rfl⟩ := List.mem_map.mp hp'
  have := path_not_past S hM u s s' l hs hp x hx
  unfold Past at this
  cases u with
  | fin u => exact this
  | inf => trivial

/-- **C11**, one step: with a positive step size, a successful step strictly increases the time, and the step
size stays positive. -/
theorem C11_step_increases (S : Solver α n k X) (hM : WellConfigured S.method)
    (s s' : St α n k X) (hh : 0 < s.h) (h : Takes S s s') : s.t < s'.t ∧ 0 < s'.h := by
  obtain ⟨⟨p, hp, h1⟩, h2⟩ := hM.time _ _ _ _ h
  obtain ⟨q, hq, _, ht⟩ := h2 rfl
  rw [ht, h1]
  exact ⟨by have := mul_pos hh hq; linarith, mul_pos hh hp⟩

theorem path_increasing {S : Solver α n k X} (hM : WellConfigured S.method) {b : Bound α}
    {s s' : St α n k X} {l : List (St α n k X)} (hh : 0 < s.h) (hp : Path S b s l s') :
    List.Pairwise (· < ·) (s.t :: l.map St.t) := by
  induction hp with
  | nil => simp
  | @cons s s1 s2 l hf ht _ ih =>
    obtain ⟨h1, h2⟩ := C11_step_increases S hM _ _ hh ht
    have ih := ih h2
    rw [List.map_cons, List.pairwise_cons]
    refine ⟨?_, ih⟩
    intro a ha
    rcases List.mem_cons.mp ha with rfl | ha
    · exact h1
    · exact h1.trans ((List.pairwise_cons.mp ih).1 a ha)

/-- **C11**, one call: the times returned by any `step` call are strictly increasing and later than the
starting time. -/
theorem C11_step_times (S : Solver α n k X) (hM : WellConfigured S.method) (m : Option Nat)
    (u : Option (Bound α)) (s s' : St α n k X) (hh : 0 < s.h) (out : List (α × Vec α n))
    (h : (S.step (m.map Int.ofNat) u).run s = some (.ok (.arrays out), s')) :
    List.Pairwise (· < ·) (s.t :: out.map Prod.fst) := by
  rcases step_arrays S m u s s' out h with rfl | ⟨b, l, s1, hp, rfl⟩
  · simp
  · have := path_increasing hM hh hp
    rw [List.map_map]
    exact this

/-- **C11**, any session: the step size stays positive and the time never decreases. -/
theorem C11_session (S : Solver α n k X) (hM : WellConfigured S.method) (bo : BisectOpts α)
    (argsort : List α → List Nat) (s s' : St α n k X) (hh : 0 < s.h)
    (h : Session S bo argsort s s') : 0 < s'.h ∧ s.t ≤ s'.t := by
  refine session_invariant (fun x => 0 < x.h ∧ s.t ≤ x.t) ?_ h ⟨hh, le_refl _⟩
  intro x x' hp ⟨hx, hle⟩
  cases hp with
  | @body r b hb hf h =>
    cases r with
    | error e =>
      obtain ⟨q, hq, h1⟩ := (hM.time _ _ _ _ h).1
      refine ⟨by rw [h1]; exact mul_pos hx hq, ?_⟩
      unfold St.t at *
      rw [hM.library.shaped.body_err _ _ _ _ h]; exact hle
    | ok u =>
      obtain ⟨h1, h2⟩ := C11_step_increases S hM _ _ hx h
      exact ⟨h2, hle.trans h1.le⟩
  | interp t h =>
    obtain ⟨h1, h2⟩ := hM.library.shaped.interp _ _ _ _ _ h
    unfold St.t at *
    rw [h1, h2]; exact ⟨hx, hle⟩

end field

/-! ## Cases -/

open Demo

/-- A session with `ForwardEuler` on `y' = y`, `t_bound = 1`: `step(3)` raises `RuntimeError` after two steps of size
`1/2`, `step(-1)` raises `ValueError`, `skip(2)` raises `RuntimeError`, and `interpolate(7)` raises `ValueError`. -/
theorem demo_session (bo : BisectOpts ℚ) (argsort : List ℚ → List Nat) : Session (euler (.fin 1)) bo argsort s0 s2 := by
  have h3 : ((euler (.fin 1)).step (some (3 : Nat)) none).run s0 = some (.error .runtimeError, s2) := by
    rw [step_n_run, show (euler (.fin 1)).tBound = .fin 1 from rfl,
      nstepsLoop_ok.mpr ⟨_, demo_path, rfl, Or.inr ⟨rfl, by simp, demo_stops⟩⟩]
    simp
  have h2 : ((euler (.fin 1)).skip (some (2 : Nat)) none).run s2 = some (.error .runtimeError, s2) := by
    refine (C02_skip_eq_step (euler (.fin 1)) (some 2) none s2).trans ?_
    have : ((euler (.fin 1)).step (some (2 : Nat)) none).run s2 = some (.error .runtimeError, s2) := by
      rw [step_n_run, show (euler (.fin 1)).tBound = .fin 1 from rfl,
        nstepsLoop_ok.mpr ⟨[], .nil _, rfl, Or.inr ⟨rfl, by simp, demo_stops⟩⟩]
      simp
    simp only [Option.map_some, Int.ofNat_eq_natCast]
    rw [this]
    rfl
  refine .call (s1 := s2) (.interpolate 7) (.error .valueError) (.call (s1 := s2) (.skip (some (2 : Nat)) none)
    (.error .runtimeError) (.call (s1 := s2) (.step (some (-1)) none) (.error .valueError) (.call (s1 := s0)
    (.step (some (3 : Nat)) none) (.error .runtimeError) (.start _) ?_) ?_) ?_) ?_
  · show (do let _ ← (euler (.fin 1)).step (some (3 : Nat)) none : Py _ _).run s0 = _
    rw [run_bind, h3]; rfl
  · show (do let _ ← (euler (.fin 1)).step (some (-1)) none : Py _ _).run s2 = _
    rw [run_bind, (C02_negative_n_differs (euler (.fin 1)) (-1) (by norm_num) s2).1]; rfl
  · exact h2
  · show (do let _ ← (euler (.fin 1)).interpolate 7 : Py _ _).run s2 = _
    rw [run_bind, C10_interpolate_outside _ 7 s2 (by simp [s2, st2, St.t, Buffer.t, Buffer.iLast, histExtra])]
    rfl

-- C07, C11, C13, C14, C15 over that session.
example (bo : BisectOpts ℚ) (argsort : List ℚ → List Nat) :
    (∃ l, Progress (euler (.fin 1)) s0.cache l s2.cache ∧
      Window s2.cache (List.ofFn (fun i : Fin 2 => (s0.cache.ts i, s0.cache.ys i, s0.cache.fs i)) ++ l)) ∧
    Consistent growth s2.cache ∧ ¬ Past (.fin 1) s2 ∧ 0 < s2.h ∧ s0.t ≤ s2.t := by
  have hM : IsFixed (euler (.fin 1)).method := .explicitMultistep _
  have hs := demo_session bo argsort
  obtain ⟨l, h1, h2, -⟩ := C13_history_window _ (Or.inl hM) bo argsort _ _ hs
  obtain ⟨h3, h4⟩ := C11_session _ (Or.inl hM) bo argsort _ _ (by norm_num [s0, st]) hs
  exact ⟨⟨l, h1, h2⟩, (C14_f_is_derivative _ (Or.inl hM) bo argsort _ _ (fun _ => rfl) hs).1,
    C07_bound_fixed _ hM bo argsort _ _ (by simp [Past, euler, s0, st, St.t, Buffer.t]) hs, h3, h4⟩

-- C14: constructing `ForwardEuler`, and `AdamsBashforth2` with a Runge-Kutta starter, succeeds.
example (g : Buffer ℚ 1 0) : ∃ s : St ℚ 1 0 Unit, solverInit g () growth 3 (fun _ => 5) none = .ok s ∧
    Consistent growth s.cache ∧ s.t = 3 ∧ s.y = fun _ => 5 :=
  ⟨_, rfl, C14_construction g () growth 3 (fun _ => 5) none _ rfl⟩

-- C11, C04: `step(upto_t=1)` from `t = 0` returns increasing times up to `1`.
example : List.Pairwise (· < ·) (s0.t :: ([s1, s2].map record).map Prod.fst) ∧
    ∀ p ∈ [s1, s2].map record, NotBeyond (.fin 1) p.1 := by
  have h : ¬ Past (.fin 1) s0 := by simp [Past, s0, st, St.t, Buffer.t]
  have h1 : ((euler (.fin 1)).step none (some (.fin 1))).run s0 = some (.ok (.arrays ([s1, s2].map record)), s2) := by
    rw [step_upto_run _ _ _ h (by simp [Beyond, euler])]
    rw [stepsLoop_ok.mpr ⟨_, demo_path, rfl, demo_stops⟩]
    simp
  have hM : IsFixed (euler (.fin 1)).method := .explicitMultistep _
  exact ⟨C11_step_times _ (Or.inl hM) none _ s0 s2 (by norm_num [s0, st]) _ h1,
    C04_times _ (Or.inl hM) _ s0 s2 h _ h1⟩

/-- One step of the failing right-hand side, up to `t = 1/2`. -/
theorem failing_first : Takes eulerFailing s0 s1 ∧
    (eulerFailing.method.body eulerFailing.rhs).run s1 = some (.error (.user 7), s1) := by
  have e0 : multistepK (ForwardEuler (α := ℚ)) s0.cache s0.h = fun _ => 3 / 2 := by
    funext i
    simp [multistepK, vdot, lastRows, ForwardEuler, AdamsBashforth1, adamsA, s0, st, histExtra, Fin.foldl_succ]
    norm_num
  constructor
  · unfold Takes
    change (explicitMultistepBody ForwardEuler failing).run s0 = _
    rw [explicitMultistepBody_run, e0]
    have hf : failing (s0.t + s0.h) (fun _ => 3 / 2) = .ok fun _ => 3 / 2 :=
      if_neg (show ¬ ((0 : ℚ) + 1 / 2 > 3 / 4) by norm_num)
    rw [hf]
    simp only [Option.some.injEq, Prod.mk.injEq, true_and]
    unfold s1 st2 Buffer.push
    congr 1
    congr 1
    · funext i; fin_cases i <;> simp [shiftIn, s0, st, St.t, Buffer.t, histExtra]
    · funext i; fin_cases i <;> simp [shiftIn, s0, st, histExtra]
    · funext i; fin_cases i <;> simp [shiftIn, s0, st, histExtra]
  · change (explicitMultistepBody ForwardEuler failing).run s1 = _
    rw [explicitMultistepBody_run]
    have hf : ∀ y, failing (s1.t + s1.h) y = .error (.user 7) := fun y =>
      if_pos (show (1 / 2 : ℚ) + 1 / 2 > 3 / 4 by norm_num)
    rw [hf]

-- C15: the right-hand side raises in the second of five steps; the first one is kept.
example : (eulerFailing.step (some (5 : Nat)) none).run s0 = some (.error (.user 7), s1) ∧
    (eulerFailing.skip (some (5 : Nat)) none).run s0 = some (.error (.user 7), s1) ∧
    (eulerFailing.step none (some (.fin 3))).run s0 = some (.error (.user 7), s1) := by
  have hp : ∀ b, Fits b s0 → Path eulerFailing b s0 [s1] s1 := fun b hb => .cons hb failing_first.1 (.nil _)
  have h1 := C15_step_raises eulerFailing (Or.inl (.explicitMultistep _)) 5 s0 s1 s1 [s1] (.user 7) (hp _ trivial) (by simp)
    trivial failing_first.2
  refine ⟨h1.1, h1.2.1, (C15_step_upto_raises eulerFailing (Or.inl (.explicitMultistep _)) (.fin 3) s0 s1 s1 [s1] (.user 7)
    ?_ ?_ (hp _ ?_) ?_ failing_first.2).1⟩
  · simp [Past, s0, st, St.t, Buffer.t]
  · simp [Beyond, eulerFailing]
  · simp [Fits, NotBeyond, s0, st, St.t, Buffer.t]; norm_num
  · simp [Fits, NotBeyond, s1, st2, St.t, Buffer.t, Buffer.iLast, histExtra]; norm_num

end Nbkode
