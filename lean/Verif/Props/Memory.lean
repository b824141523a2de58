import Verif.Spec.Memory
import Verif.Proofs.Memory
import Verif.Props.Terminal
import Verif.Proofs.StepApi

/-!
# C59, C63: the arrays that are returned and passed
-/

set_option autoImplicit false
set_option linter.unusedSectionVars false

namespace Nbkode
open Mem Py Spec Solver Memory

variable {α : Type}
variable [Add α] [Sub α] [Mul α] [Div α] [Neg α] [Zero α] [One α] [NatCast α] [BEq α]
variable [LT α] [DecidableLT α] [LE α] [DecidableLE α]
variable {n k : Nat} {X : Type}

/-! ## A session leaves the arrays it finds as they are -/

theorem Memory.Refines.base {A B : Type} {F : List (List α)} {R : List (List (Vec α n))} {P : Mem α n k X → Prop}
    {x : Py (Mem α n k X) A} {y : Py (St α n k X) B} {Q : A → B → Mem α n k X → Prop}
    (h : Refines F R P x y Q) {m m' : Mem α n k X} {r : Except Err A} (hb : Base F R m) (hp : P m)
    (hx : x.run m = some (r, m')) : Base F R m' := by
  have h1 := h m hb hp
  rcases hy : y.run m.st with _ | ⟨e | b, s⟩
  · rw [hy] at h1
    rw [show x.run m = none from h1] at hx
    cases hx
  · rw [hy] at h1
    obtain ⟨m1, e1, _, e3⟩ := h1
    rw [e1] at hx
    cases hx
    exact e3
  · rw [hy] at h1
    obtain ⟨a, m1, e1, _, e3, _⟩ := h1
    rw [e1] at hx
    cases hx
    exact e3

theorem Memory.Refines.result {A B : Type} {F : List (List α)} {R : List (List (Vec α n))} {P : Mem α n k X → Prop}
    {x : Py (Mem α n k X) A} {y : Py (St α n k X) B} {Q : A → B → Mem α n k X → Prop}
    (h : Refines F R P x y Q) {m m' : Mem α n k X} {a : A} (hb : Base F R m) (hp : P m)
    (hx : x.run m = some (.ok a, m')) :
    ∃ b, y.run m.st = some (.ok b, m'.st) ∧ Q a b m' := by
  have h1 := h m hb hp
  rcases hy : y.run m.st with _ | ⟨e | b, s⟩
  · rw [hy] at h1
    rw [show x.run m = none from h1] at hx
    cases hx
  · rw [hy] at h1
    obtain ⟨m1, e1, _⟩ := h1
    rw [e1] at hx
    cases hx
  · rw [hy] at h1
    obtain ⟨a', m1, e1, e2, _, e4⟩ := h1
    rw [e1] at hx
    cases hx
    exact ⟨b, by rw [e2], e4⟩

theorem Memory.Refines.forward {A B : Type} {F : List (List α)} {R : List (List (Vec α n))} {P : Mem α n k X → Prop}
    {x : Py (Mem α n k X) A} {y : Py (St α n k X) B} {Q : A → B → Mem α n k X → Prop}
    (h : Refines F R P x y Q) {m : Mem α n k X} {b : B} {s : St α n k X} (hb : Base F R m) (hp : P m)
    (hy : y.run m.st = some (.ok b, s)) :
    ∃ a m', x.run m = some (.ok a, m') ∧ m'.st = s ∧ Q a b m' := by
  have h1 := h m hb hp
  rw [hy] at h1
  obtain ⟨a, m1, e1, e2, _, e4⟩ := h1
  exact ⟨a, m1, e1, e2, e4⟩

theorem Memory.base_refl (m : Mem α n k X) : Base m.floats m.rows m := ⟨List.prefix_refl _, List.prefix_refl _⟩

theorem Memory.mSession_base {S : Solver α n k X} {bo : BisectOpts α} {argsort : List α → List Nat}
    {m m' : Mem α n k X} (h : MSession S bo argsort m m') : Base m.floats m.rows m' := by
  induction h with
  | start => exact base_refl m
  | @call m1 m2 c r _ hx ih =>
    have drop : ∀ {A B : Type} {x : Py (Mem α n k X) A} {y : Py (St α n k X) B} {P : Mem α n k X → Prop}
        {Q : A → B → Mem α n k X → Prop}, Refines m.floats m.rows P x y Q →
        Refines m.floats m.rows P (x >>= fun _ => pure ()) (y >>= fun _ => pure ()) fun _ _ _ => True :=
      fun hr => hr.bind fun _ _ => Refines.pure fun _ _ _ => trivial
    cases c with
    | step jt jy c u => exact (drop (mStep_refines S jt jy c u)).base ih trivial hx
    | skip c u => exact (Refines.solver (y := S.skip c u) fun _ _ => True).base ih trivial hx
    | interpolate t => exact (drop (Refines.solver (y := S.interpolate t) fun _ _ => True)).base ih trivial hx
    | run jy ts => exact (drop (mRun_refines S bo argsort jy ts _)).base ih rfl hx
    | runEvents jy ts es => exact (drop (mRunEvents_refines S bo argsort jy ts _ es)).base ih rfl hx
    | array l =>
      have : some (Except.ok (), (⟨m1.st, m1.floats ++ [l], m1.rows⟩ : Mem α n k X)) = some (r, m2) := hx
      cases this
      exact ⟨ih.1.trans (List.prefix_append ..), ih.2⟩

theorem Memory.readFloats_base {F : List (List α)} {R : List (List (Vec α n))} {m m' : Mem α n k X} {v : View}
    (h : Base m.floats m.rows m') (hv : v.addr < m.floats.length) : m'.readFloats v = m.readFloats v := by
  obtain ⟨⟨x, hx⟩, _⟩ := h
  simp only [Mem.readFloats, List.getD_eq_getElem?_getD, ← hx, List.getElem?_append_left hv]

theorem Memory.readRows_base {m m' : Mem α n k X} {v : View}
    (h : Base m.floats m.rows m') (hv : v.addr < m.rows.length) : m'.readRows v = m.readRows v := by
  obtain ⟨_, ⟨x, hx⟩⟩ := h
  simp only [Mem.readRows, List.getD_eq_getElem?_getD, ← hx, List.getElem?_append_left hv]

/-! ## C59 -/

/-- **C59** (`step(n)`, `step(upto_t=…)`, `step(n, upto_t=…)`; partial). The two arrays returned hold the
recorded times and states when the call returns, and after any later session. Missing: `step()`, whose state
array follows the solver (`C59_step_live`, `C59_refuted`). -/
theorem C59_step_partial (S : Solver α n k X) (bo : BisectOpts α) (argsort : List α → List Nat)
    (jt : α) (jy : Vec α n) (c : Option Int) (u : Option (Bound α)) (hcu : c.isSome ∨ u.isSome)
    (m m1 : Mem α n k X) (r : MOut α n k) (h : (S.mStep jt jy c u).run m = some (.ok r, m1)) :
    ∃ t y l, r = .arrays t y ∧ (S.step c u).run m.st = some (.ok (.arrays l), m1.st) ∧
      ∀ m2, MSession S bo argsort m1 m2 →
        m2.readFloats t = l.map Prod.fst ∧ m2.readRows y = l.map Prod.snd := by
  obtain ⟨b, hb, hq⟩ := (mStep_refines (F := m.floats) (R := m.rows) S jt jy c u).result (base_refl m) trivial h
  have hform : ∃ l, b = .arrays l := by
    unfold Solver.step at hb
    rw [run_bind, run_get, andThen_ok, run_ite] at hb
    split at hb
    · rw [run_pure] at hb
      exact ⟨_, (Except.ok.inj (congrArg Prod.fst (Option.some.inj hb))).symm⟩
    · rcases c with _ | c <;> rcases u with _ | u
      · simp at hcu
      · simp only [run_bind, run_pure] at hb
        rw [andThen_eq_ok] at hb
        obtain ⟨_, _, _, hb⟩ := hb
        rw [andThen_eq_ok] at hb
        obtain ⟨_, _, _, hb⟩ := hb
        cases hb
        exact ⟨_, rfl⟩
      · simp only [run_bind, run_pure] at hb
        rw [andThen_eq_ok] at hb
        obtain ⟨⟨o, c⟩, _, _, hb⟩ := hb
        cases c
        · cases hb
          exact ⟨_, rfl⟩
        · cases hb
      · simp only [run_bind, run_pure] at hb
        rw [andThen_eq_ok] at hb
        obtain ⟨_, _, _, hb⟩ := hb
        rw [andThen_eq_ok] at hb
        obtain ⟨_, _, _, hb⟩ := hb
        cases hb
        exact ⟨_, rfl⟩
  obtain ⟨l, rfl⟩ := hform
  cases r with
  | single t y => exact hq.elim
  | none => exact hq.elim
  | arrays t y =>
    refine ⟨t, y, l, rfl, hb, fun m2 h2 => ?_⟩
    obtain ⟨⟨_, f2, f3⟩, ⟨_, g2, g3⟩⟩ := hq
    have hbase := mSession_base h2
    rw [readFloats_base (F := []) (R := []) hbase f2, readRows_base hbase g2]
    exact ⟨f3, g3⟩

/-- **C59** (`run`). The two arrays returned hold the answers when the call returns, and after any later
session. -/
theorem C59_run (S : Solver α n k X) (bo : BisectOpts α) (argsort : List α → List Nat)
    (jy : Vec α n) (arg : View) (m m1 : Mem α n k X) (r : View × View)
    (h : (S.mRun bo argsort jy arg).run m = some (.ok r, m1)) :
    ∃ l, (S.run bo argsort (m.readFloats arg)).run m.st = some (.ok l, m1.st) ∧
      ∀ m2, MSession S bo argsort m1 m2 →
        m2.readFloats r.1 = l.map Prod.fst ∧ m2.readRows r.2 = l.map Prod.snd := by
  obtain ⟨l, hb, ⟨_, f2, f3⟩, ⟨_, g2, g3⟩⟩ := (mRun_refines (F := m.floats) (R := m.rows) S bo argsort jy arg
    (m.readFloats arg)).result (base_refl m) rfl h
  refine ⟨l, hb, fun m2 h2 => ?_⟩
  have hbase := mSession_base h2
  rw [readFloats_base (F := []) (R := []) hbase f2, readRows_base hbase g2]
  exact ⟨f3, g3⟩

/-- **C59** (`run_events`). The times and states returned hold the answers when the call returns, and after any
later session. (The arrays in `y_events` are the subject of C49.) -/
theorem C59_run_events (S : Solver α n k X) (bo : BisectOpts α) (argsort : List α → List Nat)
    (jy : Vec α n) (arg : View) (es : Option (List (EventSpec α n))) (m m1 : Mem α n k X) (r : MRunOut α n k)
    (h : (S.mRunEvents bo argsort jy arg es).run m = some (.ok r, m1)) :
    ∃ o, (S.runEvents bo argsort (m.readFloats arg) es).run m.st = some (.ok o, m1.st) ∧
      r.tEvents = o.tEvents ∧ r.yEvents = o.yEvents ∧
      ∀ m2, MSession S bo argsort m1 m2 →
        m2.readFloats r.t = o.out.map Prod.fst ∧ m2.readRows r.y = o.out.map Prod.snd := by
  obtain ⟨l, hb, ⟨_, f2, f3⟩, ⟨_, g2, g3⟩, he⟩ := (mRunEvents_refines (F := m.floats) (R := m.rows) S bo argsort jy arg
    (m.readFloats arg) es).result (base_refl m) rfl h
  refine ⟨l, hb, he.1, he.2, fun m2 h2 => ?_⟩
  have hbase := mSession_base h2
  rw [readFloats_base (F := []) (R := []) hbase f2, readRows_base hbase g2]
  exact ⟨f3, g3⟩

/-- **C59** (`step()`, what it does instead). The time returned is fixed; the state array shows, after any later
session, the state the solver has reached by then. -/
theorem C59_step_live (S : Solver α n k X) (bo : BisectOpts α) (argsort : List α → List Nat)
    (jt : α) (jy : Vec α n) (m m1 : Mem α n k X) (t : View) (y : Ref α n k)
    (h : (S.mStep jt jy none none).run m = some (.ok (.single t y), m1)) :
    ∀ m2, MSession S bo argsort m1 m2 → m2.readFloats t = [m1.st.t] ∧ y.deref m2.st.cache = m2.st.y := by
  obtain ⟨b, hb, hq⟩ := (mStep_refines (F := m.floats) (R := m.rows) S jt jy none none).result (base_refl m) trivial h
  rw [step_none_run, andThen_eq_ok] at hb
  obtain ⟨c, s, _, hb⟩ := hb
  cases c
  · simp only [Bool.false_eq_true, if_false] at hb
    cases hb
    exact hq.elim
  · simp only [if_true, Option.some.injEq, Prod.mk.injEq, Except.ok.injEq] at hb
    obtain ⟨rfl, rfl⟩ := hb
    obtain ⟨⟨_, f2, f3⟩, rfl⟩ := hq
    intro m2 h2
    rw [readFloats_base (F := []) (R := []) (mSession_base h2) f2]
    exact ⟨f3, rfl⟩

/-- The claim of C59 for `step()`: the state array returned still holds, after any later session, what it held
when it was returned. -/
def C59_claim (S : Solver α n k X) (bo : BisectOpts α) (argsort : List α → List Nat) : Prop :=
  ∀ (jt : α) (jy : Vec α n) (m m1 : Mem α n k X) (t : View) (y : Ref α n k),
    (S.mStep jt jy none none).run m = some (.ok (.single t y), m1) →
    ∀ m2, MSession S bo argsort m1 m2 → y.deref m2.st.cache = y.deref m1.st.cache

/-! ## C63 -/

/-- **C63**. No session changes an array the caller made before it, in particular not the time arrays passed to
`run` and `run_events`. -/
theorem C63_args_unmodified (S : Solver α n k X) (bo : BisectOpts α) (argsort : List α → List Nat)
    (m m' : Mem α n k X) (h : MSession S bo argsort m m') (v : View) (hv : v.addr < m.floats.length) :
    m'.readFloats v = m.readFloats v :=
  readFloats_base (F := []) (R := []) (mSession_base h) hv

/-- **C63** (one call). `run_events`, whether it returns or raises, leaves the array it was given as it was. -/
theorem C63_run_events (S : Solver α n k X) (bo : BisectOpts α) (argsort : List α → List Nat)
    (jy : Vec α n) (arg : View) (es : Option (List (EventSpec α n))) (m m' : Mem α n k X)
    (r : Except Err (MRunOut α n k)) (hv : arg.addr < m.floats.length)
    (h : (S.mRunEvents bo argsort jy arg es).run m = some (r, m')) :
    m'.readFloats arg = m.readFloats arg :=
  readFloats_base (F := []) (R := [])
    ((mRunEvents_refines (F := m.floats) (R := m.rows) S bo argsort jy arg _ es).base (base_refl m) rfl h) hv

/-! ## Concrete cases -/

namespace Demo

/-- The memory of the demo session: the solver and one array of the caller. -/
def m0 : Mem ℚ 1 (histExtra 0) Unit := ⟨s0, [[3/4, 1/4]], []⟩

theorem mStep_run {S : Solver α n k X} (jt : α) (jy : Vec α n) {m : Mem α n k X} {s' : St α n k X} (hf : Fits S.tBound m.st)
    (ht : Takes S m.st s') :
    (S.mStep jt jy none none).run m
      = some (.ok (.single ⟨m.floats.length, 1⟩ (.row (Buffer.iLast k))), ⟨s', m.floats ++ [[s'.t]], m.rows⟩) := by
  have hp : (onSolver (S.pstep S.tBound)).run m = some (.ok true, ({ m with st := s' } : Mem α n k X)) := by
    unfold onSolver
    rw [run_zoom, pstep_true.2 ⟨hf, ht⟩]
  unfold Solver.mStep
  rw [run_bind, run_get, andThen_ok]
  simp only [inPast, Bool.false_eq_true, if_false, run_bind, hp, andThen_ok, if_true]
  rfl

theorem fits_inf (s : St ℚ 1 (histExtra 0) Unit) : Fits (euler .inf).tBound s := by
  simp [Fits, euler, NotBeyond]

end Demo

/-- **C59** is false: a second `step()` overwrites the state the first one returned. -/
theorem C59_refuted : ∃ (S : Solver ℚ 1 (histExtra 0) Unit) (bo : BisectOpts ℚ) (argsort : List ℚ → List Nat),
    ¬ C59_claim S bo argsort := by
  refine ⟨Demo.euler .inf, BisectOpts.std, fun _ => [], fun h => ?_⟩
  have e1 := Demo.mStep_run (S := Demo.euler .inf) 0 (fun _ => 0) (m := Demo.m0) (Demo.fits_inf _) (Demo.takes01 _)
  have e2 := Demo.mStep_run (S := Demo.euler .inf) 0 (fun _ => 0) (m := ⟨Demo.s1, Demo.m0.floats ++ [[Demo.s1.t]], []⟩)
    (Demo.fits_inf _) (Demo.takes12 _)
  have hs : MSession (Demo.euler .inf) BisectOpts.std (fun _ => [])
      (⟨Demo.s1, Demo.m0.floats ++ [[Demo.s1.t]], []⟩ : Mem ℚ 1 (histExtra 0) Unit) _ :=
    .call (.step 0 (fun _ => 0) none none) (.ok ()) (.start _) (by
      show ((do let _ ← (Demo.euler .inf).mStep 0 (fun _ => 0) none none) : Py (Mem ℚ 1 (histExtra 0) Unit) Unit).run _ = _
      rw [run_bind, e2, andThen_ok]
      rfl)
  have := h _ _ _ _ _ _ e1 _ hs
  have := congrFun this 0
  revert this
  show ¬ ((9/4 : ℚ) = 3/2)
  norm_num

open Demo in
/-- `step(2)` and the arrays it returns, for `C59_step_partial`. -/
example : ∃ t y m1, ((euler .inf).mStep 0 (fun _ => 0) (some 2) none).run m0 = some (.ok (.arrays t y), m1) ∧
    m1.readFloats t = [1/2, 1] := by
  have key : okAnd (((euler .inf).mStep 0 (fun _ => 0) (some 2) none).run m0)
      (fun r m => match r with
        | .arrays t _ => decide (m.readFloats t = [1/2, 1])
        | _ => false) = true := by
    decide +kernel
  obtain ⟨r, m1, h1, h2⟩ := of_okAnd key
  cases r with
  | arrays t y => exact ⟨t, y, m1, h1, by simpa using h2⟩
  | single t y => cases h2
  | none => cases h2

open Demo in
/-- A run and the arrays it returns, for `C59_run`. -/
example (argsort : List ℚ → List Nat) (hA : ∀ l, IsArgsort l (argsort l)) :
    ∃ r m1, ((euler (.fin (3/4))).mRun .std argsort (fun _ => 0) ⟨0, 2⟩).run ⟨s0, [[1/4, 3/4]], []⟩ = some (.ok r, m1) ∧
      m1.readFloats r.1 = [1/4] ∧ m1.readFloats ⟨0, 2⟩ = [1/4, 3/4] := by
  obtain ⟨y, h⟩ := euler_cut .std argsort hA
  obtain ⟨r, m1, h1, h2, h3⟩ := (mRun_refines (F := [[1/4, 3/4]]) (R := []) (euler (.fin (3/4))) .std argsort (fun _ => 0) ⟨0, 2⟩
    [1/4, 3/4]).forward (m := ⟨s0, [[1/4, 3/4]], []⟩) (base_refl ⟨s0, _, _⟩) rfl h
  refine ⟨r, m1, h1, h3.1.2.2, ?_⟩
  exact C63_args_unmodified (euler (.fin (3/4))) .std argsort ⟨s0, [[1/4, 3/4]], []⟩ m1
    (.call (.run (fun _ => 0) ⟨0, 2⟩) (.ok ()) (.start _) (by
      show (((euler (.fin (3/4))).mRun .std argsort (fun _ => 0) ⟨0, 2⟩) >>= fun _ => pure ()).run _ = _
      rw [run_bind, h1, andThen_ok]
      rfl)) ⟨0, 2⟩ (by decide)

open Demo in
/-- A run in which a time is overwritten by that of a terminal event, for `C59_run_events` and `C63_run_events`: the array returned
starts with the time of the event, the caller's array is as before. -/
example (argsort : List ℚ → List Nat) :
    ∃ r m1, ((euler .inf).mRunEvents .std argsort (fun _ => 0) ⟨0, 2⟩ (some [atTime (1/4) true])).run
        ⟨s0, [[1/8, 1]], []⟩ = some (.ok r, m1) ∧
      m1.readFloats r.t = [1/4] ∧ m1.readFloats ⟨0, 2⟩ = [1/8, 1] := by
  obtain ⟨o, s', h, ho⟩ := C47_refuted argsort
  obtain ⟨r, m1, h1, h2, h3⟩ := (mRunEvents_refines (F := [[1/8, 1]]) (R := []) (euler .inf) .std argsort (fun _ => 0) ⟨0, 2⟩
    [1/8, 1] (some [atTime (1/4) true])).forward (m := ⟨s0, [[1/8, 1]], []⟩) (base_refl ⟨s0, _, _⟩) rfl h
  exact ⟨r, m1, h1, h3.1.2.2.trans ho,
    C63_run_events _ _ _ _ _ _ ⟨s0, [[1/8, 1]], []⟩ _ _ (by decide) h1⟩

end Nbkode
