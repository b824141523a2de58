import Verif.Props.Change

/-!
# C75: uninitialised memory never reaches the user

The constructors allocate arrays without filling them (`np.empty`): the history, the stages `K` and the tables of the
interpolators. Two solvers constructed with the same arguments, with arbitrary contents of that memory, give the same answers to
every sequence of calls. The arithmetic is exact: floating-point `NaN`s, for which `0 * NaN` is not zero, are not covered.
-/

set_option autoImplicit false
set_option linter.unusedSectionVars false

namespace Nbkode
open Py Spec Solver

section field
variable {α : Type} [Field α] [LinearOrder α] [IsStrictOrderedRing α] [BEq α] [LawfulBEq α]
variable {n k : Nat}

namespace Unchanged

theorem time (t : α) : (Change.clock n 1 0).time t = t := by simp [Change.time, Change.clock]
theorem state (y : Vec α n) : (Change.clock n 1 0).state y = y := Change.clock_state _ _ _
theorem slope (f : Vec α n) : (Change.clock n 1 0).slope f = f := by rw [Change.clock_slope]; funext i; exact div_one _
theorem bound (b : Bound α) : (Change.clock n 1 0).bound b = b := by
  cases b with
  | inf => rfl
  | fin t => show Bound.fin _ = _; rw [time]
theorem ref (r : Ref α n k) : (Change.clock n 1 0).ref r = r := by
  cases r with
  | own y => show Ref.own _ = _; rw [state]
  | row i => rfl
theorem points (l : List (α × Vec α n)) : (Change.clock n 1 0).points l = l := by
  refine (List.map_congr_left (g := id) fun p _ => ?_).trans (List.map_id _)
  show (_, _) = p
  rw [time, state]
theorem map_time (l : List α) : l.map (Change.clock n 1 0).time = l := (List.map_congr_left (g := id) fun _ _ => time _).trans (List.map_id _)
theorem map_ref (l : List (Ref α n k)) : l.map (Change.clock n 1 0).ref = l := (List.map_congr_left (g := id) fun _ _ => ref _).trans (List.map_id _)

theorem answer (a : Answer α n k) : (Change.clock n 1 0).answer a = a := by
  rcases a with (l | ⟨t, y⟩ | _) | _ | r | l | ⟨o, te, ye⟩
  · show Answer.step (.arrays _) = _; rw [points]
  · show Answer.step (.single _ _) = _; rw [time, ref]
  · rfl
  · rfl
  · show Answer.interpolate _ = _; rw [ref]
  · show Answer.run _ = _; rw [points]
  · show Answer.runEvents ⟨_, _, _⟩ = _
    have e1 : te.map (List.map (Change.clock n 1 0).time) = te := (List.map_congr_left (g := id) fun _ _ => map_time _).trans (List.map_id _)
    have e2 : ye.map (List.map (Change.clock n 1 0).ref) = ye := (List.map_congr_left (g := id) fun _ _ => map_ref _).trans (List.map_id _)
    dsimp only
    rw [points, e1, e2]

theorem seen (v : Seen α n k) : (Change.clock n 1 0).seen v = v := by
  obtain ⟨l, ⟨ts, ys, fs⟩, h⟩ := v
  show Seen.mk _ ⟨_, _, _⟩ _ = _
  have e1 : l.map (Except.map (Change.clock n 1 0).answer) = l := by
    refine (List.map_congr_left (g := id) fun r _ => ?_).trans (List.map_id _)
    cases r with
    | error e => rfl
    | ok a => show Except.ok _ = _; rw [answer]; rfl
  rw [e1]
  simp only [time, state, slope]
  congr 1
  exact one_mul _

theorem map_seen (o : Option (Except Err (Seen α n k))) : o.map (Except.map (Change.clock n 1 0).seen) = o := by
  rcases o with _ | (e | v)
  · rfl
  · rfl
  · show some (Except.ok _) = _; rw [seen]

theorem one_pos : 0 < (Change.clock n (1 : α) 0).lam := zero_lt_one

theorem lawful : (Change.clock n (1 : α) 0).vars.Lawful := Change.lawful _ one_pos

theorem rhs (rhs : Rhs α n) : (Change.clock n 1 0).Transforms rhs rhs := by
  intro t y
  rw [time, state]
  cases rhs t y with
  | error e => rfl
  | ok f => show Except.ok _ = Except.ok _; rw [slope]

theorem argsort (argsort : List α → List Nat) (l l' : List α) (h : List.Forall₂ (Change.clock n (1 : α) 0).vars.tm l l') :
    argsort l = argsort l' := by
  rw [Change.forall₂_map (f := (Change.clock n 1 0).time) (fun _ _ h => h) h, map_time]

theorem boundRel (b : Bound α) : BoundRel (Change.clock n (1 : α) 0).vars.tm b b := by
  cases b with
  | inf => trivial
  | fin t => exact (time t).symm

theorem calls (cs : List (Call α n)) : List.Forall₂ (Change.clock n (1 : α) 0).SameCall cs cs := by
  have hu : ∀ u : Option (Bound α), u.map (Change.clock n 1 0).bound = u := by
    intro u
    cases u with
    | none => rfl
    | some b => show some _ = _; rw [bound]
  refine List.forall₂_same.2 fun c _ => ?_
  rcases c with ⟨q, u⟩ | ⟨q, u⟩ | t | l | ⟨l, _ | es⟩
  · have := Change.SameCall.step (C := Change.clock n 1 0) q u; rwa [hu] at this
  · have := Change.SameCall.skip (C := Change.clock n 1 0) q u; rwa [hu] at this
  · have := Change.SameCall.interpolate (C := Change.clock n 1 0) t; rwa [time] at this
  · have := Change.SameCall.run (C := Change.clock n 1 0) l; rwa [map_time] at this
  · have := Change.SameCall.runEvents_none (C := Change.clock n 1 0) l; rwa [map_time] at this
  · have := Change.SameCall.runEvents (C := Change.clock n 1 0) l es es
      (List.forall₂_same.2 fun e _ => ⟨fun t y => by rw [time, state], rfl, rfl⟩)
    rwa [map_time] at this

theorem control (lib : Lib α) (o : VarOptions α) : SameControl (Change.clock n (1 : α) 0).vars lib o o := by
  refine ⟨rfl, rfl, rfl, ?_⟩
  intro y y' z z' d d' h1 h2 h3
  rw [show y' = _ from h1, show z' = _ from h2, show d' = _ from h3, state, state, Change.clock_lin]

theorem first {sel : Rhs α n → α → Vec α n → Vec α n → Except Err α} {rhs : Rhs α n} {t : α} {y : Vec α n}
    {first : Option α} (h1 : ∀ h, first = some h → 0 < h) (h2 : first = none → ∀ f a, sel rhs t y f = .ok a → 0 < a) :
    Corr.OptRel (fun a b => (Change.clock n (1 : α) 0).vars.hr a b ∧ 0 < a) first first ∧
      (first = none → ∀ f f', (Change.clock n (1 : α) 0).vars.slp f f' →
        ExRel (fun a b => (Change.clock n (1 : α) 0).vars.hr a b ∧ 0 < a) (sel rhs t y f) (sel rhs t y f')) := by
  constructor
  · cases first with
    | none => trivial
    | some h => exact ⟨(one_mul h).symm, h1 h rfl⟩
  · intro h f f' hf
    rw [show f' = _ from hf, slope]
    cases e : sel rhs t y f with
    | error q => exact rfl
    | ok a => exact ⟨(one_mul a).symm, h2 h f a e⟩

end Unchanged
open Unchanged

/-- C75: fixed-step explicit Runge-Kutta methods. -/
theorem C75_erk {s : Nat} (T : Tableau α s) (rhs : Rhs α n) (b : Bound α) (bo : BisectOpts α) (argsort : List α → List Nat)
    (hA : ∀ l, IsArgsort l (argsort l)) (cs : List (Call α n)) (g g' : Buffer α n 0) (K K' : ErkAux α n s) (t0 : α) (y0 : Vec α n)
    (h : Option α) :
    observe ⟨erk T, rhs, b⟩ bo argsort cs (some (erkInit g K rhs t0 y0 h)) =
      observe ⟨erk T, rhs, b⟩ bo argsort cs (some (erkInit g' K' rhs t0 y0 h)) := by
  have := Change.seen_of_same _ (same_erk lawful bo (Unchanged.argsort argsort) hA (Change.rhsRel _ (Unchanged.rhs rhs)) (boundRel b)
    (time t0).symm (state y0).symm T (Change.calls _ (Unchanged.calls cs)) g g' K K' (h := h) (h' := h) (one_mul _).symm)
  rw [map_seen] at this
  exact this.symm

/-- C75: `RungeKutta23` and `RungeKutta45`. -/
theorem C75_fsal {s d : Nat} (lib : Lib α) (o : VarOptions α) (ho : SaneOptions o) (cf : FsalCoef α s d) (rhs : Rhs α n) (b : Bound α)
    (bo : BisectOpts α) (argsort : List α → List Nat) (hA : ∀ l, IsArgsort l (argsort l)) (cs : List (Call α n))
    (sel : Rhs α n → α → Vec α n → Vec α n → Except Err α) (g g' : Buffer α n 0) (K K' : Fin (s + 2) → Vec α n) (I I' : RkItp α n d)
    (t0 : α) (y0 : Vec α n) (h first : Option α) (hfirst : ∀ h, first = some h → 0 < h)
    (hsel : first = none → ∀ f a, sel rhs t0 y0 f = .ok a → 0 < a) :
    observe ⟨fsal lib o cf, rhs, b⟩ bo argsort cs (some (fsalInit cf.P o sel g K I rhs t0 y0 h first)) =
      observe ⟨fsal lib o cf, rhs, b⟩ bo argsort cs (some (fsalInit cf.P o sel g' K' I' rhs t0 y0 h first)) := by
  have := Change.seen_of_same _ (same_fsal lawful bo (Unchanged.argsort argsort) hA (Change.rhsRel _ (Unchanged.rhs rhs)) (boundRel b)
    (time t0).symm (state y0).symm ho ho (control lib o) rfl Iff.rfl (h := h) (h' := h) (one_mul _).symm
    (Unchanged.first hfirst hsel) cf (Change.calls _ (Unchanged.calls cs)) g g' K K' I I')
  rw [map_seen] at this
  exact this.symm

/-- C75: `DOP853`. -/
theorem C75_dop853 (lib : Lib α) (o : VarOptions α) (ho : SaneOptions o) (cf : DopCoef α) (rhs : Rhs α n) (b : Bound α)
    (bo : BisectOpts α) (argsort : List α → List Nat) (hA : ∀ l, IsArgsort l (argsort l)) (cs : List (Call α n))
    (sel : Rhs α n → α → Vec α n → Vec α n → Except Err α) (g g' : Buffer α n 0) (K K' : Fin 13 → Vec α n) (I I' : DopItp α n)
    (t0 : α) (y0 : Vec α n) (h first : Option α) (hfirst : ∀ h, first = some h → 0 < h)
    (hsel : first = none → ∀ f a, sel rhs t0 y0 f = .ok a → 0 < a) :
    observe ⟨dop853 lib o cf, rhs, b⟩ bo argsort cs (some (dopInit cf.toDopDense o sel g K I rhs t0 y0 h first)) =
      observe ⟨dop853 lib o cf, rhs, b⟩ bo argsort cs (some (dopInit cf.toDopDense o sel g' K' I' rhs t0 y0 h first)) := by
  have := Change.seen_of_same _ (same_dop lawful bo (Unchanged.argsort argsort) hA (Change.rhsRel _ (Unchanged.rhs rhs)) (boundRel b)
    (time t0).symm (state y0).symm ho ho (control lib o) rfl Iff.rfl (h := h) (h' := h) (one_mul _).symm
    (Unchanged.first hfirst hsel) cf (Change.calls _ (Unchanged.calls cs)) g g' K K' I I')
  rw [map_seen] at this
  exact this.symm

/-- The starters of the multistep methods that differ in their uninitialised memory only: none, a fixed-step Runge-Kutta method,
or a variable-step one (the default is `RungeKutta45`). -/
inductive SameStarter (lib : Lib α) (rhs : Rhs α n) (t0 : α) (y0 : Vec α n) : Starter α n → Starter α n → Prop
  | none : SameStarter lib rhs t0 y0 .none .none
  | erk {s : Nat} (T : Tableau α s) (g g' : Buffer α n 0) (K K' : ErkAux α n s) :
      SameStarter lib rhs t0 y0 (.fixed (erk T) fun rhs t y h => erkInit g K rhs t y h)
        (.fixed (Nbkode.erk T) fun rhs t y h => erkInit g' K' rhs t y h)
  | fsal {s d : Nat} (o : VarOptions α) (cf : FsalCoef α s d) (sel : Rhs α n → α → Vec α n → Vec α n → Except Err α) (g g' : Buffer α n 0)
      (K K' : Fin (s + 2) → Vec α n) (I I' : RkItp α n d) :
      SaneOptions o → (∀ f a, sel rhs t0 y0 f = .ok a → 0 < a) →
      SameStarter lib rhs t0 y0 (.variable (fsal lib o cf) fun rhs t y => fsalInit cf.P o sel g K I rhs t y none none)
        (.variable (Nbkode.fsal lib o cf) fun rhs t y => fsalInit cf.P o sel g' K' I' rhs t y none none)

theorem SameStarter.rel {lib : Lib α} {rhs : Rhs α n} {t0 : α} {y0 : Vec α n} {str str' : Starter α n}
    (h : SameStarter lib rhs t0 y0 str str') (p : Nat) (w : α) :
    StarterRel (Change.clock n (1 : α) 0).vars rhs rhs p t0 t0 y0 y0 w w str str' := by
  cases h with
  | none => exact .none
  | erk T g g' K K' =>
    exact starterRel_erk lawful (Change.rhsRel _ (Unchanged.rhs rhs)) (time t0).symm (state y0).symm T g g' K K' (one_mul _).symm
  | fsal o cf sel g g' K K' I I' ho hsel =>
    exact starterRel_fsal lawful (Change.rhsRel _ (Unchanged.rhs rhs)) (time t0).symm (state y0).symm ho ho (control lib o) rfl Iff.rfl
      (h := Option.none) (h' := Option.none) (first := Option.none) (first' := Option.none) (one_mul _).symm (Unchanged.first (fun _ h => by cases h) fun _ => hsel) cf g g' K K' I I'
      (List.forall₂_same.2 fun t _ => (time t).symm)

/-- C75: explicit multistep methods. -/
theorem C75_explicit_multistep {p : Nat} (lib : Lib α) (cf : MultistepCoef α p) (hcf : ∑ j, cf.A j = -1) (rhs : Rhs α n) (b : Bound α) (bo : BisectOpts α)
    (argsort : List α → List Nat) (hA : ∀ l, IsArgsort l (argsort l)) (cs : List (Call α n)) (g g' : Buffer α n (histExtra p)) (t0 : α)
    (y0 : Vec α n) (h : Option α) (str str' : Starter α n) (hs : SameStarter lib rhs t0 y0 str str') :
    observe ⟨explicitMultistep cf, rhs, b⟩ bo argsort cs (multistepInit g bo argsort str rhs t0 y0 h) =
      observe ⟨explicitMultistep cf, rhs, b⟩ bo argsort cs (multistepInit g' bo argsort str' rhs t0 y0 h) := by
  have := Change.seen_of_same _ (same_explicit lawful bo (Unchanged.argsort argsort) hA (Change.rhsRel _ (Unchanged.rhs rhs)) (boundRel b)
    (time t0).symm (state y0).symm cf hcf (Change.calls _ (Unchanged.calls cs)) g g' (h := h) (h' := h) (one_mul _).symm (hs.rel p _))
  rw [map_seen] at this
  exact this.symm

/-- C75: implicit multistep methods. -/
theorem C75_implicit_multistep {p : Nat} (lib : Lib α) (zo : ZeroOpts α) (cf : MultistepCoef α p) (rhs : Rhs α n) (b : Bound α)
    (bo : BisectOpts α) (argsort : List α → List Nat) (hA : ∀ l, IsArgsort l (argsort l)) (cs : List (Call α n))
    (g g' : Buffer α n (histExtra p)) (t0 : α) (y0 : Vec α n) (h : Option α) (str str' : Starter α n)
    (hs : SameStarter lib rhs t0 y0 str str') :
    observe ⟨implicitMultistep lib zo cf, rhs, b⟩ bo argsort cs (multistepInit g bo argsort str rhs t0 y0 h) =
      observe ⟨implicitMultistep lib zo cf, rhs, b⟩ bo argsort cs (multistepInit g' bo argsort str' rhs t0 y0 h) := by
  have := Change.seen_of_same _ (same_multistep lawful bo (Unchanged.argsort argsort) hA (Change.rhsRel _ (Unchanged.rhs rhs)) (boundRel b)
    (time t0).symm (state y0).symm (Me := implicitMultistep lib zo cf) (Me' := implicitMultistep lib zo cf)
    (Change.follows_implicit lib zo cf zero_lt_one (Unchanged.rhs rhs)) (Change.follows_implicit_flip lib zo cf zero_lt_one (Unchanged.rhs rhs))
    (fun _ _ => rfl) (fun _ _ => rfl) (Change.calls _ (Unchanged.calls cs)) g g' (h := h) (h' := h) (one_mul _).symm (hs.rel p _))
  rw [map_seen] at this
  exact this.symm

end field

/-! ### Cases -/

namespace Demo

/-- C75: memory full of zeros and memory full of ones. -/
example {lib : Lib ℚ} (zo : ZeroOpts ℚ) (bo : BisectOpts ℚ) (argsort : List ℚ → List Nat) (hA : ∀ l, IsArgsort l (argsort l))
    (o : VarOptions ℚ) (ho : SaneOptions o) :=
  have hs : SameStarter lib logistic 0 (fun _ => 1/4) _ _ :=
    .fsal o RungeKutta45 (fun _ _ _ _ => .ok (1/100)) ⟨0, 0, 0⟩ ⟨1, 1, 1⟩ 0 1 ⟨0, 0⟩ ⟨1, 1⟩ ho (fun _ a h => by cases h; norm_num)
  And.intro (C75_erk Heun3 logistic (.fin 10) bo argsort hA calls ⟨0, 0, 0⟩ ⟨1, 1, 1⟩ 0 1 0 (fun _ => 1/4) none) <|
  And.intro (C75_fsal lib o ho RungeKutta23 logistic (.fin 10) bo argsort hA calls (fun _ _ _ _ => .ok (1/100)) ⟨0, 0, 0⟩ ⟨1, 1, 1⟩ 0 1 ⟨0, 0⟩ ⟨1, 1⟩
    0 (fun _ => 1/4) none none (fun _ h => by cases h) (fun _ _ a h => by cases h; norm_num)) <|
  And.intro (C75_dop853 lib o ho DOP853 logistic (.fin 10) bo argsort hA calls (fun _ _ _ _ => .ok (1/100)) ⟨0, 0, 0⟩ ⟨1, 1, 1⟩ 0 1 ⟨0, 0, 0⟩
    ⟨1, 1, 1⟩ 0 (fun _ => 1/4) none (some (1/10)) (fun _ h => by cases h; norm_num) (fun h => by cases h)) <|
  And.intro (C75_explicit_multistep lib AdamsBashforth4 (by norm_num [AdamsBashforth4, Fin.sum_univ_four, adamsA]; decide +kernel) logistic .inf bo
    argsort hA calls ⟨0, 0, 0⟩ ⟨1, 1, 1⟩ 0 (fun _ => 1/4) none _ _ hs) <|
  C75_implicit_multistep lib zo BDF3 logistic .inf bo argsort hA calls ⟨0, 0, 0⟩ ⟨1, 1, 1⟩ 0 (fun _ => 1/4) (some (1/10)) _ _ hs

end Demo
end Nbkode
