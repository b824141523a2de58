import Verif.Spec.NotANumber
import Verif.Proofs.Hanging
import Verif.Props.Termination

/-!
# C111: a time that is not a number

`interpolate(nan)` raises `ValueError`, and that is all: `run([nan])` answers, `step(upto_t=nan)` and
`skip(upto_t=nan)` hang, and with a number of steps `upto_t=nan` switches `t_bound` off.
-/

set_option autoImplicit false
set_option linter.unusedSectionVars false

namespace Nbkode
open Py Spec Solver

variable {α : Type}
variable [Add α] [Sub α] [Mul α] [Div α] [Neg α] [Zero α] [One α] [NatCast α] [BEq α]
variable [LT α] [DecidableLT α] [LE α] [DecidableLE α]
variable {n k : Nat} {X : Type}

/-- **C111** (partial) `interpolate(nan)` raises `ValueError` and changes nothing, for every solver in every state.
Missing: the other calls that take a time accept NaN, see the refutations below. -/
theorem C111_interpolate_partial (S : Solver α n k X) {nan : α} (hN : Incomparable nan) (st : St α n k X) :
    (S.interpolate nan).run st = some (.error .valueError, st) := by
  unfold Solver.interpolate
  simp only [run_bind, run_get, andThen_ok]
  rw [if_pos (by simp [hN.le_not])]
  rfl

/-- A step is never refused for the sake of a NaN limit. -/
theorem pstep_nan (S S' : Solver α n k X) (hm : S'.method = S.method) (hr : S'.rhs = S.rhs) {nan : α}
    (hN : Incomparable nan) : S.pstep (.fin nan) = S'.pstep .inf := by
  unfold pstep
  simp only [Bound.exceededBy, hN.not_lt, decide_false, hm, hr]

theorem nstepsLoop_nan (S S' : Solver α n k X) (hm : S'.method = S.method) (hr : S'.rhs = S.rhs) {nan : α}
    (hN : Incomparable nan) : ∀ m, S.nstepsLoop (.fin nan) m = S'.nstepsLoop .inf m
  | 0 => rfl
  | m + 1 => by
    rw [nstepsLoop, nstepsLoop, nstepsLoop_nan S S' hm hr hN m, pstep_nan S S' hm hr hN]

theorem nskipLoop_nan (S S' : Solver α n k X) (hm : S'.method = S.method) (hr : S'.rhs = S.rhs) {nan : α}
    (hN : Incomparable nan) : ∀ m, S.nskipLoop (.fin nan) m = S'.nskipLoop .inf m
  | 0 => rfl
  | m + 1 => by
    rw [nskipLoop, nskipLoop, nskipLoop_nan S S' hm hr hN m, pstep_nan S S' hm hr hN]

theorem checkTime_nan (S : Solver α n k X) {nan : α} (hN : Incomparable nan) :
    S.checkTime (.fin nan) = pure () := by
  unfold checkTime
  cases h : S.tBound <;> simp [Bound.gt, hN.lt_not]

theorem inPast_nan {nan : α} (hN : Incomparable nan) (st : St α n k X) : inPast (some (.fin nan)) st = false := by
  simp [inPast, Bound.lt, hN.not_lt]

/-- **C111, refuted** With a number of steps, `upto_t=nan` is not refused and `t_bound` is no longer respected: the call
does what it would do with `upto_t=np.inf` on a solver without `t_bound`. -/
theorem C111_refuted_counted (S : Solver α n k X) {nan : α} (hN : Incomparable nan) (m : Int) (st : St α n k X) :
    (S.step (some m) (some (.fin nan))).run st = (Solver.step { S with tBound := .inf } (some m) (some .inf)).run st ∧
    (S.skip (some m) (some (.fin nan))).run st = (Solver.skip { S with tBound := .inf } (some m) (some .inf)).run st := by
  have hi : inPast (some (.inf : Bound α)) st = false := rfl
  have hc : checkTime { S with tBound := .inf } (.inf : Bound α) = pure () := rfl
  constructor
  · unfold Solver.step
    simp only [run_bind, run_get, andThen_ok, inPast_nan hN, hi, Bool.false_eq_true, if_false, checkTime_nan S hN, hc]
    unfold nsteps
    rw [nstepsLoop_nan S { S with tBound := .inf } rfl rfl hN]
  · unfold Solver.skip
    simp only [run_bind, run_get, andThen_ok, inPast_nan hN, hi, Bool.false_eq_true, if_false, checkTime_nan S hN, hc]
    unfold nskip
    rw [nskipLoop_nan S { S with tBound := .inf } rfl rfl hN]

/-- **C111, refuted** `step(upto_t=nan)` and `skip(upto_t=nan)` never come back, whatever `t_bound` is, if steps always
succeed. -/
theorem C111_refuted_hangs (S : Solver α n k X) {nan : α} (hN : Incomparable nan) (hT : ∀ s, ∃ s', Takes S s s')
    (st : St α n k X) :
    ¬ Halts (S.step none (some (.fin nan))) st ∧ ¬ Halts (S.skip none (some (.fin nan))) st := by
  have hp : ∀ s, ∃ s1, (S.pstep (.fin nan)).run s = some (.ok true, s1) := fun s => by
    obtain ⟨s1, h1⟩ := hT s
    exact ⟨s1, by rw [pstep_nan S S rfl rfl hN]; exact (pstep_true (S := S) (b := .inf)).mpr ⟨trivial, h1⟩⟩
  constructor
  · rintro ⟨r, s', h⟩
    unfold Solver.step at h
    simp only [run_bind, run_get, andThen_ok, inPast_nan hN, Bool.false_eq_true, if_false, checkTime_nan S hN, run_pure] at h
    cases hl : (S.stepsLoop (.fin nan)).run st with
    | none => rw [hl] at h; cases h
    | some p =>
      refine stepsLoop.fixpoint_induct S (.fin nan) (fun x => ∀ s r s', x.run s = some (r, s') → False)
        (admissible_post _) ?_ st _ _ hl
      intro loop ih s r s' h
      obtain ⟨s1, h1⟩ := hp s
      rw [run_bind, h1] at h
      simp only [andThen_ok, if_true, run_bind, run_get] at h
      cases hl : loop.run s1 with
      | none => rw [hl] at h; cases h
      | some p => exact ih _ _ _ hl
  · rintro ⟨r, s', h⟩
    unfold Solver.skip at h
    simp only [run_bind, run_get, andThen_ok, inPast_nan hN, Bool.false_eq_true, if_false, checkTime_nan S hN, run_pure] at h
    refine skipLoop.fixpoint_induct S (.fin nan) (fun x => ∀ s r s', x.run s = some (r, s') → False)
      (admissible_post _) ?_ st _ _ h
    intro loop ih s r s' h
    obtain ⟨s1, h1⟩ := hp s
    rw [run_bind, h1] at h
    exact ih _ _ _ h

/-- **C111, refuted** `run([nan])` raises no `ValueError` and makes no step: it evaluates the interpolating polynomial at
NaN and returns what that gives. -/
theorem C111_refuted_run (S : Solver α n k X) {nan : α} (hN : Incomparable nan) (bo : BisectOpts α)
    (argsort : List α → List Nat) (st st' : St α n k X) (r : Ref α n k)
    (hi : (S.interpAt nan).run st = some (.ok r, st')) :
    (S.run bo argsort [nan]).run st = some (.ok [(nan, r.deref st'.cache)], st') := by
  have ha : (S.advance S.tBound nan).run st = some (.ok true, st) := by
    rw [advance]
    simp only [run_bind, run_get, andThen_ok, hN.lt_not, if_false]
    rfl
  have hl : listMax nan [] = nan := rfl
  unfold Solver.run runEvents
  simp only [isSorted, if_true, run_bind, run_get, run_pure, andThen_ok, hN.not_lt, if_false, hl, checkTime_nan S hN,
    hN.not_le, decide_false, List.filter, interpolateAll, Bool.not_false, runEval, ha, hi, Option.getD, List.isEmpty,
    Bool.not_true, Bool.and_false, Bool.false_eq_true, Bool.false_and, List.zip_nil_left, List.nil_append]

namespace Demo
open Fl

/-- ForwardEuler on `y' = y` with `t_bound = 1`, over the rationals with a NaN. -/
def flSolver : Solver Fl 1 0 Unit := ⟨explicitMultistep ForwardEuler, pureRhs fun _ y => y, .fin (.num 1)⟩

/-- `t0 = 0`, `y0 = 1`, `h = 1`, before the first step. -/
def flStart : St Fl 1 0 Unit := ⟨⟨fun _ => .num 0, fun _ _ => .num 1, fun _ _ => .num 1⟩, .num 1, ()⟩

/-- The times and states of the outcome of a call. -/
def flTimes : Option (Except Err (StepOut Fl 1 0) × St Fl 1 0 Unit) → List (Option ℚ)
  | some (.ok (.arrays l), _) => l.map fun p => match p.1 with
    | .num x => some x
    | .nan => none
  | _ => []

theorem fl_incomparable : Incomparable Fl.nan := by
  constructor <;> intro x h <;> cases x <;> exact absurd h (by show ¬ (false = true); simp)

theorem fl_takes (s : St Fl 1 0 Unit) : ∃ s', Takes flSolver s s' := ⟨_, rfl⟩

end Demo

open Demo in
/-- Non-vacuity: there is such an arithmetic, with the values the calls give on ForwardEuler with `t_bound = 1`. -/
example : ((flSolver).interpolate Fl.nan).run flStart = some (.error .valueError, flStart) :=
  C111_interpolate_partial flSolver fl_incomparable flStart

open Demo in
example : ¬ Halts (flSolver.step none (some (.fin Fl.nan))) flStart ∧
    ¬ Halts (flSolver.skip none (some (.fin Fl.nan))) flStart :=
  C111_refuted_hangs flSolver fl_incomparable fl_takes flStart

open Demo in
/-- `step(n=3, upto_t=nan)` goes on to `t = 3`, past `t_bound = 1`. -/
example : flTimes ((flSolver.step (some 3) (some (.fin Fl.nan))).run flStart) = [some 1, some 2, some 3] := by
  rw [(C111_refuted_counted flSolver fl_incomparable 3 flStart).1]
  decide +kernel

open Demo in
/-- After one step, `run([nan])` returns one row: time NaN and state NaN. -/
example (bo : BisectOpts Fl) (argsort : List Fl → List Nat) : ∃ s1, Takes flSolver flStart s1 ∧
    (flSolver.run bo argsort [Fl.nan]).run s1 = some (.ok [(Fl.nan, fun _ => Fl.nan)], s1) := by
  refine ⟨_, rfl, ?_⟩
  have e : ((flStart.cache.push (.num 0 + .num 1) (multistepK ForwardEuler flStart.cache flStart.h)
      (multistepK ForwardEuler flStart.cache flStart.h)).t - .num 0 == 0) = false := by decide +kernel
  refine (C111_refuted_run flSolver fl_incomparable bo argsort _ _ (.own fun _ => Fl.nan) ?_).trans rfl
  show (hermiteInterp Fl.nan).run _ = _
  unfold hermiteInterp
  simp only [run_bind, run_get, andThen_ok]
  rw [if_neg (by show ¬ (false = true); simp)]
  unfold pyDiv
  rw [if_neg (by
    intro h
    exact Bool.false_ne_true (e.symm.trans h))]
  have h1 : ∀ x : Fl, Fl.nan - x = Fl.nan := fun x => rfl
  have h2 : ∀ x : Fl, Fl.nan / x = Fl.nan := fun x => by show (if _ then _ else _) = _; split <;> rfl
  rw [h1, h2]
  refine congrArg some (congrArg (fun r => (Except.ok r, _)) (congrArg Ref.own (funext fun i => ?_)))
  rfl

end Nbkode
