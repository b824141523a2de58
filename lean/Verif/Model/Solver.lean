import Verif.Model.Events

/-!
# The solver API (`nbkode/core.py`)
-/

set_option autoImplicit false

namespace Nbkode

variable {α : Type}
variable [Add α] [Sub α] [Mul α] [Div α] [Neg α] [Zero α] [One α] [NatCast α] [BEq α]
variable [LT α] [DecidableLT α] [LE α] [DecidableLE α]
variable {n k : Nat} {X : Type}

/-- The immutable part of a solver instance: its class (method), `rhs` and `t_bound`
(`nbkode/core.py:106-141`). -/
structure Solver (α : Type) (n k : Nat) (X : Type) where
  method : Method α n k X
  rhs : Rhs α n
  tBound : Bound α

namespace Solver

/-- The solver's `_interpolate` with its arguments. -/
def interpAt (S : Solver α n k X) (t : α) : Py (St α n k X) (Ref α n k) := S.method.interp S.rhs t

/-- `nbkode/core.py:176-182` `_step`: refuse to go beyond `tEnd`, otherwise do one step. -/
def pstep (S : Solver α n k X) (tEnd : Bound α) : Py (St α n k X) Bool := do
  let s ← get
  if tEnd.exceededBy (s.cache.t + s.h) then
    return false
  else
    S.method.body S.rhs
    return true

/-- `nbkode/core.py:208-212` `_check_time`. -/
def checkTime (S : Solver α n k X) (t : Bound α) : Py (St α n k X) Unit :=
  if t.gt S.tBound then throw .valueError else pure ()

/-- `nbkode/core.py:483-508` `_steps` (times and states are collected as pairs; copies). -/
def stepsLoop (S : Solver α n k X) (tEnd : Bound α) : Py (St α n k X) (List (α × Vec α n)) := do
  if ← S.pstep tEnd then
    let s ← get
    let rest ← stepsLoop S tEnd
    return (s.t, s.y) :: rest
  else
    return []
partial_fixpoint

/-- `nbkode/core.py:510-537` `_nsteps` for a non-negative `n_steps`: the filled part of the preallocated
arrays as a list of pairs, and the stop condition. -/
def nstepsLoop (S : Solver α n k X) (tEnd : Bound α) :
    Nat → Py (St α n k X) (List (α × Vec α n) × Bool)
  | 0 => return ([], false)
  | m + 1 => do
    if !(← S.pstep tEnd) then
      return ([], true)
    let s ← get
    let (rest, scon) ← nstepsLoop S tEnd m
    return ((s.t, s.y) :: rest, scon)

/-- `nbkode/core.py:510-537` `_nsteps`: `np.empty((n_steps,))` raises for a negative size. -/
def nsteps (S : Solver α n k X) (m : Int) (tEnd : Bound α) :
    Py (St α n k X) (List (α × Vec α n) × Bool) :=
  if m < 0 then throw .valueError else S.nstepsLoop tEnd m.toNat

/-- `nbkode/core.py:539-554` `_skip`. -/
def skipLoop (S : Solver α n k X) (tEnd : Bound α) : Py (St α n k X) Unit := do
  if ← S.pstep tEnd then
    skipLoop S tEnd
  else
    return ()
partial_fixpoint

/-- `nbkode/core.py:556-575` `_nskip` for a non-negative count. -/
def nskipLoop (S : Solver α n k X) (tEnd : Bound α) : Nat → Py (St α n k X) Bool
  | 0 => return false
  | m + 1 => do
    if !(← S.pstep tEnd) then
      return true
    nskipLoop S tEnd m

/-- `nbkode/core.py:556-575` `_nskip`: `range` of a negative number is empty. -/
def nskip (S : Solver α n k X) (m : Int) (tEnd : Bound α) : Py (St α n k X) Bool :=
  S.nskipLoop tEnd m.toNat

/-- What `step` returns: arrays of times and states; for `step()` the new time and a *view* of the current
state; or `None` (`nbkode/core.py:243-267`). -/
inductive StepOut (α : Type) (n k : Nat) where
  | arrays (out : List (α × Vec α n))
  | single (t : α) (y : Ref α n k)
  | none

/-- `upto_t is not None and upto_t < self.t` (`nbkode/core.py:243`, `294`). -/
def inPast (upto : Option (Bound α)) (s : St α n k X) : Bool :=
  match upto with
  | some u => u.lt s.t
  | none => false

/-- `nbkode/core.py:214-267` `step`. -/
def step (S : Solver α n k X) (m : Option Int) (upto : Option (Bound α)) :
    Py (St α n k X) (StepOut α n k) := do
  let s ← get
  if inPast upto s then
    return .arrays []
  match m, upto with
  | none, none =>
    if ← S.pstep S.tBound then
      let s ← get
      return .single s.t (.row (Buffer.iLast k))
    else
      return .none
  | some m, none =>
    let (out, scon) ← S.nsteps m S.tBound
    if scon then
      throw .runtimeError
    return .arrays out
  | none, some u =>
    S.checkTime u
    let out ← S.stepsLoop u
    return .arrays out
  | some m, some u =>
    S.checkTime u
    let (out, _) ← S.nsteps m u
    return .arrays out

/-- `nbkode/core.py:269-313` `skip`. -/
def skip (S : Solver α n k X) (m : Option Int) (upto : Option (Bound α)) :
    Py (St α n k X) Unit := do
  let s ← get
  if inPast upto s then
    return ()
  match m, upto with
  | none, none =>
    let _ ← S.nskip 1 S.tBound
    return ()
  | some m, none =>
    if ← S.nskip m S.tBound then
      throw .runtimeError
    return ()
  | none, some u =>
    S.checkTime u
    S.skipLoop u
  | some m, some u =>
    S.checkTime u
    let _ ← S.nskip m u
    return ()

/-- `nbkode/core.py:449-472` `interpolate`. -/
def interpolate (S : Solver α n k X) (t : α) : Py (St α n k X) (Ref α n k) := do
  let s ← get
  if !(decide (s.cache.ts (Buffer.iOld k) ≤ t) && decide (t ≤ s.cache.t)) then
    throw .valueError
  S.interpAt t

/-- The `while cache.t < ti` loop of `_run_eval` (`nbkode/core.py:614-616`): `false` when a step was refused. -/
def advance (S : Solver α n k X) (tEnd : Bound α) (ti : α) : Py (St α n k X) Bool := do
  let s ← get
  if s.cache.t < ti then
    if ← S.pstep tEnd then
      advance S tEnd ti
    else
      return false
  else
    return true
partial_fixpoint

/-- `nbkode/core.py:598-619` `_run_eval`: the requested times that were reached with their states. A view
returned by the interpolator is copied into `y_out`. -/
def runEval (S : Solver α n k X) (tEnd : Bound α) : List α → Py (St α n k X) (List (α × Vec α n))
  | [] => return []
  | ti :: rest => do
    if ← S.advance tEnd ti then
      let r ← S.interpAt ti
      let s ← get
      let out ← runEval S tEnd rest
      return (ti, r.deref s.cache) :: out
    else
      return []

/-- Outcome of the inner loop of `_run_eval_events`. -/
inductive AdvRes where
  | reached
  | refused
  | terminated
  deriving DecidableEq

/-- The `while cache.t < ti` loop of `_run_eval_events` (`nbkode/core.py:638-644`). -/
def advanceEvents (S : Solver α n k X) (bo : BisectOpts α) (tEnd : Bound α) (ti : α)
    (eh : EventHandler α n k) : Py (St α n k X) (EventHandler α n k × AdvRes) := do
  let s ← get
  if s.cache.t < ti then
    if ← S.pstep tEnd then
      let (eh', stop) ← eh.evaluate bo S.interpAt
      if stop then
        return (eh', .terminated)
      else
        advanceEvents S bo tEnd ti eh'
    else
      return (eh, .refused)
  else
    return (eh, .reached)
partial_fixpoint

/-- `nbkode/core.py:621-647` `_run_eval_events`. On termination the pair `last_event` replaces the entry being
computed and the rest is dropped. If `last_event` is still the initial `nan` pair (which cannot be unpacked
into a state row) a `ValueError` is raised. -/
def runEvalEvents (S : Solver α n k X) (bo : BisectOpts α) (tEnd : Bound α) :
    List α → EventHandler α n k → Py (St α n k X) (EventHandler α n k × List (α × Vec α n))
  | [], eh => return (eh, [])
  | ti :: rest, eh => do
    let (eh', res) ← S.advanceEvents bo tEnd ti eh
    match res with
    | .reached =>
      let r ← S.interpAt ti
      let s ← get
      let (eh'', out) ← runEvalEvents S bo tEnd rest eh'
      return (eh'', (ti, r.deref s.cache) :: out)
    | .refused => return (eh', [])
    | .terminated =>
      let s ← get
      match eh'.lastEvent with
      | some (te, re) => return (eh', [(te, re.deref s.cache)])
      | none => throw .valueError

/-- `np.all(t[:-1] <= t[1:])` (`nbkode/core.py:387`; true for one element). -/
def isSorted : List α → Bool
  | [] => true
  | [_] => true
  | a :: b :: l => decide (a ≤ b) && isSorted (b :: l)

/-- `np.max` of a non-empty list. -/
def listMax (a : α) (l : List α) : α := l.foldl pyMax a

/-- `a[idx]` for an integer index array: `IndexError` when an index is out of range. -/
def fancyIndex {A : Type} (a : List A) (idx : List Nat) : Except Err (List A) :=
  idx.mapM fun i => match a[i]? with
    | some x => .ok x
    | none => .error .indexError

/-- `np.argsort(ndx)` of a permutation `ndx` of `0..m-1`: entry `i` is the position of `i`
(`nbkode/core.py:446`; the argsort of distinct integers is unique). -/
def invPerm (ndx : List Nat) : List Nat := (List.range ndx.length).map fun i => ndx.idxOf i

/-- `[self.interpolate(_t) for _t in t_old]`, copied by `np.asarray` once all are computed
(`nbkode/core.py:405`). -/
def interpolateAll (S : Solver α n k X) : List α → Py (St α n k X) (List (Ref α n k))
  | [] => return []
  | t :: rest => do
    let r ← S.interpolate t
    let rs ← interpolateAll S rest
    return r :: rs

/-- What `run_events` returns: times and states as pairs, and for each event the recorded times and
(possibly aliased) states. -/
structure RunOut (α : Type) (n k : Nat) where
  out : List (α × Vec α n)
  tEvents : List (List α)
  yEvents : List (List (Ref α n k))

/-- `nbkode/core.py:334-447` `run_events`. `argsort` is the permutation computed by `np.argsort` (only used for
unsorted input). `events = none` is `None`; an empty list is falsy too. -/
def runEvents (S : Solver α n k X) (bo : BisectOpts α) (argsort : List α → List Nat)
    (ts : List α) (events : Option (List (EventSpec α n))) :
    Py (St α n k X) (RunOut α n k) := do
  let sorted := isSorted ts
  let ndx := argsort ts
  let t ← if sorted then pure ts else Py.ofExcept (fancyIndex ts ndx)
  match t with
  | [] => throw .indexError
  | t0 :: tl => do
    let s ← get
    if t0 < s.cache.ts (Buffer.iOld k) then
      throw .valueError
    S.checkTime (.fin (listMax t0 tl))
    let tOld := t.filter fun ti => decide (ti ≤ s.t)
    let tRun := t.filter fun ti => !decide (ti ≤ s.t)
    let yOldRefs ← S.interpolateAll tOld
    let s1 ← get
    let old := tOld.zip (yOldRefs.map fun r => r.deref s1.cache)
    let es := events.getD []
    let (out, tEv, yEv) ← if es.isEmpty then do
        let out ← S.runEval S.tBound tRun
        pure (out, [], [])
      else do
        let s2 ← get
        let (eh, out) ← S.runEvalEvents bo S.tBound tRun (buildHandler es s2.t s2.y)
        pure (out, eh.events.map (fun e => e.t), eh.events.map (fun e => e.y))
    -- `warnings.warning` does not exist (`nbkode/core.py:440-441`)
    if !tOld.isEmpty && !es.isEmpty then
      throw .attributeError
    let out := old ++ out
    if sorted then
      return ⟨out, tEv, yEv⟩
    let out ← Py.ofExcept (fancyIndex out (invPerm ndx))
    return ⟨out, tEv, yEv⟩

/-- `nbkode/core.py:315-332` `run`. -/
def run (S : Solver α n k X) (bo : BisectOpts α) (argsort : List α → List Nat) (ts : List α) :
    Py (St α n k X) (List (α × Vec α n)) := do
  let r ← S.runEvents bo argsort ts none
  return r.out

end Solver
end Nbkode
