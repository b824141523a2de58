import Verif.Model.Solver

/-!
# Which arrays the API returns

The rest of the model treats the arrays returned by `step`, `run` and `run_events` as values. Here they
are objects in memory: the API is modelled again, with the allocations, writes, slices and copies of
`nbkode/core.py` spelled out, so that one can ask whether an array changes after it was returned. The
integration itself (`_step`, `_interpolate`, the event handler) is shared with the other model and acts
on the solver's own state. Reclaiming memory is not modelled: an address is never used twice.
-/

set_option autoImplicit false

namespace Nbkode

/-- The solver instance, and the contents of all one-dimensional (`floats`) and two-dimensional (`rows`)
arrays that were ever allocated outside it, by address. -/
structure Mem (α : Type) (n k : Nat) (X : Type) where
  st : St α n k X
  floats : List (List α)
  rows : List (List (Vec α n))

/-- A NumPy array that views the first `len` entries of the memory at `addr`, as `a` and `a[:len]` do
(`nbkode/core.py:532`, `537`). -/
structure View where
  addr : Nat
  len : Nat
  deriving DecidableEq

namespace Mem
variable {α : Type} {n k : Nat} {X : Type}

/-- Run code that only touches the solver. -/
def onSolver {A : Type} (x : Py (St α n k X) A) : Py (Mem α n k X) A :=
  Py.zoom (fun m => m.st) (fun s m => { m with st := s }) x

/-- A new one-dimensional array. -/
def newFloats (l : List α) : Py (Mem α n k X) Nat := do
  let m ← get
  set { m with floats := m.floats ++ [l] }
  return m.floats.length

/-- A new two-dimensional array. -/
def newRows (l : List (Vec α n)) : Py (Mem α n k X) Nat := do
  let m ← get
  set { m with rows := m.rows ++ [l] }
  return m.rows.length

/-- `a[i] = x` for a one-dimensional array. -/
def setFloat (a i : Nat) (x : α) : Py (Mem α n k X) Unit :=
  modify fun m => { m with floats := m.floats.modify a fun l => l.set i x }

/-- `a[i] = x` for a two-dimensional array; the row is copied. -/
def setRow (a i : Nat) (x : Vec α n) : Py (Mem α n k X) Unit :=
  modify fun m => { m with rows := m.rows.modify a fun l => l.set i x }

/-- The entries an array shows. -/
def readFloats (m : Mem α n k X) (v : View) : List α := (m.floats.getD v.addr []).take v.len

/-- The rows an array shows. -/
def readRows (m : Mem α n k X) (v : View) : List (Vec α n) := (m.rows.getD v.addr []).take v.len

end Mem

namespace Solver
open Mem
variable {α : Type}
variable [Add α] [Sub α] [Mul α] [Div α] [Neg α] [Zero α] [One α] [NatCast α] [BEq α]
variable [LT α] [DecidableLT α] [LE α] [DecidableLE α]
variable {n k : Nat} {X : Type}

/-- `nbkode/core.py:483-508` `_steps`. The Python lists hold `np.copy(cache.y)`; `out` and
`np.array(t_out)` are new arrays. -/
def mSteps (S : Solver α n k X) (tEnd : Bound α) : Py (Mem α n k X) (View × View) := do
  let l ← onSolver (S.stepsLoop tEnd)
  let y ← newRows (l.map Prod.snd)
  let t ← newFloats (l.map Prod.fst)
  return (⟨t, l.length⟩, ⟨y, l.length⟩)

/-- The loop of `_nsteps` (`nbkode/core.py:530-537`), from the index `i` on. -/
def mNstepsLoop (S : Solver α n k X) (tEnd : Bound α) (t y : Nat) :
    Nat → Nat → Py (Mem α n k X) (Nat × Bool)
  | i, 0 => return (i, false)
  | i, r + 1 => do
    if !(← onSolver (S.pstep tEnd)) then
      return (i, true)
    let m ← get
    setFloat t i m.st.t
    setRow y i m.st.y
    mNstepsLoop S tEnd t y (i + 1) r

/-- `nbkode/core.py:510-537` `_nsteps`. `np.empty` leaves arbitrary contents `jt`, `jy`. -/
def mNsteps (S : Solver α n k X) (jt : α) (jy : Vec α n) (m : Int) (tEnd : Bound α) :
    Py (Mem α n k X) (View × View × Bool) := do
  if m < 0 then throw .valueError
  let t ← newFloats (List.replicate m.toNat jt)
  let y ← newRows (List.replicate m.toNat jy)
  let (i, scon) ← S.mNstepsLoop tEnd t y 0 m.toNat
  return (⟨t, i⟩, ⟨y, i⟩, scon)

/-- What `step` returns: two arrays; for `step()` a new array for the time and a view of the current
state; or `None` (`nbkode/core.py:243-267`). -/
inductive MOut (α : Type) (n k : Nat) where
  | arrays (t y : View)
  | single (t : View) (y : Ref α n k)
  | none

/-- `nbkode/core.py:214-267` `step`. -/
def mStep (S : Solver α n k X) (jt : α) (jy : Vec α n) (m : Option Int) (upto : Option (Bound α)) :
    Py (Mem α n k X) (MOut α n k) := do
  let m0 ← get
  if inPast upto m0.st then
    let t ← newFloats []
    let y ← newRows []
    return .arrays ⟨t, 0⟩ ⟨y, 0⟩
  match m, upto with
  | none, none =>
    if ← onSolver (S.pstep S.tBound) then
      let m1 ← get
      let t ← newFloats [m1.st.t]
      return .single ⟨t, 1⟩ (.row (Buffer.iLast k))
    else
      return .none
  | some m, none =>
    let (t, y, scon) ← S.mNsteps jt jy m S.tBound
    if scon then
      throw .runtimeError
    return .arrays t y
  | none, some u =>
    onSolver (S.checkTime u)
    let (t, y) ← S.mSteps u
    return .arrays t y
  | some m, some u =>
    onSolver (S.checkTime u)
    let (t, y, _) ← S.mNsteps jt jy m u
    return .arrays t y

/-- The loop of `_run_eval` (`nbkode/core.py:613-619`), from the index `i` on. The times are read from
`t_eval`, which the loop does not change. -/
def mRunEvalLoop (S : Solver α n k X) (tEnd : Bound α) (y : Nat) :
    Nat → List α → Py (Mem α n k X) Nat
  | i, [] => return i
  | i, ti :: rest => do
    if ← onSolver (S.advance tEnd ti) then
      let r ← onSolver (S.interpAt ti)
      let m ← get
      setRow y i (r.deref m.st.cache)
      mRunEvalLoop S tEnd y (i + 1) rest
    else
      return i

/-- `nbkode/core.py:598-619` `_run_eval`: `t_eval[:ndx]` and `y_out[:ndx]`. -/
def mRunEval (S : Solver α n k X) (jy : Vec α n) (tEnd : Bound α) (t : View) :
    Py (Mem α n k X) (View × View) := do
  let m ← get
  let ts := m.readFloats t
  let y ← newRows (List.replicate ts.length jy)
  let i ← S.mRunEvalLoop tEnd y 0 ts
  return (⟨t.addr, i⟩, ⟨y, i⟩)

/-- The loop of `_run_eval_events` (`nbkode/core.py:637-647`). On termination `t_eval` itself is
written. -/
def mRunEvalEventsLoop (S : Solver α n k X) (bo : BisectOpts α) (tEnd : Bound α) (t y : Nat) :
    Nat → List α → EventHandler α n k → Py (Mem α n k X) (EventHandler α n k × Nat)
  | i, [], eh => return (eh, i)
  | i, ti :: rest, eh => do
    let (eh', res) ← onSolver (S.advanceEvents bo tEnd ti eh)
    match res with
    | .reached =>
      let r ← onSolver (S.interpAt ti)
      let m ← get
      setRow y i (r.deref m.st.cache)
      mRunEvalEventsLoop S bo tEnd t y (i + 1) rest eh'
    | .refused => return (eh', i)
    | .terminated =>
      let m ← get
      match eh'.lastEvent with
      | some (te, re) =>
        setFloat t i te
        setRow y i (re.deref m.st.cache)
        return (eh', i + 1)
      | none => throw .valueError

/-- `nbkode/core.py:621-647` `_run_eval_events`. -/
def mRunEvalEvents (S : Solver α n k X) (bo : BisectOpts α) (jy : Vec α n) (tEnd : Bound α) (t : View)
    (eh : EventHandler α n k) : Py (Mem α n k X) (EventHandler α n k × View × View) := do
  let m ← get
  let ts := m.readFloats t
  let y ← newRows (List.replicate ts.length jy)
  let (eh', i) ← S.mRunEvalEventsLoop bo tEnd t.addr y 0 ts eh
  return (eh', ⟨t.addr, i⟩, ⟨y, i⟩)

/-- What `run_events` returns. -/
structure MRunOut (α : Type) (n k : Nat) where
  t : View
  y : View
  tEvents : List (List α)
  yEvents : List (List (Ref α n k))

/-- A new array with the given entries, as `astype`, indexing with an index or mask array, `np.asarray`
of a list and `np.concatenate` make. -/
def copyFloats (l : List α) : Py (Mem α n k X) View := do
  let a ← newFloats l
  return ⟨a, l.length⟩

/-- The same for two-dimensional arrays. -/
def copyRows (l : List (Vec α n)) : Py (Mem α n k X) View := do
  let a ← newRows l
  return ⟨a, l.length⟩

/-- `nbkode/core.py:412-437`: run with or without events. -/
def mRunPart (S : Solver α n k X) (bo : BisectOpts α) (jy : Vec α n) (tRun : View)
    (es : List (EventSpec α n)) :
    Py (Mem α n k X) (View × View × List (List α) × List (List (Ref α n k))) := do
  if es.isEmpty then do
    let (t, y) ← S.mRunEval jy S.tBound tRun
    pure (t, y, [], [])
  else do
    let m ← get
    let (eh, t, y) ← S.mRunEvalEvents bo jy S.tBound tRun (buildHandler es m.st.t m.st.y)
    pure (t, y, eh.events.map (fun e => e.t), eh.events.map (fun e => e.y))

/-- `nbkode/core.py:334-447` `run_events`, called with the caller's array `arg`. `astype` copies it
(line 385), `t[ndx]`, `t[mask]`, `np.asarray`, `np.concatenate` and `ts[ondx]` make new arrays; otherwise
the arrays of `_run_eval` are returned as they are. -/
def mRunEvents (S : Solver α n k X) (bo : BisectOpts α) (argsort : List α → List Nat) (jy : Vec α n)
    (arg : View) (events : Option (List (EventSpec α n))) :
    Py (Mem α n k X) (MRunOut α n k) := do
  let m0 ← get
  let ts := m0.readFloats arg
  let t1 ← copyFloats ts
  let sorted := isSorted ts
  let ndx := argsort ts
  let t ← (if sorted then pure ts else Py.ofExcept (fancyIndex ts ndx))
  let tArr ← (if sorted then pure t1 else copyFloats t)
  match t with
  | [] => throw .indexError
  | t0 :: tl => do
    let m ← get
    if t0 < m.st.cache.ts (Buffer.iOld k) then
      throw .valueError
    onSolver (S.checkTime (.fin (listMax t0 tl)))
    let tOld := t.filter fun ti => decide (ti ≤ m.st.t)
    let tRun := t.filter fun ti => !decide (ti ≤ m.st.t)
    let yOldRefs ← onSolver (S.interpolateAll tOld)
    let m1 ← get
    let yOld := yOldRefs.map fun r => r.deref m1.st.cache
    let runArr ← (if tOld.isEmpty then pure tArr else copyFloats tRun)
    let es := events.getD []
    let (tv, yv, tEv, yEv) ← S.mRunPart bo jy runArr es
    if !tOld.isEmpty && !es.isEmpty then
      throw .attributeError
    let m2 ← get
    let tv ← (if tOld.isEmpty then pure tv else copyFloats (tOld ++ m2.readFloats tv))
    let yv ← (if tOld.isEmpty then pure yv else copyRows (yOld ++ m2.readRows yv))
    if sorted then
      return ⟨tv, yv, tEv, yEv⟩
    let m3 ← get
    let tOut ← Py.ofExcept (fancyIndex (m3.readFloats tv) (invPerm ndx))
    let yOut ← Py.ofExcept (fancyIndex (m3.readRows yv) (invPerm ndx))
    let tv ← copyFloats tOut
    let yv ← copyRows yOut
    return ⟨tv, yv, tEv, yEv⟩

/-- `nbkode/core.py:315-332` `run`. -/
def mRun (S : Solver α n k X) (bo : BisectOpts α) (argsort : List α → List Nat) (jy : Vec α n)
    (arg : View) : Py (Mem α n k X) (View × View) := do
  let r ← S.mRunEvents bo argsort jy arg none
  return (r.t, r.y)

end Solver
end Nbkode
