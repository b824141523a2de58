import Verif.Model.Methods

/-!
# Events (`nbkode/event_handler.py`)
-/

set_option autoImplicit false

namespace Nbkode

variable {α : Type}
variable [Add α] [Sub α] [Mul α] [Div α] [Neg α] [Zero α] [One α] [NatCast α] [BEq α]
variable [LT α] [DecidableLT α] [LE α] [DecidableLE α]
variable {n k : Nat} {X : Type}

/-- An event as given by the user: `event(t, y)` with the optional attributes `terminal` and `direction`
(`nbkode/event_handler.py:244-253`). Event functions are taken not to raise. -/
structure EventSpec (α : Type) (n : Nat) where
  func : α → Vec α n → α
  terminal : Option Bool
  direction : Option α

/-- An `Event` object (`nbkode/event_handler.py:121-129`). `t`, `y` are the recorded lists; `y` holds
whatever the interpolator returned, possibly views of the history. -/
structure Event (α : Type) (n k : Nat) where
  func : α → Vec α n → α
  isTerminal : Bool
  direction : Int
  lastT : α
  lastValue : α
  t : List α
  y : List (Ref α n k)

/-- An `EventHandler` object (`nbkode/event_handler.py:199-201`). `lastEvent = none` stands for the initial
`(nan, empty * nan)`. -/
structure EventHandler (α : Type) (n k : Nat) where
  events : List (Event α n k)
  lastEvent : Option (α × Ref α n k)

/-- `nbkode/event_handler.py:245-258` for one event, with `Event.__init__` (`:121-129`). -/
def buildEvent (e : EventSpec α n) (t : α) (y : Vec α n) : Event α n k where
  func := e.func
  isTerminal := e.terminal.getD false
  direction := match e.direction with
    | some d => pySign d
    | none => 0
  lastT := t
  lastValue := e.func t y
  t := []
  y := []

/-- `nbkode/event_handler.py:235-260` `build_handler`. -/
def buildHandler (es : List (EventSpec α n)) (t : α) (y : Vec α n) : EventHandler α n k where
  events := es.map fun e => buildEvent e t y
  lastEvent := none

/-- `nbkode/event_handler.py:137-145`: the trigger condition. -/
def triggers (direction : Int) (lastValue value : α) : Bool :=
  let up := decide (lastValue ≤ 0) && decide (0 ≤ value)
  let down := decide (0 ≤ lastValue) && decide (value ≤ 0)
  let either := up || down
  (up && decide (0 < direction)) || (down && decide (direction < 0)) ||
    (either && decide (direction = 0))

/-- Defaults of `bisect` (`nbkode/nbcompat/zeros.py:509`): `tol=1.48e-8`, `rtol=0.0`; `maxiter = 50`. -/
structure BisectOpts (α : Type) where
  tol : α
  rtol : α
  maxiter : Nat

/-- The values used by events: `bisect` is called with its defaults (`nbkode/event_handler.py:151-156`,
`nbkode/nbcompat/zeros.py:509`). -/
def BisectOpts.std : BisectOpts α := ⟨((148 : Nat) : α) / ((10 ^ 10 : Nat) : α), 0, 50⟩

/-- `nbkode/event_handler.py:34-57` `event_at_sol`. -/
def eventAtSol (func : α → Vec α n → α) (interp : α → Py (St α n k X) (Ref α n k)) (t : α) :
    Py (St α n k X) α := do
  let r ← interp t
  let st ← get
  return func t (r.deref st.cache)

/-- `nbkode/event_handler.py:131-166` `Event.evaluate`: the updated event and whether the run must
terminate. `self.t[-1]` is the last recorded time. -/
def Event.evaluate (bo : BisectOpts α) (interp : α → Py (St α n k X) (Ref α n k))
    (ev : Event α n k) : Py (St α n k X) (Event α n k × Bool) := do
  let st ← get
  let t := st.cache.t
  let value := ev.func t st.cache.y
  let trigger := triggers ev.direction ev.lastValue value
  let ev' ← if trigger then do
      let root ← if value == 0 then pure t
        else bisect (eventAtSol ev.func interp) ev.lastT t bo.tol bo.maxiter bo.rtol
      let dup := match ev.t.getLast? with
        | some tl => tl == root
        | none => false
      if dup then pure ev
      else do
        let r ← interp root
        pure { ev with t := ev.t ++ [root], y := ev.y ++ [r] }
    else pure ev
  return ({ ev' with lastT := t, lastValue := value }, trigger && ev.isTerminal)

/-- `nbkode/event_handler.py:168-172` `Event.last_event`; `none` stands for `(nan, empty * nan)`. -/
def Event.lastEvent (ev : Event α n k) : Option (α × Ref α n k) :=
  match ev.t.getLast?, ev.y.getLast? with
  | some t, some y => some (t, y)
  | _, _ => none

/-- `nbkode/event_handler.py:223-232`: the loop over the events. `min_t` stays `-inf`, so `t > min_t` holds for
every finite `t` and fails for the `nan` of an empty event. Returns the events, `terminate` and
`last_event`. -/
def handlerLoop (bo : BisectOpts α) (interp : α → Py (St α n k X) (Ref α n k)) :
    List (Event α n k) → Bool → Option (α × Ref α n k) →
      Py (St α n k X) (List (Event α n k) × Bool × Option (α × Ref α n k))
  | [], term, last => pure ([], term, last)
  | ev :: rest, term, last => do
    let (ev', stop) ← ev.evaluate bo interp
    let last' := if stop then
        match ev'.lastEvent with
        | some p => some p
        | none => last
      else last
    let (evs, term', last'') ← handlerLoop bo interp rest (term || stop) last'
    return (ev' :: evs, term', last'')

/-- `nbkode/event_handler.py:203-232` `EventHandler.evaluate`. -/
def EventHandler.evaluate (bo : BisectOpts α) (interp : α → Py (St α n k X) (Ref α n k))
    (eh : EventHandler α n k) : Py (St α n k X) (EventHandler α n k × Bool) := do
  let (evs, term, last) ← handlerLoop bo interp eh.events false eh.lastEvent
  return ({ events := evs, lastEvent := last }, term)

end Nbkode
