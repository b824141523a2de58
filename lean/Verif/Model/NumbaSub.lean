import Verif.Model.Base

/-!
# The stand-in for Numba

`nbkode/nbcompat/numbasub.py`, used when Numba is missing or `NBKODE_NONUMBA` is set. Python objects
have a type `Obj`; `callable : Obj → Bool` is Python's `callable` and `call` is what calling an object
with one argument does. `functools.wraps` only copies metadata and is not modelled.
-/

set_option autoImplicit false

namespace Nbkode
namespace NumbaSub
variable {Obj : Type}

/-- Positional arguments and keyword arguments of a call. -/
structure Args (Obj : Type) where
  pos : List Obj
  kw : List (String × Obj)

/-- What calling a stand-in decorator gives: an object, or the closure `real_decorator` with the
arguments it captured (`nbkode/nbcompat/numbasub.py:26-29`). -/
inductive Result (Obj : Type) where
  | obj (o : Obj)
  | realDecorator (captured : Args Obj)

/-- `nbkode/nbcompat/numbasub.py:34-36` `__noop`, before decoration. -/
def noopFn (func : Obj) (_args : Args Obj) : Obj := func

/-- `nbkode/nbcompat/numbasub.py:20-29` `wrapped_decorator`, for the decorated function `fn`. -/
def wrapped (callable : Obj → Bool) (fn : Obj → Args Obj → Obj) (a : Args Obj) : Result Obj :=
  match a.pos, a.kw with
  | [x], [] => if callable x then .obj (fn x ⟨[], []⟩) else .realDecorator a
  | _, _ => .realDecorator a

/-- `jit`, `njit`, `jitclass`, `vectorize`, … (`nbkode/nbcompat/numbasub.py:34-46`). -/
def noop (callable : Obj → Bool) : Args Obj → Result Obj := wrapped callable noopFn

/-- Calling the result with one argument (`nbkode/nbcompat/numbasub.py:26-27`). -/
def Result.callOn (call : Obj → Obj → Except Err Obj) (r : Result Obj) (f : Obj) : Except Err Obj :=
  match r with
  | .obj o => call o f
  | .realDecorator a => .ok (noopFn f a)

/-- `@njit` above a definition (for example `nbkode/core.py:176`), or `njit(f)`
(`nbkode/core.py:126`). -/
def bare (callable : Obj → Bool) (f : Obj) : Result Obj := noop callable ⟨[f], []⟩

/-- `@njit(...)` above a definition (for example `nbkode/runge_kutta/explicit.py:32`), or
`njit(...)(f)` (`nbkode/nbcompat/zeros.py:398`). -/
def withOptions (callable : Obj → Bool) (call : Obj → Obj → Except Err Obj) (a : Args Obj) (f : Obj) :
    Except Err Obj :=
  (noop callable a).callOn call f

end NumbaSub
end Nbkode
