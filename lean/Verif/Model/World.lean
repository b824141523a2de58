import Verif.Model.Arguments
import Verif.Spec.Change

/-!
# Several solvers and the arrays they were given

A program that uses the package without Numba (`NBKODE_NONUMBA`): it owns arrays of initial values and of parameters, makes
solvers from them, calls the solvers in any order and writes into its arrays in between.
-/

set_option autoImplicit false

namespace Nbkode
open Spec

variable {α : Type}
variable [Add α] [Sub α] [Mul α] [Div α] [Neg α] [Zero α] [One α] [NatCast α] [BEq α]
variable [LT α] [DecidableLT α] [LE α] [DecidableLE α]
variable {n : Nat} {P : Type}

/-- A solver class with the keyword arguments it is given: what its constructor does with `rhs`, `t0` and the copy of `y0`
(`none`: it does not end), and its methods. -/
structure Kind (α : Type) (n : Nat) where
  k : Nat
  X : Type
  method : Method α n k X
  tBound : Bound α
  init : Rhs α n → α → Vec α n → Option (Except Err (St α n k X))

/-- The arrays `self.rhs` reads its parameters from (`nbkode/core.py:118-119`, `129-132`): none, an array of the caller, or an
array nobody else knows. -/
inductive Held (P : Type) where
  | nothing
  | shared (addr : Nat)
  | own (p : P)

/-- How a program passes `params`: not at all, as an array that is C-contiguous, or as something else (a list, a tuple, a strided
array). -/
inductive Passed where
  | nothing
  | contiguous (addr : Nat)
  | other (addr : Nat)

/-- `nbkode/core.py:118-119` `params = np.ascontiguousarray(params)`, which returns the very array it is given if that is
contiguous, and a new array otherwise. `ps` are the contents of the caller's arrays. -/
def Passed.hold (ps : Nat → P) : Passed → Held P
  | .nothing => .nothing
  | .contiguous a => .shared a
  | .other a => .own (ps a)

/-- `nbkode/core.py:129-132`: what `self.rhs` finds in `params` when it is called. -/
def Held.read (ps : Nat → P) : Held P → Option P
  | .nothing => none
  | .shared a => some (ps a)
  | .own p => some p

/-- A solver in use: the user's function, where its parameters are, its state, and what its calls returned or raised so far. -/
structure Live (P : Type) (K : Kind α n) where
  user : UserRhs α n P
  held : Held P
  st : St α n K.k K.X
  results : List (Except Err (Answer α n K.k))

/-- The contents of the program's arrays of initial values (`ys`) and parameters (`ps`), and its solvers in the order in which
they were made. Nothing else is shared: the buffers, `K`, `h` and the interpolator are made by each constructor
(`nbkode/core.py:135`, `140-141`, `nbkode/runge_kutta/core.py:27`), the attributes of the classes are only read. -/
structure World (α : Type) (n : Nat) (P : Type) where
  ys : Nat → Vec α n
  ps : Nat → P
  live : List (Σ K : Kind α n, Live P K)

/-- The statements of a program. -/
inductive Act (α : Type) (n : Nat) (P : Type) where
  /-- `cls(user, t0, ys[a], params)`. -/
  | new (K : Kind α n) (user : UserRhs α n P) (t0 : α) (a : Nat) (p : Passed)
  /-- A call of the `i`-th solver; an exception is caught. -/
  | call (i : Nat) (c : Call α n)
  /-- `ys[a][:] = v`. -/
  | setY (a : Nat) (v : Vec α n)
  /-- `ps[a][:] = p`. -/
  | setP (a : Nat) (p : P)

/-- Constructing a solver (`nbkode/core.py:106-141` with the constructor of the class): `y0` is copied (`:140`), the constructor
evaluates `self.rhs` with the parameters of that moment. If it raises there is no solver. -/
def World.make (w : World α n P) (K : Kind α n) (user : UserRhs α n P) (t0 : α) (a : Nat) (p : Passed) :
    Option (World α n P) :=
  match K.init (user ((p.hold w.ps).read w.ps)) t0 (w.ys a) with
  | none => none
  | some (.error _) => some w
  | some (.ok s) => some { w with live := w.live ++ [⟨K, user, p.hold w.ps, s, []⟩] }

/-- A call of a solver (`nbkode/core.py:214-481`) while the arrays of parameters hold `ps`: its right-hand side is
`lambda t, y: rhs(t, y, params)` (`:132`). Simplification: the user's functions do not write into arrays. -/
def Live.call {K : Kind α n} (bo : BisectOpts α) (argsort : List α → List Nat) (ps : Nat → P) (c : Call α n) (L : Live P K) :
    Option (Live P K) :=
  match (c.answer ⟨K.method, L.user (L.held.read ps), K.tBound⟩ bo argsort).run L.st with
  | none => none
  | some (r, s) => some { L with st := s, results := L.results ++ [r] }

/-- One statement. `none`: it does not end. Calling a solver that does not exist does nothing. -/
def Act.exec (bo : BisectOpts α) (argsort : List α → List Nat) (w : World α n P) : Act α n P → Option (World α n P)
  | .new K user t0 a p => w.make K user t0 a p
  | .call i c => match w.live[i]? with
    | none => some w
    | some ⟨K, L⟩ => (L.call bo argsort w.ps c).map fun L' => { w with live := w.live.set i ⟨K, L'⟩ }
  | .setY a v => some { w with ys := Function.update w.ys a v }
  | .setP a p => some { w with ps := Function.update w.ps a p }

/-- A program. -/
def execAll (bo : BisectOpts α) (argsort : List α → List Nat) : List (Act α n P) → World α n P → Option (World α n P)
  | [], w => some w
  | a :: as, w => match a.exec bo argsort w with
    | none => none
    | some w' => execAll bo argsort as w'

end Nbkode
