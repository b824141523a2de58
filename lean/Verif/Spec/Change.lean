import Verif.Spec.Answers
import Mathlib.Algebra.BigOperators.Fin
import Mathlib.Algebra.Order.Field.Basic

/-!
# Changes of variables

What a user sees of a solver from its construction on, and how that should look in other variables: with time in other
units and from another origin, and with the state replaced by an affine image of it.
-/

set_option autoImplicit false

namespace Nbkode.Spec
open Nbkode Solver

section seen
variable {α : Type}
variable [Add α] [Sub α] [Mul α] [Div α] [Neg α] [Zero α] [One α] [NatCast α] [BEq α]
variable [LT α] [DecidableLT α] [LE α] [DecidableLE α]
variable {n k : Nat} {X : Type}

/-- What is seen of a solver after some calls: what each call returned or raised, and the history and step size in the end. -/
structure Seen (α : Type) (n k : Nat) where
  results : List (Except Err (Answer α n k))
  history : Buffer α n k
  h : α

/-- Making calls one after the other; exceptions are caught. `none`: one of the calls does not end. -/
def transcript (S : Solver α n k X) (bo : BisectOpts α) (argsort : List α → List Nat) :
    List (Call α n) → St α n k X → Option (Seen α n k)
  | [], s => some ⟨[], s.cache, s.h⟩
  | c :: cs, s => match (c.answer S bo argsort).run s with
    | none => none
    | some (r, s') => (transcript S bo argsort cs s').map fun v => { v with results := r :: v.results }

/-- Constructing a solver and using it. `none`: the constructor or one of the calls does not end; `error`: the constructor
raises. -/
def observe (S : Solver α n k X) (bo : BisectOpts α) (argsort : List α → List Nat) (cs : List (Call α n)) :
    Option (Except Err (St α n k X)) → Option (Except Err (Seen α n k))
  | none => none
  | some (.error e) => some (.error e)
  | some (.ok s) => (transcript S bo argsort cs s).map .ok

end seen

/-- Which permutation `np.argsort` returns depends only on the comparisons between the entries. -/
def ComparisonSort {α : Type} [LE α] (argsort : List α → List Nat) : Prop :=
  ∀ l l' : List α, List.Forall₂ (fun _ _ => True) l l' →
    (∀ (i j : Nat) (a b a' b' : α), l[i]? = some a → l[j]? = some b → l'[i]? = some a' → l'[j]? = some b' → (a ≤ b ↔ a' ≤ b')) →
    argsort l = argsort l'

/-- New variables: the time `lam * t + c` and the state `M y + b`. -/
structure Change (α : Type) (n m : Nat) where
  lam : α
  c : α
  M : Fin m → Fin n → α
  b : Vec α m

namespace Change
variable {α : Type} [Field α] [LinearOrder α] [IsStrictOrderedRing α] {n m k : Nat} (C : Change α n m)

/-- Time in the new variables. -/
def time (t : α) : α := C.lam * t + C.c

/-- The linear part of the change of the state. -/
def lin (d : Vec α n) : Vec α m := fun i => ∑ j, C.M i j * d j

/-- The state in the new variables. -/
def state (y : Vec α n) : Vec α m := fun i => C.lin y i + C.b i

/-- The derivative of the new state with respect to the new time. -/
def slope (f : Vec α n) : Vec α m := fun i => C.lin f i / C.lam

/-- `rhs'` is the right-hand side `rhs` in the new variables: it raises where `rhs` raises and returns the derivative of the new
state where `rhs` returns the derivative of the state. -/
def Transforms (rhs : Rhs α n) (rhs' : Rhs α m) : Prop := ∀ t y, rhs' (C.time t) (C.state y) = (rhs t y).map C.slope

def bound : Bound α → Bound α
  | .fin t => .fin (C.time t)
  | .inf => .inf

def ref : Ref α n k → Ref α m k
  | .own y => .own (C.state y)
  | .row i => .row i

def points (l : List (α × Vec α n)) : List (α × Vec α m) := l.map fun p => (C.time p.1, C.state p.2)

/-- What a call returns, in the new variables. -/
def answer : Answer α n k → Answer α m k
  | .step (.arrays l) => .step (.arrays (C.points l))
  | .step (.single t y) => .step (.single (C.time t) (C.ref y))
  | .step .none => .step .none
  | .skip => .skip
  | .interpolate r => .interpolate (C.ref r)
  | .run l => .run (C.points l)
  | .runEvents o => .runEvents ⟨C.points o.out, o.tEvents.map (List.map C.time), o.yEvents.map (List.map C.ref)⟩

/-- A history in the new variables. -/
def history (b : Buffer α n k) : Buffer α m k :=
  ⟨fun i => C.time (b.ts i), fun i => C.state (b.ys i), fun i => C.slope (b.fs i)⟩

/-- What is seen of a solver, in the new variables. Exceptions are the same. -/
def seen (v : Seen α n k) : Seen α m k := ⟨v.results.map (Except.map C.answer), C.history v.history, C.lam * v.h⟩

/-- The same event in the new variables. -/
structure SameEvent (e : EventSpec α n) (e' : EventSpec α m) : Prop where
  func : ∀ t y, e'.func (C.time t) (C.state y) = e.func t y
  terminal : e'.terminal = e.terminal
  direction : e'.direction = e.direction

/-- The same call in the new variables. -/
inductive SameCall : Call α n → Call α m → Prop
  | step (q : Option Int) (u : Option (Bound α)) : SameCall (.step q u) (.step q (u.map C.bound))
  | skip (q : Option Int) (u : Option (Bound α)) : SameCall (.skip q u) (.skip q (u.map C.bound))
  | interpolate (t : α) : SameCall (.interpolate t) (.interpolate (C.time t))
  | run (l : List α) : SameCall (.run l) (.run (l.map C.time))
  | runEvents_none (l : List α) : SameCall (.runEvents l none) (.runEvents (l.map C.time) none)
  | runEvents (l : List α) (es : List (EventSpec α n)) (es' : List (EventSpec α m)) : List.Forall₂ C.SameEvent es es' →
      SameCall (.runEvents l (some es)) (.runEvents (l.map C.time) (some es'))

/-- Up to its sign, every new component is one of the old components times `κ`, and every old component is used once. -/
def Relabels (C : Change α n n) (κ : α) : Prop :=
  (∀ i, C.b i = 0) ∧ ∃ (σ : Equiv.Perm (Fin n)) (e : Fin n → α), (∀ i, |e i| = κ) ∧ ∀ i j, C.M i j = if j = σ i then e i else 0

/-- Only time changes. -/
def clock (n : Nat) (lam c : α) : Change α n n := ⟨lam, c, fun i j => if j = i then 1 else 0, 0⟩

end Change
end Nbkode.Spec
