import Verif.Spec.Run
import Mathlib.Algebra.Order.Group.Unbundled.Abs
import Mathlib.Algebra.Field.Defs

/-!
# Vocabulary for events
-/

set_option autoImplicit false

namespace Nbkode.Spec
open Nbkode

section lawless
variable {α : Type}
variable [Add α] [Sub α] [Mul α] [Div α] [Neg α] [Zero α] [One α] [NatCast α] [BEq α]
variable [LT α] [DecidableLT α] [LE α] [DecidableLE α]
variable {n k : Nat} {X : Type}

/-- The value `v'` follows `v`, going up to or through zero. -/
def Upward (v v' : α) : Prop := v ≤ 0 ∧ 0 ≤ v'

/-- The value `v'` follows `v`, going down to or through zero. -/
def Downward (v v' : α) : Prop := 0 ≤ v ∧ v' ≤ 0

/-- The value moved from `v` to `v'` in the direction asked for: up if `direction` is positive, down if it is negative,
either way if it is zero or not given. -/
def Crosses (direction : Option α) (v v' : α) : Prop :=
  match direction with
  | none => Upward v v' ∨ Downward v v'
  | some d => (0 < d ∧ Upward v v') ∨ (d < 0 ∧ Downward v v') ∨ (d = 0 ∧ (Upward v v' ∨ Downward v v'))

/-- The event function at the current point of a solver. -/
def value (e : EventSpec α n) (s : St α n k X) : α := e.func s.t s.y

/-- On the step from `a` to `b` the event triggers. -/
def CrossesOn (e : EventSpec α n) (a b : St α n k X) : Prop := Crosses e.direction (value e a) (value e b)

/-- On the step from `a` to `b` some event marked `terminal` triggers. -/
def TerminalOn (es : List (EventSpec α n)) (a b : St α n k X) : Prop :=
  ∃ e ∈ es, e.terminal = some true ∧ CrossesOn e a b

/-- `b` comes right after `a` in `l`. -/
def Consecutive {A : Type} (l : List A) (a b : A) : Prop := ∃ l1 l2, l = l1 ++ a :: b :: l2

/-- On no step between the visited states `l` a terminal event triggers. -/
def NoTerminal (es : List (EventSpec α n)) (l : List (St α n k X)) : Prop :=
  ∀ a b, Consecutive l a b → ¬ TerminalOn es a b

/-- The dense output of the solver in state `s` has the value `y` at `t`. -/
def DenseAt (S : Solver α n k X) (s : St α n k X) (t : α) (y : Vec α n) : Prop :=
  ∃ r s', (S.interpolate t).run s = some (.ok r, s') ∧ r.deref s.cache = y

/-- The event along the dense output of the solver in state `s` has the value `v` at `t`. -/
def ValueAt (S : Solver α n k X) (e : EventSpec α n) (s : St α n k X) (t v : α) : Prop :=
  ∃ y, DenseAt S s t y ∧ v = e.func t y

end lawless

section order
variable {α : Type} [LinearOrder α]
variable [Add α] [Sub α] [Mul α] [Div α] [Neg α] [Zero α] [One α] [NatCast α] [BEq α]
variable {n k : Nat} {X : Type}

/-- A way to say how well `τ`, between `lo` and `hi`, is located as a zero of the function with graph `f`, as in
`L f lo hi τ`: see `Located`. -/
abbrev Locator (α : Type) := (α → α → Prop) → α → α → α → Prop

/-- What a record `(τ, r)` of the event says about the step from `a` to `b` on which it was made. -/
structure Detects (S : Solver α n k X) (L : Locator α) (e : EventSpec α n) (a b : St α n k X) (τ : α)
    (r : Ref α n k) : Prop where
  crosses : CrossesOn e a b
  after : a.t ≤ τ
  before : τ ≤ b.t
  located : (τ = b.t ∧ value e b = 0) ∨ L (ValueAt S e b) a.t b.t τ
  state : DenseAt S b τ (r.deref b.cache)
  view : ∀ i, r = .row i → b.cache.ts i = τ

/-- The steps between the visited states `pts`, in order. -/
def stepsOf {A : Type} (pts : List A) : List (A × A) := pts.zip pts.tail

/-- What the lists of times and states recorded for an event say about the visited states `pts`. -/
structure Logged (S : Solver α n k X) (L : Locator α) (e : EventSpec α n) (pts : List (St α n k X)) (ts : List α)
    (ys : List (Ref α n k)) : Prop where
  increasing : ts.Pairwise (· < ·)
  length_eq : ts.length = ys.length
  sound : ∀ p ∈ ts.zip ys, ∃ a b, Consecutive pts a b ∧ Detects S L e a b p.1 p.2
  complete : ∀ a b, Consecutive pts a b → CrossesOn e a b → ∃ τ ∈ ts, a.t ≤ τ ∧ τ ≤ b.t
  once : ∃ made, made.Sublist (stepsOf pts) ∧ List.Forall₂ (fun st p => Detects S L e st.1 st.2 p.1 p.2) made (ts.zip ys)

/-- `(τ, r)` is the record made on the step from `a` to `b` for event number `i` of `es`, and that is the last event in the
list that is terminal and triggers on that step. -/
def LastTerminal (S : Solver α n k X) (L : Locator α) (es : List (EventSpec α n)) (i : Nat) (a b : St α n k X) (τ : α)
    (r : Ref α n k) : Prop :=
  ∃ e, es[i]? = some e ∧ e.terminal = some true ∧ Detects S L e a b τ r ∧
    ∀ j e', i < j → es[j]? = some e' → e'.terminal = some true → ¬ CrossesOn e' a b

/-- Each pair of `out` is a time and the dense output there at the first state from `s` on whose time is not before it. -/
def Interpolated (S : Solver α n k X) (s : St α n k X) (out : List (α × Vec α n)) : Prop :=
  ∀ p ∈ out, ∃ s1, Reach S S.tBound p.1 s s1 ∧ DenseAt S s1 p.1 p.2

/-- How a run with events on the ordered times `ts` ends. Either no step taken had a terminal trigger; then the times returned are
those asked for, and the steps reach the last of them, or, if the next step does not fit below `t_bound`, those among them not after the last step taken. Or the last
step taken is the only one with a terminal trigger; then the pairs returned are those for the times not after the start of that
step, followed by the time and state recorded for a terminal event that triggers on that step, the last such event in the list. -/
def Ends (S : Solver α n k X) (ts : List α) (es : List (EventSpec α n)) (out : List (α × Vec α n)) (tEvents : List (List α))
    (s : St α n k X) (l : List (St α n k X)) (c : St α n k X) : Prop :=
  (NoTerminal es (s :: l) ∧ Interpolated S s out ∧ ((out.map Prod.fst = ts ∧ ∀ x ∈ ts, x ≤ c.t) ∨
      (¬ Fits S.tBound c ∧ out.map Prod.fst = ts.filter fun x => decide (x ≤ c.t)))) ∨
  (∃ (l0 : List (St α n k X)) (p : St α n k X) (i : Nat) (e : EventSpec α n) (τ : α) (y : Vec α n)
    (pre : List (α × Vec α n)), s :: l = l0 ++ [p, c] ∧ NoTerminal es (l0 ++ [p]) ∧ es[i]? = some e ∧ e.terminal = some true ∧
    CrossesOn e p c ∧ tEvents[i]? = some [τ] ∧ p.t ≤ τ ∧ τ ≤ c.t ∧ DenseAt S c τ y ∧ out = pre ++ [(τ, y)] ∧
    pre.map Prod.fst = ts.filter (fun x => decide (x ≤ p.t)) ∧ Interpolated S s pre ∧ (∃ x ∈ ts, p.t < x) ∧
    ∀ j e', i < j → es[j]? = some e' → e'.terminal = some true → ¬ CrossesOn e' p c)

end order

section field
variable {α : Type} [Field α] [LinearOrder α] [BEq α]
variable {n k : Nat} {X : Type}

/-- How well `τ` is located between `lo` and `hi` as a zero of the function with graph `f`: the value there is at most the
tolerance, or `τ` is an end of a bracket of length `(hi - lo) / 2 ^ maxiter` at whose ends the signs are opposite. -/
inductive Located (bo : BisectOpts α) (f : α → α → Prop) (lo hi τ : α) : Prop
  | small (v : α) : f τ v → |v| ≤ bo.tol → Located bo f lo hi τ
  | bracket (a b va vb : α) : lo ≤ a → a < b → b ≤ hi → (b - a) * 2 ^ bo.maxiter = hi - lo → f a va → f b vb →
      ((va < 0 ∧ 0 < vb) ∨ (0 < va ∧ vb < 0)) → (τ = a ∨ τ = b) → Located bo f lo hi τ

end field

end Nbkode.Spec
