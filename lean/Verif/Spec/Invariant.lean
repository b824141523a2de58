import Verif.Spec.Change

/-!
# States seen by a user

`Seen.Within P`: every state a user gets to see satisfies `P`.
-/

set_option autoImplicit false

namespace Nbkode.Spec
open Nbkode Solver

variable {α : Type} {n k : Nat}

/-- The state behind a reference satisfies `P`. A view (`row`) is a row of the history, see `Seen.Within`. -/
def RefWithin (P : Vec α n → Prop) : Ref α n k → Prop
  | .own y => P y
  | .row _ => True

/-- The states in the value returned by a call satisfy `P`. -/
def Answer.Within (P : Vec α n → Prop) : Answer α n k → Prop
  | .step (.arrays l) => ∀ p ∈ l, P p.2
  | .step (.single _ r) => RefWithin P r
  | .step .none => True
  | .skip => True
  | .interpolate r => RefWithin P r
  | .run l => ∀ p ∈ l, P p.2
  | .runEvents o => (∀ p ∈ o.out, P p.2) ∧ ∀ l ∈ o.yEvents, ∀ r ∈ l, RefWithin P r

/-- All states seen satisfy `P`: those in returned values and those in the history. -/
def Seen.Within (P : Vec α n → Prop) (v : Seen α n k) : Prop :=
  (∀ a, .ok a ∈ v.results → a.Within P) ∧ ∀ i, P (v.history.ys i)

end Nbkode.Spec
