import Verif.Model.Solver

/-!
# Events that do not happen
-/

set_option autoImplicit false

namespace Nbkode.Spec

variable {α : Type}

/-- The event function does not have both signs: there are no two places where it is `≤ 0` and `≥ 0`. It may be positive
everywhere, negative everywhere, not a number everywhere, or a positive number in some places and not a number in the others. -/
def OneSigned [Zero α] [LE α] {n : Nat} (e : EventSpec α n) : Prop :=
  ∀ t y t' y', ¬ (e.func t y ≤ 0 ∧ 0 ≤ e.func t' y')

/-- The members of a list that are marked `true`. -/
def kept {β : Type} : List Bool → List β → List β
  | true :: ms, x :: xs => x :: kept ms xs
  | false :: ms, _ :: xs => kept ms xs
  | _, _ => []

/-- The outcome of `run_events` with the lists of the events marked `true` only. -/
def keptOut {n k : Nat} (ms : List Bool) (o : Solver.RunOut α n k) : Solver.RunOut α n k :=
  ⟨o.out, kept ms o.tEvents, kept ms o.yEvents⟩

end Nbkode.Spec
