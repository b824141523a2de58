import Verif.Spec.Change

/-! Some components of a system. -/

set_option autoImplicit false

namespace Nbkode.Spec
open Nbkode

variable {α : Type} [Field α] [LinearOrder α] [IsStrictOrderedRing α] {n m : Nat}

/-- Looking at the components `ι 0`, `ι 1`, ... of the state only. Time is unchanged. -/
def pick (α : Type) [Field α] (ι : Fin m → Fin n) : Change α n m := ⟨1, 0, fun i j => if j = ι i then 1 else 0, 0⟩

/-- The derivatives of the components `ι 0`, `ι 1`, ... depend on these components only: `part` is a right-hand side for them. Where one
raises, so does the other. -/
def OnItsOwn (ι : Fin m → Fin n) (whole : Rhs α n) (part : Rhs α m) : Prop :=
  ∀ t z, part t (fun i => z (ι i)) = (whole t z).map fun f i => f (ι i)

/-- Every component is picked `c` times. -/
def EachPicked (ι : Fin m → Fin n) (c : Nat) : Prop := ∀ j, (Finset.univ.filter fun i => ι i = j).card = c

end Nbkode.Spec
