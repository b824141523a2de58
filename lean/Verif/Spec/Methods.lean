import Verif.Model.Tableaux
import Verif.Model.Solver

/-!
# The library's solver kinds

`IsFixed M` / `IsVariable o M`: `M` is (an instance of) one of the library's method families, with arbitrary
coefficients. Every registered class is a member (see the examples in `Props`).
-/

set_option autoImplicit false

namespace Nbkode.Spec
open Nbkode

variable {α : Type}
variable [Add α] [Sub α] [Mul α] [Div α] [Neg α] [Zero α] [One α] [NatCast α] [BEq α]
variable [LT α] [DecidableLT α] [LE α] [DecidableLE α]
variable {n : Nat}

/-- The fixed-step families: explicit and implicit linear multistep methods and explicit Runge-Kutta methods. -/
inductive IsFixed : {k : Nat} → {X : Type} → Method α n k X → Prop
  | explicitMultistep {p : Nat} (c : MultistepCoef α p) : IsFixed (explicitMultistep c)
  | implicitMultistep {p : Nat} (lib : Lib α) (zo : ZeroOpts α) (c : MultistepCoef α p) :
      IsFixed (implicitMultistep lib zo c)
  | erk {s : Nat} (T : Tableau α s) : IsFixed (erk T)

/-- The variable-step families with options `o` and error exponent `ex`: embedded FSAL Runge-Kutta pairs and
DOP853. -/
inductive IsVariable (lib : Lib α) (o : VarOptions α) :
    (ex : α) → {k : Nat} → {X : Type} → Method α n k X → Prop
  | fsal {s d : Nat} (c : FsalCoef α s d) : IsVariable lib o c.errorExponent (fsal lib o c)
  | dop853 (c : DopCoef α) : IsVariable lib o c.errorExponent (dop853 lib o c)

/-- Any method of the library. -/
def IsLibrary {k : Nat} {X : Type} (M : Method α n k X) : Prop :=
  IsFixed M ∨ ∃ lib o ex, IsVariable lib o ex M

/-- What is assumed of `**` on floats: `x ** e >= 1` for `x >= 1` and `e >= 0`, and `x ** e > 0` for
`x > 0`. -/
structure PowLaw (lib : Lib α) : Prop where
  one_le : ∀ x e, 1 ≤ x → 0 ≤ e → 1 ≤ lib.pow x e
  pos : ∀ x e, 0 < x → 0 < lib.pow x e

/-- Step-size control options under which a rejected attempt can only shrink the step. The defaults
(`min_factor=0.2`, `max_factor=10`, `safety_factor=0.9`) are such. -/
structure SaneOptions (o : VarOptions α) : Prop where
  minFactor_pos : 0 < o.minFactor
  minFactor_le : o.minFactor ≤ 1
  maxFactor_pos : 0 < o.maxFactor
  safety_le : o.safetyFactor ≤ 1

/-- A fixed-step method, or a variable-step method with sane options. -/
def WellConfigured {k : Nat} {X : Type} (M : Method α n k X) : Prop :=
  IsFixed M ∨ ∃ lib o ex, IsVariable lib o ex M ∧ PowLaw lib ∧ SaneOptions o ∧ 0 ≤ ex

end Nbkode.Spec
