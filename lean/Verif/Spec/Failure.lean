import Verif.Spec.Methods
import Verif.Spec.Termination

/-!
# Where exceptions come from
-/

set_option autoImplicit false

namespace Nbkode.Spec
open Nbkode

/-- The user's right-hand side raises `e` at some point. -/
def FunctionRaises {α : Type} {n : Nat} (rhs : Rhs α n) (e : Err) : Prop := ∃ t y, rhs t y = .error e

variable {α : Type} [Field α] [LinearOrder α] [BEq α]
variable {n : Nat}

/-- `Faults M own`: `M` is one of the library's methods and `own` says which exceptions its own arithmetic may raise. The
explicit multistep and Runge-Kutta methods and `RungeKutta23`/`RungeKutta45` raise none. An implicit method raises
`RuntimeError` when the iteration does not converge, and passes on what `np.linalg.solve` raises. `DOP853` divides by an
error estimate that may vanish. -/
inductive Faults : {k : Nat} → {X : Type} → Method α n k X → (Err → Prop) → Prop
  | explicitMultistep {p : Nat} (c : MultistepCoef α p) : Faults (explicitMultistep c) fun _ => False
  | erk {s : Nat} (T : Tableau α s) : Faults (erk T) fun _ => False
  | fsal {s d : Nat} (lib : Lib α) (o : VarOptions α) (c : FsalCoef α s d) (hp : PowLaw lib) (hs : SqrtLaw lib) :
      Faults (fsal lib o c) fun _ => False
  | implicitMultistep {p : Nat} (lib : Lib α) (zo : ZeroOpts α) (c : MultistepCoef α p) :
      Faults (implicitMultistep lib zo c)
        fun e => e = .runtimeError ∨ ∃ (m : Nat) (A : Fin m → Fin m → α) (b : Vec α m), lib.solve A b = .error e
  | dop853 (lib : Lib α) (o : VarOptions α) (c : DopCoef α) : Faults (dop853 lib o c) fun e => e = .zeroDivisionError

end Nbkode.Spec
