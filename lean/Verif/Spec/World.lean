import Verif.Model.World

/-!
# A solver among others

What a program should see of one of its solvers: what it would see if that solver were alone, constructed from the values its
arguments had at that moment.
-/

set_option autoImplicit false

namespace Nbkode.Spec
open Nbkode

variable {α : Type}
variable [Add α] [Sub α] [Mul α] [Div α] [Neg α] [Zero α] [One α] [NatCast α] [BEq α]
variable [LT α] [DecidableLT α] [LE α] [DecidableLE α]
variable {n : Nat} {P : Type}

/-- The calls of the `i`-th solver among the statements of a program. -/
def callsOf (i : Nat) : List (Act α n P) → List (Call α n)
  | [] => []
  | .call j c :: as => if j = i then c :: callsOf i as else callsOf i as
  | _ :: as => callsOf i as

/-- The value of the argument `params`. -/
def Passed.value (ps : Nat → P) : Passed → Option P
  | .nothing => none
  | .contiguous a => some (ps a)
  | .other a => some (ps a)

/-- What is seen of the `i`-th solver of a program, if it exists and is of the class `K`. -/
def SeenOf (w : World α n P) (i : Nat) (K : Kind α n) (v : Seen α n K.k) : Prop :=
  ∃ L : Live P K, w.live[i]? = some ⟨K, L⟩ ∧ v = ⟨L.results, L.st.cache, L.st.h⟩

/-- `Alone bo argsort K user t0 y p cs v`: a solver of class `K` constructed from the values `y` and `p`, of which the calls
`cs` are made, shows `v`. -/
def Alone (bo : BisectOpts α) (argsort : List α → List Nat) (K : Kind α n) (user : UserRhs α n P) (t0 : α) (y : Vec α n)
    (p : Option P) (cs : List (Call α n)) (v : Seen α n K.k) : Prop :=
  observe ⟨K.method, user p, K.tBound⟩ bo argsort cs (K.init (user p) t0 y) = some (.ok v)

/-- No statement writes into the array of parameters with address `a`. -/
def LeavesParams (a : Nat) (as : List (Act α n P)) : Prop := ∀ b p, Act.setP b p ∈ as → b ≠ a

end Nbkode.Spec
