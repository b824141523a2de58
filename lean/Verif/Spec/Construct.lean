import Verif.Model.Construct

/-!
# Constructed solvers
-/

set_option autoImplicit false

namespace Nbkode.Spec
open Nbkode

variable {α : Type}
variable [Add α] [Sub α] [Mul α] [Div α] [Neg α] [Zero α] [One α] [NatCast α] [BEq α]
variable [LT α] [DecidableLT α] [LE α] [DecidableLE α]
variable {n : Nat}

/-- `s` is the state of the solver `S` just after its constructor returned, for some initial condition, options and
contents of uninitialised memory. -/
inductive Constructed : {k : Nat} → {X : Type} → Solver α n k X → St α n k X → Prop
  | erk {s : Nat} (T : Tableau α s) (rhs : Rhs α n) (b : Bound α) (g : Buffer α n 0) (K : ErkAux α n s) (t0 : α)
      (y0 : Vec α n) (h : Option α) (st : St α n 0 (ErkAux α n s)) :
      erkInit g K rhs t0 y0 h = .ok st → Constructed ⟨erk T, rhs, b⟩ st
  | fsal {s d : Nat} (lib : Lib α) (o : VarOptions α) (c : FsalCoef α s d) (rhs : Rhs α n) (b : Bound α)
      (sel : Rhs α n → α → Vec α n → Vec α n → Except Err α) (g : Buffer α n 0) (K : Fin (s + 2) → Vec α n)
      (itp : RkItp α n d) (t0 : α) (y0 : Vec α n) (h first : Option α)
      (st : St α n 0 (FsalAux α n s (RkItp α n d))) :
      fsalInit c.P o sel g K itp rhs t0 y0 h first = .ok st → Constructed ⟨fsal lib o c, rhs, b⟩ st
  | dop853 (lib : Lib α) (o : VarOptions α) (c : DopCoef α) (rhs : Rhs α n) (b : Bound α)
      (sel : Rhs α n → α → Vec α n → Vec α n → Except Err α) (g : Buffer α n 0) (K : Fin 13 → Vec α n)
      (itp : DopItp α n) (t0 : α) (y0 : Vec α n) (h first : Option α)
      (st : St α n 0 (FsalAux α n 11 (DopItp α n))) :
      dopInit c.toDopDense o sel g K itp rhs t0 y0 h first = .ok st → Constructed ⟨dop853 lib o c, rhs, b⟩ st
  | explicitMultistep {p : Nat} (c : MultistepCoef α p) (rhs : Rhs α n) (b : Bound α)
      (g : Buffer α n (histExtra p)) (bo : BisectOpts α) (argsort : List α → List Nat) (starter : Starter α n)
      (t0 : α) (y0 : Vec α n) (h : Option α) (st : St α n (histExtra p) Unit) :
      multistepInit g bo argsort starter rhs t0 y0 h = some (.ok st) → Constructed ⟨explicitMultistep c, rhs, b⟩ st
  | implicitMultistep {p : Nat} (lib : Lib α) (zo : ZeroOpts α) (c : MultistepCoef α p) (rhs : Rhs α n) (b : Bound α)
      (g : Buffer α n (histExtra p)) (bo : BisectOpts α) (argsort : List α → List Nat) (starter : Starter α n)
      (t0 : α) (y0 : Vec α n) (h : Option α) (st : St α n (histExtra p) Unit) :
      multistepInit g bo argsort starter rhs t0 y0 h = some (.ok st) →
      Constructed ⟨implicitMultistep lib zo c, rhs, b⟩ st

end Nbkode.Spec
