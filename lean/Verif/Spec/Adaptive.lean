import Verif.Spec.RungeKutta
import Mathlib.Algebra.Order.Field.Basic

/-!
# Textbook description of an adaptive Runge-Kutta step

A step tries step sizes until the estimated error is below tolerance. `Trail` is the list of what was tried.
-/

set_option autoImplicit false

namespace Nbkode.Spec
open Nbkode

variable {α : Type} [Field α] [LinearOrder α] {n s : Nat}

/-- The state proposed by an attempt with stages `K` (the last of them the derivative at the proposal). -/
def proposal (T : Tableau α s) (h : α) (y : Vec α n) (K : Fin (s + 2) → Vec α n) : Vec α n :=
  rkNew T h y fun i => K i.castSucc

/-- Root mean square of `err_i / (atol + rtol * max(|y_i|, |y_new_i|))`. -/
def rmsError (lib : Lib α) (o : VarOptions α) (y yNew err : Vec α n) : α :=
  lib.sqrt ((∑ i, (err i / (o.atol + o.rtol * max |yNew i| |y i|)) ^ 2) / (n : α))

/-- The factor by which an attempt with error norm `en` changes the step size: `max_factor` for a zero error,
otherwise `safety / en^ex` limited to `[min_factor, max_factor]`. -/
def StepFactor (lib : Lib α) (o : VarOptions α) (ex en q : α) : Prop :=
  (en = 0 ∧ q = o.maxFactor) ∨
  (en ≠ 0 ∧ lib.pow en ex ≠ 0 ∧
    q = min o.maxFactor (max o.minFactor (o.safetyFactor / lib.pow en ex)))

/-- What happens to one attempted size. -/
structure Tried (α : Type) where
  size : α
  norm : α

/-- `Trail ... h l h' K`: starting with step size `h`, the attempts `l` (sizes and error norms) are made from the
point `(t, y)`; all but the last have an error norm of at least 1, the last is below 1 (or zero); each size is the
previous one times its factor; `h'` is the last size times its factor and `K` are the stages of the last
attempt. -/
inductive Trail (lib : Lib α) (o : VarOptions α) (ex : α) (T : Tableau α s) (norm : ErrNorm α n s)
    (rhs : Rhs α n) (t : α) (y : Vec α n) :
    α → List (Tried α) → α → (Fin (s + 2) → Vec α n) → Prop
  | accept {h en q : α} {K : Fin (s + 2) → Vec α n} :
      RKStages (withLast T) rhs t h y K →
      norm h K (proposal T h y K) y = .ok en → (en = 0 ∨ en < 1) → StepFactor lib o ex en q →
      Trail lib o ex T norm rhs t y h [⟨h, en⟩] (h * q) K
  | reject {h en q h' : α} {K K' : Fin (s + 2) → Vec α n} {l : List (Tried α)} :
      RKStages (withLast T) rhs t h y K →
      norm h K (proposal T h y K) y = .ok en → (en ≠ 0 ∧ 1 ≤ en) → StepFactor lib o ex en q →
      Trail lib o ex T norm rhs t y (h * q) l h' K' →
      Trail lib o ex T norm rhs t y h (⟨h, en⟩ :: l) h' K'

end Nbkode.Spec
