import Verif.Spec.RungeKutta
import Verif.Model.Solver
import Mathlib.Algebra.Polynomial.Derivative
import Mathlib.Algebra.Polynomial.BigOperators

/-!
What is asked of the dense output of the variable-step solvers. `b.ts (iPrev 0)`, `b.ys (iPrev 0)`, `b.fs (iPrev 0)` are the
last but one recorded time, state and derivative ("old"); `b.t`, `b.y`, `b.f` the last ones ("new").
-/

set_option autoImplicit false

namespace Nbkode.Spec
open Nbkode Polynomial

variable {α : Type} [Field α] [LinearOrder α] {n s : Nat} {X : Type}

/-- `K` are the stages of the last step recorded in `b`, including the derivative at its end, and the last recorded point
is the Runge-Kutta step they give. -/
structure LastStages (T : Tableau α s) (rhs : Rhs α n) (b : Buffer α n 0) (K : Fin (s + 2) → Vec α n) : Prop where
  stages : RKStages (withLast T) rhs (b.ts (Buffer.iPrev 0)) (b.t - b.ts (Buffer.iPrev 0))
    (b.ys (Buffer.iPrev 0)) K
  first : K 0 = b.fs (Buffer.iPrev 0)
  last : K (Fin.last _) = b.f
  new : b.y = rkNew (withLast T) (b.t - b.ts (Buffer.iPrev 0)) (b.ys (Buffer.iPrev 0)) K

/-- The stages `Kx` of DOP853 with the three additional ones of its dense output:
`k_e = f(t_old + c_e h, y_old + h * sum_j a_ej k_j)`, the sum being over the stages before `e`. -/
structure ExtraStages (d : DopDense α) (rhs : Rhs α n) (b : Buffer α n 0) (K : Fin 13 → Vec α n)
    (Kx : Fin 16 → Vec α n) : Prop where
  step : ∀ i : Fin 13, Kx ⟨i.val, by have := i.isLt; omega⟩ = K i
  extra : ∀ e : Fin 3, rhs (b.ts (Buffer.iPrev 0) + d.CExtra e * (b.t - b.ts (Buffer.iPrev 0)))
    (fun i => b.ys (Buffer.iPrev 0) i + (b.t - b.ts (Buffer.iPrev 0)) *
      ∑ j : Fin (13 + e.val), d.AExtra e ⟨j.val, by have := j.isLt; have := e.isLt; omega⟩ *
        Kx ⟨j.val, by have := j.isLt; have := e.isLt; omega⟩ i) =
    .ok (Kx ⟨13 + e.val, by have := e.isLt; omega⟩)

/-- `r i = p_i(t)` for whatever `interpolate` returns inside the last step. -/
def InterpolatedBy (S : Solver α n 0 X) (st : St α n 0 X) (p : Fin n → α[X]) : Prop :=
  ∀ t, st.cache.ts (Buffer.iPrev 0) ≤ t → t ≤ st.t →
    ∀ r st', (S.interpolate t).run st = some (.ok r, st') → ∀ i, r.deref st.cache i = (p i).eval t

/-- `interpolate` returns something at every time of the last step. -/
def Interpolates (S : Solver α n 0 X) (st : St α n 0 X) : Prop :=
  ∀ t, st.cache.ts (Buffer.iPrev 0) ≤ t → t ≤ st.t → ∃ r st', (S.interpolate t).run st = some (.ok r, st')

/-- `p` takes the old and the new state, with the old and the new derivative. -/
structure MatchesEnds (b : Buffer α n 0) (p : Fin n → α[X]) : Prop where
  start : ∀ i, (p i).eval (b.ts (Buffer.iPrev 0)) = b.ys (Buffer.iPrev 0) i
  start' : ∀ i, (derivative (p i)).eval (b.ts (Buffer.iPrev 0)) = b.fs (Buffer.iPrev 0) i
  stop : ∀ i, (p i).eval b.t = b.y i
  stop' : ∀ i, (derivative (p i)).eval b.t = b.f i

end Nbkode.Spec
