import Verif.Spec.Nearby

/-!
# Solutions of one scalar equation do not cross
-/

set_option autoImplicit false

namespace Nbkode.Spec
open Nbkode

variable {k : Nat} {X : Type}

/-- Two solvers of the class are constructed at the same time for the same scalar equation, with the same step size `h ≤ H`, one
with a smaller initial value than the other. Then at every time that both are asked for, however late, the answer of the first is
smaller than that of the second. `H` depends only on the bound `L` for the slope of the right-hand side. -/
def KeepsOrder (cls : Rhs ℝ 1 → Solver ℝ 1 k X) (starts : Rhs ℝ 1 → ℝ → Vec ℝ 1 → St ℝ 1 k X → Prop) : Prop :=
  ∀ L : ℝ, 0 ≤ L → ∃ H : ℝ, 0 < H ∧ ∀ (f : ℝ → Vec ℝ 1 → Vec ℝ 1) (t0 : ℝ) (y0 z0 : Vec ℝ 1), SlopeBound L f → y0 0 < z0 0 →
    ∀ (bo : BisectOpts ℝ) (argsort : List ℝ → List Nat), (∀ l, IsArgsort l (argsort l)) →
    ∀ s s' u u' : St ℝ 1 k X, starts (pureRhs f) t0 y0 s → starts (pureRhs f) t0 z0 u → s.h = u.h → 0 < s.h → s.h ≤ H →
    ∀ (ts ts' : List ℝ) (out out' : List (ℝ × Vec ℝ 1)), ((cls (pureRhs f)).run bo argsort ts).run s = some (.ok out, s') →
      ((cls (pureRhs f)).run bo argsort ts').run u = some (.ok out', u') →
      ∀ p ∈ out, ∀ q ∈ out', p.1 = q.1 → p.2 0 < q.2 0

end Nbkode.Spec
