import Verif.Spec.RunError
import Verif.Spec.Stepping
import Mathlib.Topology.Instances.Real.Lemmas

/-!
# A component does not move faster than its derivative allows
-/

set_option autoImplicit false

namespace Nbkode.Spec
open Nbkode

variable {n k : Nat} {X : Type}

/-- Let component `i` of the derivative be at least `a` (at most `a`) everywhere. Then between any two points that a solver of the class,
constructed with a positive step, reaches one after the other, component `i` of the state rises by at least (at most) `a` times the
time between them. With `a = 0`: a component whose derivative is never negative never falls. -/
def KeepsSpeedLimit (cls : Rhs ℝ n → Solver ℝ n k X) (starts : Rhs ℝ n → ℝ → Vec ℝ n → St ℝ n k X → Prop) : Prop :=
  ∀ (f : ℝ → Vec ℝ n → Vec ℝ n) (t0 : ℝ) (y0 : Vec ℝ n) (i : Fin n) (a : ℝ) (s u v : St ℝ n k X) (l l' : List (St ℝ n k X)),
    starts (pureRhs f) t0 y0 s → 0 < s.h → Path (cls (pureRhs f)) (cls (pureRhs f)).tBound s l u →
    Path (cls (pureRhs f)) (cls (pureRhs f)).tBound u l' v →
    ((∀ t y, a ≤ f t y i) → a * (v.t - u.t) ≤ v.y i - u.y i) ∧ ((∀ t y, f t y i ≤ a) → v.y i - u.y i ≤ a * (v.t - u.t))

/-- Whatever the step size `h`, there is an equation `y' = g(t)` with a continuous `g` that is never negative, on which the step of size `h`
from the initial value `y(0) = 0` is accepted and leads to a negative value. -/
def FallsOnRise (cls : Rhs ℝ 1 → Solver ℝ 1 k X) : Prop :=
  ∀ h : ℝ, 0 < h → ∃ g : ℝ → ℝ, Continuous g ∧ (∀ t, 0 ≤ g t) ∧
    ∀ s : St ℝ 1 k X, s.t = 0 → s.y = 0 → s.f = (fun _ => g 0) → s.h = h → ∃ s', Takes (cls (pureRhs fun t _ _ => g t)) s s' ∧ s'.y 0 < 0

/-- The same for a step of a multistep solver that stands where its start-up leaves it: it was constructed at time 0 with step size `h`, and its
history holds the times `0, h, 2 h, ...` and the derivatives there. -/
def FallsAfterStart (cls : Rhs ℝ 1 → Solver ℝ 1 k X) : Prop :=
  ∀ h : ℝ, 0 < h → ∃ g : ℝ → ℝ, Continuous g ∧ (∀ t, 0 ≤ g t) ∧
    ∀ s : St ℝ 1 k X, (∀ i, s.cache.ts i = i.val * h) → (∀ i, s.cache.fs i = fun _ => g (s.cache.ts i)) → s.h = h →
      ∃ s', Takes (cls (pureRhs fun t _ _ => g t)) s s' ∧ s'.y 0 < s.y 0

end Nbkode.Spec
