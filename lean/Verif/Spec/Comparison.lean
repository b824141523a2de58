import Verif.Spec.Nearby
import Mathlib.Topology.Instances.Real.Lemmas

/-!
# A larger derivative gives a larger solution
-/

set_option autoImplicit false

namespace Nbkode.Spec
open Nbkode

variable {k : Nat} {X : Type}

/-- Two solvers of the class are constructed at the same time with the same step size `h ≤ H`, for two scalar equations of which the
second has the larger derivative everywhere, the first with the smaller initial value. Then after any number of steps the state of
the first is at most that of the second. `H` depends only on the bound `L` for the slope of the first right-hand side. -/
def KeepsComparison (cls : Rhs ℝ 1 → Solver ℝ 1 k X) (starts : Rhs ℝ 1 → ℝ → Vec ℝ 1 → St ℝ 1 k X → Prop) : Prop :=
  ∀ L : ℝ, 0 ≤ L → ∃ H : ℝ, 0 < H ∧ ∀ (f g : ℝ → Vec ℝ 1 → Vec ℝ 1) (t0 : ℝ) (y0 z0 : Vec ℝ 1), SlopeBound L f →
    (∀ t y, f t y 0 ≤ g t y 0) → y0 0 ≤ z0 0 →
    ∀ s u : St ℝ 1 k X, starts (pureRhs f) t0 y0 s → starts (pureRhs g) t0 z0 u → s.h = u.h → 0 < s.h → s.h ≤ H →
    ∀ l l' v w, Path (cls (pureRhs f)) (cls (pureRhs f)).tBound s l v → Path (cls (pureRhs g)) (cls (pureRhs g)).tBound u l' w →
      l.length = l'.length → v.t = w.t ∧ v.y 0 ≤ w.y 0

/-- However small the step `h`, there is a scalar equation `y' = g(t, y)` with a derivative larger than that of `y' = -y` everywhere,
and continuous, on which the class steps from 0 to a value below that to which it steps on `y' = -y`. -/
def LosesComparison (cls : Rhs ℝ 1 → Solver ℝ 1 k X) (starts : Rhs ℝ 1 → ℝ → Vec ℝ 1 → St ℝ 1 k X → Prop) : Prop :=
  ∀ h : ℝ, 0 < h → ∃ g : ℝ → Vec ℝ 1 → Vec ℝ 1, Continuous (fun p : ℝ × Vec ℝ 1 => g p.1 p.2) ∧ (∀ t y, -y 0 ≤ g t y 0) ∧
    ∀ s u : St ℝ 1 k X, starts (pureRhs fun _ y i => -y i) 0 0 s → starts (pureRhs g) 0 0 u → s.h = h → u.h = h →
      ∃ s' u', Takes (cls (pureRhs fun _ y i => -y i)) s s' ∧ Takes (cls (pureRhs g)) u u' ∧ s'.t = u'.t ∧ u'.y 0 < s'.y 0

/-- However small the step `h`, there is an equation `y' = g(t)` with a continuous `g` that is never negative, on which a solver of the class,
constructed with `y(0) = 0`, answers a run up to the middle of the first step with a negative value. On `y' = 0` the value is 0. -/
def FallsInRun (cls : Rhs ℝ 1 → Solver ℝ 1 k X) (starts : Rhs ℝ 1 → ℝ → Vec ℝ 1 → St ℝ 1 k X → Prop) : Prop :=
  ∀ h : ℝ, 0 < h → ∃ g : ℝ → ℝ, Continuous g ∧ (∀ t, 0 ≤ g t) ∧
    ∀ (bo : BisectOpts ℝ) (argsort : List ℝ → List Nat), (∀ l, IsArgsort l (argsort l)) →
    ∀ u : St ℝ 1 k X, starts (pureRhs fun t _ _ => g t) 0 0 u → u.h = h →
      ∃ y u', ((cls (pureRhs fun t _ _ => g t)).run bo argsort [h / 2]).run u = some (.ok [(h / 2, y)], u') ∧ y 0 < 0

end Nbkode.Spec
