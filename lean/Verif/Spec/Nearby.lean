import Verif.Spec.RunError
import Mathlib.Algebra.Polynomial.Eval.Defs

/-!
# Nearby problems and their answers
-/

set_option autoImplicit false

namespace Nbkode.Spec
open Nbkode

variable {n k : Nat} {X : Type}

/-- All components of two vectors differ by at most `D`. -/
def Within (D : ℝ) (y z : Vec ℝ n) : Prop := ∀ i, |y i - z i| ≤ D

/-- The derivative changes by at most `L` times the change of the state. -/
def SlopeBound (L : ℝ) (f : ℝ → Vec ℝ n → Vec ℝ n) : Prop :=
  ∀ t y z D, Within D y z → Within (L * D) (f t y) (f t z)

/-- Nearby problems get nearby answers. Two solvers of the class are constructed with the same step size `h ≤ H` at the same time, and their
initial states and right-hand sides differ by at most `ε`. Then their answers to `run`, at times up to `T` after the start, differ by at most `C ε`;
`C` depends only on `T`, on `H` and on the bound `L` for the slope of the right-hand side, not on the problems, the step size, `ε` or the times
requested. -/
def NearbyAnswers (cls : Rhs ℝ n → Solver ℝ n k X) (starts : Rhs ℝ n → ℝ → Vec ℝ n → St ℝ n k X → Prop) : Prop :=
  ∀ L T H : ℝ, 0 ≤ L → 0 ≤ T → 0 ≤ H → ∃ C, ∀ (f g : ℝ → Vec ℝ n → Vec ℝ n) (t0 : ℝ) (y0 z0 : Vec ℝ n) (ε : ℝ), 0 ≤ ε → SlopeBound L f →
    (∀ t y, Within ε (f t y) (g t y)) → Within ε y0 z0 →
    ∀ (bo : BisectOpts ℝ) (argsort : List ℝ → List Nat), (∀ l, IsArgsort l (argsort l)) →
    ∀ s s' u u' : St ℝ n k X, starts (pureRhs f) t0 y0 s → starts (pureRhs g) t0 z0 u → s.h = u.h → 0 < s.h → s.h ≤ H →
    ∀ (ts : List ℝ) (out out' : List (ℝ × Vec ℝ n)), ((cls (pureRhs f)).run bo argsort ts).run s = some (.ok out, s') →
      ((cls (pureRhs g)).run bo argsort ts).run u = some (.ok out', u') →
      ∀ p ∈ out, ∀ q ∈ out', p.1 = q.1 → p.1 ≤ t0 + T → Within (C * ε) p.2 q.2

/-- The answers of the class jump. There is a problem whose derivative is a polynomial in time, and two initial states as close as one likes to
each other, from which the solvers, constructed at time 0 with a first step of 1, step once and then differ by at least `gap` in their value of
`interpolate(1/2)`. -/
def AnswersJump (cls : Rhs ℝ 1 → Solver ℝ 1 k X) (starts : Rhs ℝ 1 → ℝ → Vec ℝ 1 → St ℝ 1 k X → Prop) : Prop :=
  ∃ (p : Polynomial ℝ) (y0 gap : ℝ), 0 < gap ∧ ∀ δ : ℝ, 0 < δ → ∃ z0, |y0 - z0| < δ ∧
    ∀ s u : St ℝ 1 k X, starts (pureRhs fun t _ _ => p.eval t) 0 (fun _ => y0) s → starts (pureRhs fun t _ _ => p.eval t) 0 (fun _ => z0) u →
      s.h = 1 → u.h = 1 → ∃ s' u' r r' s'' u'',
        Takes (cls (pureRhs fun t _ _ => p.eval t)) s s' ∧ Takes (cls (pureRhs fun t _ _ => p.eval t)) u u' ∧
        ((cls (pureRhs fun t _ _ => p.eval t)).interpolate (1/2)).run s' = some (.ok r, s'') ∧
        ((cls (pureRhs fun t _ _ => p.eval t)).interpolate (1/2)).run u' = some (.ok r', u'') ∧ gap ≤ |r.deref s'.cache 0 - r'.deref u'.cache 0|

end Nbkode.Spec
