import Verif.Spec.MultistepError
import Verif.Spec.Run

/-!
# The error of `run` with a multistep method, over the real numbers
-/

set_option autoImplicit false

namespace Nbkode.Spec
open Nbkode

variable {n p : Nat}

/-- `run` converges with order `q`: if `f` is `q` times continuously differentiable and `y' = f(t, y)` on an open interval around
`[t₀, T]`, then whatever `run` returns for a time up to `T`, on a solver just constructed for `f`, `t₀`, `y(t₀)` with a small enough
`h`, is within `C * h^q` of `y` at that time; `C` depends on the problem only, not on the times requested, their number or `h`. -/
def RunStartConverges (init : Constructor n p) (cls : Rhs ℝ n → Solver ℝ n (histExtra p) Unit) (q : Nat) : Prop :=
  ∀ (f : ℝ → Vec ℝ n → Vec ℝ n) (y : ℝ → Vec ℝ n) (a b t₀ T : ℝ),
    ContDiff ℝ q (joint f) → a < t₀ → t₀ < T → T < b → (∀ t ∈ Set.Ioo a b, SolvesAt f y t) →
    ∃ C δ, 0 < δ ∧ ∀ (bo : BisectOpts ℝ) (argsort : List ℝ → List Nat), (∀ l, IsArgsort l (argsort l)) →
      ∀ (h : ℝ) (s s' : St ℝ n (histExtra p) Unit) (ts : List ℝ) (out : List (ℝ × Vec ℝ n)),
        0 < h → h ≤ δ → init (pureRhs f) t₀ (y t₀) h = some (.ok s) →
        ((cls (pureRhs f)).run bo argsort ts).run s = some (.ok out, s') →
        ∀ r ∈ out, r.1 ≤ T → ∀ d, |r.2 d - y r.1 d| ≤ C * h ^ q

/-- The same for methods which solve an equation in each step with a root finder with tolerance `tol`; `f` has to be Lipschitz in
`y`. The constants do not depend on the tolerance. -/
def RunStartConvergesWithin (init : Constructor n p) (cls : ZeroOpts ℝ → Rhs ℝ n → Solver ℝ n (histExtra p) Unit) (q : Nat) : Prop :=
  ∀ (f : ℝ → Vec ℝ n → Vec ℝ n) (y : ℝ → Vec ℝ n) (a b t₀ T L : ℝ),
    ContDiff ℝ q (joint f) → a < t₀ → t₀ < T → T < b → (∀ t ∈ Set.Ioo a b, SolvesAt f y t) →
    (∀ t u v, (∀ d, |f t u d - f t v d| ≤ L * ‖(u - v : Fin n → ℝ)‖)) →
    ∃ C δ, 0 < δ ∧ ∀ zo, RootOpts zo → ∀ (bo : BisectOpts ℝ) (argsort : List ℝ → List Nat), (∀ l, IsArgsort l (argsort l)) →
      ∀ (h : ℝ) (s s' : St ℝ n (histExtra p) Unit) (ts : List ℝ) (out : List (ℝ × Vec ℝ n)),
        0 < h → h ≤ δ → init (pureRhs f) t₀ (y t₀) h = some (.ok s) →
        ((cls zo (pureRhs f)).run bo argsort ts).run s = some (.ok out, s') →
        ∀ r ∈ out, r.1 ≤ T → ∀ d, |r.2 d - y r.1 d| ≤ C * (h ^ q + zo.tol / h)

end Nbkode.Spec
