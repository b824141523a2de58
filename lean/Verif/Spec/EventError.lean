import Verif.Spec.RunError
import Verif.Spec.Events

/-!
# The error of event times, over the real numbers
-/

set_option autoImplicit false

namespace Nbkode.Spec
open Nbkode Solver

variable {n k : Nat} {X : Type}

/-- The event function as a function of the pair `(t, y)`. -/
def jointEvent (g : ℝ → Vec ℝ n → ℝ) (x : ℝ × (Fin n → ℝ)) : ℝ := g x.1 x.2

/-- What `run_events` records for the event `g` before `T` are almost zeros of `g` along the true solution `y`: if `f` is `p` times and
`g` once continuously differentiable and `y' = f(t, y)` on an open interval around `[t₀, T]`, then `|g(τ, y(τ))|` is at most
the tolerance of the search plus `C * (H^p + H / 2^maxiter)` at every recorded `τ`, for a solver just constructed at `(t₀, y t₀)`, where
`H` bounds the steps made before `T`; `C` depends on the problem only. -/
def RecordsZeros [BEq ℝ] (cls : Rhs ℝ n → Solver ℝ n k X) (starts : Rhs ℝ n → ℝ → Vec ℝ n → St ℝ n k X → Prop) (p : Nat) : Prop :=
  ∀ (f : ℝ → Vec ℝ n → Vec ℝ n) (y : ℝ → Vec ℝ n) (a b t₀ T : ℝ) (g : ℝ → Vec ℝ n → ℝ),
    ContDiff ℝ p (joint f) → a < t₀ → T < b → (∀ t ∈ Set.Ioo a b, SolvesAt f y t) → ContDiff ℝ 1 (jointEvent g) →
    ∃ C δ, 0 < δ ∧ ∀ (bo : BisectOpts ℝ) (argsort : List ℝ → List Nat), 0 ≤ bo.tol → (∀ l, IsArgsort l (argsort l)) →
      ∀ (H : ℝ) (s0 s' : St ℝ n k X) (ts : List ℝ) (es : List (EventSpec ℝ n)) (o : RunOut ℝ n k),
        starts (pureRhs f) t₀ (y t₀) s0 → 0 < s0.h → 0 ≤ H → H ≤ δ → LargestStep (cls (pureRhs f)) s0 T H →
        ((cls (pureRhs f)).runEvents bo argsort ts (some es)).run s0 = some (.ok o, s') →
        ∀ (i : Nat) e tl, es[i]? = some e → e.func = g → o.tEvents[i]? = some tl →
          ∀ τ ∈ tl, τ < T → |g τ (y τ)| ≤ bo.tol + C * (H ^ p + H / 2 ^ bo.maxiter)

/-- `run_events` finds the crossings of `g` along the true solution. Let `z` be a zero of `G(t) = g(t, y(t))` and the only one on
`[c, d]`, because `G` has a derivative without zeros there: positive for `σ = 1`, negative for `σ = -1`. If the solver gets to `d`,
and the direction asked for does not exclude the crossing, then it records a time in `[c, d]`; and every time it records there, whatever
the direction asked for, is within `C * (tol + H^p + H / 2^maxiter)` of `z`. -/
def FindsCrossings [BEq ℝ] (cls : Rhs ℝ n → Solver ℝ n k X) (starts : Rhs ℝ n → ℝ → Vec ℝ n → St ℝ n k X → Prop) (p : Nat) : Prop :=
  ∀ (f : ℝ → Vec ℝ n → Vec ℝ n) (y : ℝ → Vec ℝ n) (a b t₀ T : ℝ) (g : ℝ → Vec ℝ n → ℝ) (c z d σ : ℝ),
    ContDiff ℝ p (joint f) → a < t₀ → T < b → (∀ t ∈ Set.Ioo a b, SolvesAt f y t) → ContDiff ℝ 1 (jointEvent g) →
    t₀ ≤ c → c < z → z < d → d < T → g z (y z) = 0 → (σ = 1 ∨ σ = -1) →
    (∀ t ∈ Set.Icc c d, 0 < σ * deriv (fun t => g t (y t)) t) →
    ∃ C δ, 0 < δ ∧ ∀ (bo : BisectOpts ℝ) (argsort : List ℝ → List Nat), 0 ≤ bo.tol → (∀ l, IsArgsort l (argsort l)) →
      ∀ (H : ℝ) (s0 s' : St ℝ n k X) (ts : List ℝ) (es : List (EventSpec ℝ n)) (o : RunOut ℝ n k),
        starts (pureRhs f) t₀ (y t₀) s0 → 0 < s0.h → 0 ≤ H → H ≤ δ → LargestStep (cls (pureRhs f)) s0 T H →
        ((cls (pureRhs f)).runEvents bo argsort ts (some es)).run s0 = some (.ok o, s') →
        ∀ (i : Nat) e tl, es[i]? = some e → e.func = g → o.tEvents[i]? = some tl →
          (d ≤ s'.t → (∀ x, e.direction = some x → 0 ≤ σ * x) → ∃ τ ∈ tl, c ≤ τ ∧ τ ≤ d) ∧
          ∀ τ ∈ tl, c ≤ τ → τ ≤ d → |τ - z| ≤ C * (bo.tol + H ^ p + H / 2 ^ bo.maxiter)

end Nbkode.Spec
