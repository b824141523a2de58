import Verif.Spec.EventError
import Verif.Spec.Tolerance

/-!
# Event times and tolerance, over the real numbers
-/

set_option autoImplicit false

namespace Nbkode.Spec
open Nbkode Solver

variable {n k : Nat} {X : Type}

/-- What `run_events` records are zeros up to the tolerances. For a smooth problem along which the error estimate is sharp there are `C`,
`δ` and `ε` such that a solver just constructed at `(t₀, y t₀)` with tolerances below `ε` and a first step below `δ` records for the event
`g` only times `τ` at which `|g(τ, y(τ))|` is at most the tolerance of the search plus `C * (atol + rtol + 1 / 2^maxiter)`, as far as they
are before `t₁`; `y` is the true solution. `C` depends on the problem and on the bound `M` for `max_factor` only. -/
def ZerosFollowTolerance [BEq ℝ] (cls : VarOptions ℝ → Rhs ℝ n → Solver ℝ n k X)
    (starts : VarOptions ℝ → Rhs ℝ n → ℝ → Vec ℝ n → St ℝ n k X → Prop)
    (sharp : (ℝ → Vec ℝ n → Vec ℝ n) → (ℝ → Vec ℝ n) → ℝ → ℝ → Prop) (p : Nat) : Prop :=
  ∀ (f : ℝ → Vec ℝ n → Vec ℝ n) (y : ℝ → Vec ℝ n) (a b t₀ t₁ t₂ M : ℝ) (g : ℝ → Vec ℝ n → ℝ),
    ContDiff ℝ p (joint f) → a < t₀ → t₁ < t₂ → t₂ < b → (∀ t ∈ Set.Ioo a b, SolvesAt f y t) → sharp f y t₀ t₂ →
    ContDiff ℝ 1 (jointEvent g) →
    ∃ C δ ε, 0 < δ ∧ 0 < ε ∧ ∀ o, ShrinkingOptions o → o.maxFactor ≤ M → o.atol ≤ ε → o.rtol ≤ ε →
      ∀ (bo : BisectOpts ℝ) (argsort : List ℝ → List Nat), 0 ≤ bo.tol → (∀ l, IsArgsort l (argsort l)) →
      ∀ (s s' : St ℝ n k X) (ts : List ℝ) (es : List (EventSpec ℝ n)) (out : RunOut ℝ n k),
        starts o (pureRhs f) t₀ (y t₀) s → 0 < s.h → s.h ≤ δ →
        ((cls o (pureRhs f)).runEvents bo argsort ts (some es)).run s = some (.ok out, s') →
        ∀ (i : Nat) e tl, es[i]? = some e → e.func = g → out.tEvents[i]? = some tl →
          ∀ τ ∈ tl, τ < t₁ → |g τ (y τ)| ≤ bo.tol + C * (o.atol + o.rtol + 1 / 2 ^ bo.maxiter)

/-- `run_events` finds the crossings, up to the tolerances. Let `z` be a zero of `G(t) = g(t, y(t))` and the only one on `[c, d]`, because
`G` has a derivative without zeros there: positive for `σ = 1`, negative for `σ = -1`. If the solver gets to `d`, and the direction asked
for does not exclude the crossing, then it records a time in `[c, d]`; and every time it records there, whatever the direction asked for, is
within `C * (tol + atol + rtol + 1 / 2^maxiter)` of `z`. -/
def CrossingsFollowTolerance [BEq ℝ] (cls : VarOptions ℝ → Rhs ℝ n → Solver ℝ n k X)
    (starts : VarOptions ℝ → Rhs ℝ n → ℝ → Vec ℝ n → St ℝ n k X → Prop)
    (sharp : (ℝ → Vec ℝ n → Vec ℝ n) → (ℝ → Vec ℝ n) → ℝ → ℝ → Prop) (p : Nat) : Prop :=
  ∀ (f : ℝ → Vec ℝ n → Vec ℝ n) (y : ℝ → Vec ℝ n) (a b t₀ t₁ t₂ M : ℝ) (g : ℝ → Vec ℝ n → ℝ) (c z d σ : ℝ),
    ContDiff ℝ p (joint f) → a < t₀ → t₁ < t₂ → t₂ < b → (∀ t ∈ Set.Ioo a b, SolvesAt f y t) → sharp f y t₀ t₂ →
    ContDiff ℝ 1 (jointEvent g) → t₀ ≤ c → c < z → z < d → d < t₁ → g z (y z) = 0 → (σ = 1 ∨ σ = -1) →
    (∀ t ∈ Set.Icc c d, 0 < σ * deriv (fun t => g t (y t)) t) →
    ∃ C δ ε, 0 < δ ∧ 0 < ε ∧ ∀ o, ShrinkingOptions o → o.maxFactor ≤ M → o.atol ≤ ε → o.rtol ≤ ε →
      ∀ (bo : BisectOpts ℝ) (argsort : List ℝ → List Nat), 0 ≤ bo.tol → (∀ l, IsArgsort l (argsort l)) →
      ∀ (s s' : St ℝ n k X) (ts : List ℝ) (es : List (EventSpec ℝ n)) (out : RunOut ℝ n k),
        starts o (pureRhs f) t₀ (y t₀) s → 0 < s.h → s.h ≤ δ →
        ((cls o (pureRhs f)).runEvents bo argsort ts (some es)).run s = some (.ok out, s') →
        ∀ (i : Nat) e tl, es[i]? = some e → e.func = g → out.tEvents[i]? = some tl →
          (d ≤ s'.t → (∀ x, e.direction = some x → 0 ≤ σ * x) → ∃ τ ∈ tl, c ≤ τ ∧ τ ≤ d) ∧
          ∀ τ ∈ tl, c ≤ τ → τ ≤ d → |τ - z| ≤ C * (bo.tol + o.atol + o.rtol + 1 / 2 ^ bo.maxiter)

/-- A regular linear system with constant coefficients, and a solution which is not at rest at `t₀`: `y' = M y + c`, where `M v = 0` only for
`v = 0`, and `M y(t₀) + c ≠ 0`. -/
def MovingLinear (f : ℝ → Vec ℝ n → Vec ℝ n) (y : ℝ → Vec ℝ n) (t₀ _t₁ : ℝ) : Prop :=
  ∃ (M : Fin n → Fin n → ℝ) (c : Fin n → ℝ), (f = fun _ v i => ∑ j, M i j * v j + c i) ∧
    (∀ v : Vec ℝ n, (∀ i, ∑ j, M i j * v j = 0) → v = fun _ => 0) ∧ f t₀ (y t₀) ≠ fun _ => 0

end Nbkode.Spec
