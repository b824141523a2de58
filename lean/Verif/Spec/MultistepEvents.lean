import Verif.Spec.EventError
import Verif.Spec.MultistepRun

/-!
# The error of event times with a multistep method, over the real numbers
-/

set_option autoImplicit false

namespace Nbkode.Spec
open Nbkode Solver

variable {n p : Nat}

/-- What `run_events` records for the event `g` before `T` are almost zeros of `g` along the true solution `y`: if `f` is `q` times and
`g` once continuously differentiable and `y' = f(t, y)` on an open interval around `[t₀, T]`, then `|g(τ, y(τ))|` is at most
the tolerance of the search plus `C * (h^q + h / 2^maxiter)` at every recorded `τ`, for a solver just constructed for `f`, `t₀`, `y(t₀)`
with a small enough `h`; `C` depends on the problem only. -/
def StartRecordsZeros (init : Constructor n p) (cls : Rhs ℝ n → Solver ℝ n (histExtra p) Unit) (q : Nat) : Prop :=
  ∀ (f : ℝ → Vec ℝ n → Vec ℝ n) (y : ℝ → Vec ℝ n) (a b t₀ T : ℝ) (g : ℝ → Vec ℝ n → ℝ),
    ContDiff ℝ q (joint f) → a < t₀ → t₀ < T → T < b → (∀ t ∈ Set.Ioo a b, SolvesAt f y t) → ContDiff ℝ 1 (jointEvent g) →
    ∃ C δ, 0 < δ ∧ ∀ (bo : BisectOpts ℝ) (argsort : List ℝ → List Nat), 0 ≤ bo.tol → (∀ l, IsArgsort l (argsort l)) →
      ∀ (h : ℝ) (s s' : St ℝ n (histExtra p) Unit) (ts : List ℝ) (es : List (EventSpec ℝ n)) (o : RunOut ℝ n (histExtra p)),
        0 < h → h ≤ δ → init (pureRhs f) t₀ (y t₀) h = some (.ok s) →
        ((cls (pureRhs f)).runEvents bo argsort ts (some es)).run s = some (.ok o, s') →
        ∀ (i : Nat) e tl, es[i]? = some e → e.func = g → o.tEvents[i]? = some tl →
          ∀ τ ∈ tl, τ < T → |g τ (y τ)| ≤ bo.tol + C * (h ^ q + h / 2 ^ bo.maxiter)

/-- `run_events` finds the crossings of `g` along the true solution. Let `z` be a zero of `G(t) = g(t, y(t))` and the only one on
`[c, d]`, because `G` has a derivative without zeros there: positive for `σ = 1`, negative for `σ = -1`. If the solver gets to `d`,
and the direction asked for does not exclude the crossing, then it records a time in `[c, d]`; and every time it records there, whatever
the direction asked for, is within `C * (tol + h^q + h / 2^maxiter)` of `z`. -/
def StartFindsCrossings (init : Constructor n p) (cls : Rhs ℝ n → Solver ℝ n (histExtra p) Unit) (q : Nat) : Prop :=
  ∀ (f : ℝ → Vec ℝ n → Vec ℝ n) (y : ℝ → Vec ℝ n) (a b t₀ T : ℝ) (g : ℝ → Vec ℝ n → ℝ) (c z d σ : ℝ),
    ContDiff ℝ q (joint f) → a < t₀ → T < b → (∀ t ∈ Set.Ioo a b, SolvesAt f y t) → ContDiff ℝ 1 (jointEvent g) →
    t₀ ≤ c → c < z → z < d → d < T → g z (y z) = 0 → (σ = 1 ∨ σ = -1) →
    (∀ t ∈ Set.Icc c d, 0 < σ * deriv (fun t => g t (y t)) t) →
    ∃ C δ, 0 < δ ∧ ∀ (bo : BisectOpts ℝ) (argsort : List ℝ → List Nat), 0 ≤ bo.tol → (∀ l, IsArgsort l (argsort l)) →
      ∀ (h : ℝ) (s s' : St ℝ n (histExtra p) Unit) (ts : List ℝ) (es : List (EventSpec ℝ n)) (o : RunOut ℝ n (histExtra p)),
        0 < h → h ≤ δ → init (pureRhs f) t₀ (y t₀) h = some (.ok s) →
        ((cls (pureRhs f)).runEvents bo argsort ts (some es)).run s = some (.ok o, s') →
        ∀ (i : Nat) e tl, es[i]? = some e → e.func = g → o.tEvents[i]? = some tl →
          (d ≤ s'.t → (∀ x, e.direction = some x → 0 ≤ σ * x) → ∃ τ ∈ tl, c ≤ τ ∧ τ ≤ d) ∧
          ∀ τ ∈ tl, c ≤ τ → τ ≤ d → |τ - z| ≤ C * (bo.tol + h ^ q + h / 2 ^ bo.maxiter)

/-- The same for methods which solve an equation in each step with a root finder with tolerance `zo.tol`, which has to be small
compared with `h`; `f` has to be Lipschitz in `y`. -/
def StartRecordsZerosWithin (init : Constructor n p) (cls : ZeroOpts ℝ → Rhs ℝ n → Solver ℝ n (histExtra p) Unit) (q : Nat) : Prop :=
  ∀ (f : ℝ → Vec ℝ n → Vec ℝ n) (y : ℝ → Vec ℝ n) (a b t₀ T L : ℝ) (g : ℝ → Vec ℝ n → ℝ),
    ContDiff ℝ q (joint f) → a < t₀ → t₀ < T → T < b → (∀ t ∈ Set.Ioo a b, SolvesAt f y t) →
    (∀ t u v, (∀ d, |f t u d - f t v d| ≤ L * ‖(u - v : Fin n → ℝ)‖)) → ContDiff ℝ 1 (jointEvent g) →
    ∃ C δ, 0 < δ ∧ ∀ zo, RootOpts zo →
      ∀ (bo : BisectOpts ℝ) (argsort : List ℝ → List Nat), 0 ≤ bo.tol → (∀ l, IsArgsort l (argsort l)) →
      ∀ (h : ℝ) (s s' : St ℝ n (histExtra p) Unit) (ts : List ℝ) (es : List (EventSpec ℝ n)) (o : RunOut ℝ n (histExtra p)),
        0 < h → h ≤ δ → zo.tol / h ≤ δ → init (pureRhs f) t₀ (y t₀) h = some (.ok s) →
        ((cls zo (pureRhs f)).runEvents bo argsort ts (some es)).run s = some (.ok o, s') →
        ∀ (i : Nat) e tl, es[i]? = some e → e.func = g → o.tEvents[i]? = some tl →
          ∀ τ ∈ tl, τ < T → |g τ (y τ)| ≤ bo.tol + C * (h ^ q + zo.tol / h + h / 2 ^ bo.maxiter)

/-- The crossings found by such methods. -/
def StartFindsCrossingsWithin (init : Constructor n p) (cls : ZeroOpts ℝ → Rhs ℝ n → Solver ℝ n (histExtra p) Unit) (q : Nat) : Prop :=
  ∀ (f : ℝ → Vec ℝ n → Vec ℝ n) (y : ℝ → Vec ℝ n) (a b t₀ T L : ℝ) (g : ℝ → Vec ℝ n → ℝ) (c z d σ : ℝ),
    ContDiff ℝ q (joint f) → a < t₀ → T < b → (∀ t ∈ Set.Ioo a b, SolvesAt f y t) →
    (∀ t u v, (∀ d, |f t u d - f t v d| ≤ L * ‖(u - v : Fin n → ℝ)‖)) → ContDiff ℝ 1 (jointEvent g) →
    t₀ ≤ c → c < z → z < d → d < T → g z (y z) = 0 → (σ = 1 ∨ σ = -1) →
    (∀ t ∈ Set.Icc c d, 0 < σ * deriv (fun t => g t (y t)) t) →
    ∃ C δ, 0 < δ ∧ ∀ zo, RootOpts zo →
      ∀ (bo : BisectOpts ℝ) (argsort : List ℝ → List Nat), 0 ≤ bo.tol → (∀ l, IsArgsort l (argsort l)) →
      ∀ (h : ℝ) (s s' : St ℝ n (histExtra p) Unit) (ts : List ℝ) (es : List (EventSpec ℝ n)) (o : RunOut ℝ n (histExtra p)),
        0 < h → h ≤ δ → zo.tol / h ≤ δ → init (pureRhs f) t₀ (y t₀) h = some (.ok s) →
        ((cls zo (pureRhs f)).runEvents bo argsort ts (some es)).run s = some (.ok o, s') →
        ∀ (i : Nat) e tl, es[i]? = some e → e.func = g → o.tEvents[i]? = some tl →
          (d ≤ s'.t → (∀ x, e.direction = some x → 0 ≤ σ * x) → ∃ τ ∈ tl, c ≤ τ ∧ τ ≤ d) ∧
          ∀ τ ∈ tl, c ≤ τ → τ ≤ d → |τ - z| ≤ C * (bo.tol + h ^ q + zo.tol / h + h / 2 ^ bo.maxiter)

/-- Both together: the events of a method are those of the true solution, with an error of order `q`. -/
def StartEvents (init : Constructor n p) (cls : Rhs ℝ n → Solver ℝ n (histExtra p) Unit) (q : Nat) : Prop :=
  StartRecordsZeros init cls q ∧ StartFindsCrossings init cls q

/-- Both together, for implicit methods. -/
def StartEventsWithin (init : Constructor n p) (cls : ZeroOpts ℝ → Rhs ℝ n → Solver ℝ n (histExtra p) Unit) (q : Nat) : Prop :=
  StartRecordsZerosWithin init cls q ∧ StartFindsCrossingsWithin init cls q

end Nbkode.Spec
