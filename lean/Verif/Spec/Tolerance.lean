import Verif.Spec.Controller
import Verif.Spec.RunError
import Verif.Spec.LocalError

/-!
# Error and tolerance
-/

set_option autoImplicit false

namespace Nbkode.Spec
open Nbkode

variable {n k : Nat} {X : Type}

/-- The estimate `h * sum_j E_j k_j` of a pair is sharp along `y`: for small `h` some component of it is at least `κ * h^p`, so it does
see the error of order `p` everywhere. -/
def SharpEstimate {s : Nat} (T : Tableau ℝ s) (E : Fin (s + 2) → ℝ) (p : Nat) (f : ℝ → Vec ℝ n → Vec ℝ n) (y : ℝ → Vec ℝ n)
    (t₀ t₁ : ℝ) : Prop :=
  ∃ κ δ : ℝ, 0 < κ ∧ 0 < δ ∧ ∀ (t h : ℝ) (K : Fin (s + 2) → Vec ℝ n), t ∈ Set.Icc t₀ t₁ → 0 < h → h ≤ δ →
    RKStages (withLast T) (pureRhs f) t h (y t) K → ∃ d, κ * h ^ p ≤ |h * ∑ j, E j * K j d|

/-- The elementary differential of a tree for `z' = F(z)`: the root with `k` subtrees stands for `D^k F / k!` applied to those of the
subtrees. -/
noncomputable def differential {E : Type} [NormedAddCommGroup E] [NormedSpace ℝ E] (F : E → E) (v : E) : Tree → E
  | .node k c => ((k.factorial : ℝ)⁻¹ • iteratedFDeriv ℝ k F v) fun l => differential F v (c l)

/-- The first term of the expansion of `h * sum_j W_j k_j` in powers of `h`, which is that of `h^p` and a sum over the trees with `p`
vertices, does not vanish along `y` (for the system `(t, y)' = (1, f(t, y))`). -/
def PrincipalNonzero {s : Nat} (T : Tableau ℝ s) (W : Fin (s + 1) → ℝ) (p : Nat) (f : ℝ → Vec ℝ n → Vec ℝ n) (y : ℝ → Vec ℝ n)
    (t₀ t₁ : ℝ) : Prop :=
  ∀ t ∈ Set.Icc t₀ t₁, ∀ S : Finset Tree, (∀ τ : Tree, τ ∈ S ↔ τ.order = p) →
    ∑ τ ∈ S, (∑ i, W i * τ.weight T.A i) •
      differential (E := ℝ × (Fin n → ℝ)) (fun z => (1, f z.1 z.2)) (t, y t) τ ≠ 0

/-- The error is proportional to the tolerance: for a smooth problem along which the estimate is sharp there are `C`, `δ` and `τ` such
that a solver with tolerances below `τ` and a first step below `δ` stays within `C * (atol + rtol)` of the solution up to the time `t₁`.
The constants depend on the problem and on a bound `M` for `max_factor` only. -/
def ErrorFollowsTolerance (cls : VarOptions ℝ → Rhs ℝ n → Solver ℝ n k X)
    (sharp : (ℝ → Vec ℝ n → Vec ℝ n) → (ℝ → Vec ℝ n) → ℝ → ℝ → Prop) (p : Nat) : Prop :=
  ∀ (f : ℝ → Vec ℝ n → Vec ℝ n) (y : ℝ → Vec ℝ n) (a b t₀ t₁ M : ℝ),
    ContDiff ℝ p (joint f) → a < t₀ → t₁ < b → (∀ t ∈ Set.Ioo a b, SolvesAt f y t) → sharp f y t₀ t₁ →
    ∃ C δ τ, 0 < δ ∧ 0 < τ ∧ ∀ o, ShrinkingOptions o → o.maxFactor ≤ M → o.atol ≤ τ → o.rtol ≤ τ →
      ∀ (s s' : St ℝ n k X) (l : List (St ℝ n k X)) (lim : Bound ℝ), s.t = t₀ → On f y s → 0 < s.h → s.h ≤ δ →
      Path (cls o (pureRhs f)) lim s l s' → ∀ u ∈ l, u.t ≤ t₁ → ∀ d, |u.y d - y u.t d| ≤ C * (o.atol + o.rtol)

/-- The same for what `run` returns, on a solver just constructed: every value up to the time `t₁` is within `C * (atol + rtol)` of the
solution. The last step may end after `t₁`, so the estimate must be sharp until some later time `t₂`. -/
def RunFollowsTolerance (cls : VarOptions ℝ → Rhs ℝ n → Solver ℝ n k X)
    (starts : VarOptions ℝ → Rhs ℝ n → ℝ → Vec ℝ n → St ℝ n k X → Prop)
    (sharp : (ℝ → Vec ℝ n → Vec ℝ n) → (ℝ → Vec ℝ n) → ℝ → ℝ → Prop) (p : Nat) : Prop :=
  ∀ (f : ℝ → Vec ℝ n → Vec ℝ n) (y : ℝ → Vec ℝ n) (a b t₀ t₁ t₂ M : ℝ),
    ContDiff ℝ p (joint f) → a < t₀ → t₁ < t₂ → t₂ < b → (∀ t ∈ Set.Ioo a b, SolvesAt f y t) → sharp f y t₀ t₂ →
    ∃ C δ τ, 0 < δ ∧ 0 < τ ∧ ∀ o, ShrinkingOptions o → o.maxFactor ≤ M → o.atol ≤ τ → o.rtol ≤ τ →
      ∀ (bo : BisectOpts ℝ) (argsort : List ℝ → List Nat), (∀ l, IsArgsort l (argsort l)) →
      ∀ (s s' : St ℝ n k X) (ts : List ℝ) (out : List (ℝ × Vec ℝ n)),
        starts o (pureRhs f) t₀ (y t₀) s → 0 < s.h → s.h ≤ δ →
        ((cls o (pureRhs f)).run bo argsort ts).run s = some (.ok out, s') →
        ∀ r ∈ out, r.1 ≤ t₁ → ∀ d, |r.2 d - y r.1 d| ≤ C * (o.atol + o.rtol)

/-- A linear system with constant coefficients: `y' = M y + c`. -/
def LinearSystem (f : ℝ → Vec ℝ n → Vec ℝ n) : Prop :=
  ∃ (M : Fin n → Fin n → ℝ) (c : Fin n → ℝ), f = fun _ v i => ∑ j, M i j * v j + c i

end Nbkode.Spec
