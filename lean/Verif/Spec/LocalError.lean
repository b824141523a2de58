import Verif.Spec.Stepping
import Verif.Spec.RungeKutta
import Verif.Spec.Trees
import Mathlib.Analysis.Calculus.ContDiff.Defs
import Mathlib.Analysis.Calculus.Deriv.Basic
import Mathlib.Analysis.Calculus.ContDiff.FTaylorSeries

/-!
# Order and convergence on smooth problems, over the real numbers
-/

set_option autoImplicit false

namespace Nbkode.Spec
open Nbkode Topology

variable {n k : Nat} {X : Type}

/-- The right-hand side as a function of `(t, y)`. -/
def joint (f : ℝ → Vec ℝ n → Vec ℝ n) (x : ℝ × (Fin n → ℝ)) : Fin n → ℝ := f x.1 x.2

/-- `y` satisfies `y' = f(t, y)` at time `t`. -/
def SolvesAt (f : ℝ → Vec ℝ n → Vec ℝ n) (y : ℝ → Vec ℝ n) (t : ℝ) : Prop :=
  HasDerivAt (F := Fin n → ℝ) y (f t (y t)) t

/-- The solver's state is the point of `y` at the solver's time, with its derivative. -/
structure On (f : ℝ → Vec ℝ n → Vec ℝ n) (y : ℝ → Vec ℝ n) (s : St ℝ n k X) : Prop where
  y : s.y = y s.t
  f : s.f = f s.t s.y

/-- Local error of order `p`: if `f` is `p` times continuously differentiable near `(t₀, y t₀)` and `y' = f(t, y)` near
`t₀`, then one step from a point of `y` ends within `C * |h|^(p+1)` of `y`, where `h` is how far the clock moved; `C` is
the same for all starting times near `t₀` and all small enough `h`. -/
def HasOrder (cls : Rhs ℝ n → Solver ℝ n k X) (p : Nat) : Prop :=
  ∀ (f : ℝ → Vec ℝ n → Vec ℝ n) (y : ℝ → Vec ℝ n) (t₀ : ℝ),
    ContDiffAt ℝ p (joint f) (t₀, y t₀) → (∀ᶠ t in 𝓝 t₀, SolvesAt f y t) →
    ∃ C δ, 0 < δ ∧ ∀ s s' : St ℝ n k X, On f y s → Takes (cls (pureRhs f)) s s' →
      |s.t - t₀| < δ → |s'.t - s.t| < δ → ∀ d, |s'.y d - y s'.t d| ≤ C * |s'.t - s.t| ^ (p + 1)

/-- The error estimate `h * sum_j E_j k_j` of a pair whose last stage is the derivative at the new point is at most
`C * |h|^(p+1)` along smooth solutions. -/
def EstimateOrder {s : Nat} (T : Tableau ℝ s) (E : Fin (s + 2) → ℝ) (p : Nat) : Prop :=
  ∀ (f : ℝ → Vec ℝ n → Vec ℝ n) (y : ℝ → Vec ℝ n) (t₀ : ℝ),
    ContDiffAt ℝ p (joint f) (t₀, y t₀) → (∀ᶠ t in 𝓝 t₀, SolvesAt f y t) →
    ∃ C δ, 0 < δ ∧ ∀ (t h : ℝ) (K : Fin (s + 2) → Vec ℝ n), |t - t₀| < δ → |h| < δ →
      RKStages (withLast T) (pureRhs f) t h (y t) K → ∀ d, |h * ∑ j, E j * K j d| ≤ C * |h| ^ (p + 1)

/-- The elementary differential of a tree: the root with `k` subtrees stands for `D^k g / k!` applied to the elementary
differentials of the subtrees. -/
noncomputable def elementary (g : Vec ℝ n → Vec ℝ n) (v : Vec ℝ n) : Tree → (Fin n → ℝ)
  | .node k c => ((k.factorial : ℝ)⁻¹ • iteratedFDeriv ℝ (E := Fin n → ℝ) (F := Fin n → ℝ) k g v)
      fun l => elementary g v (c l)

/-- Order `p` up to a defect `ε` of the coefficients, for `y' = g(y)`: the local error is at most `C * |h|^(p+1)` plus `ε`
times the sum of `|h|^|τ|` times the size of the elementary differential over the trees with at most `p` vertices. -/
def ApproximateOrder (cls : Rhs ℝ n → Solver ℝ n k X) (p : Nat) (ε : ℝ) : Prop :=
  ∀ (g : Vec ℝ n → Vec ℝ n) (y : ℝ → Vec ℝ n) (t₀ : ℝ) (S : Finset Tree), (∀ τ : Tree, τ.order ≤ p → τ ∈ S) →
    ContDiffAt ℝ p (E := Fin n → ℝ) (F := Fin n → ℝ) g (y t₀) → (∀ᶠ t in 𝓝 t₀, SolvesAt (fun _ => g) y t) →
    ∃ C δ, 0 < δ ∧ ∀ s s' : St ℝ n k X, On (fun _ => g) y s → Takes (cls (pureRhs fun _ => g)) s s' →
      |s.t - t₀| < δ → |s'.t - s.t| < δ → ∀ d, |s'.y d - y s'.t d| ≤ C * |s'.t - s.t| ^ (p + 1) +
        ε * ∑ τ ∈ S, |s'.t - s.t| ^ τ.order * ‖elementary g (y s.t) τ‖

/-- The same for an error estimate. -/
def ApproximateEstimate {s : Nat} (T : Tableau ℝ s) (E : Fin (s + 2) → ℝ) (p : Nat) (ε : ℝ) : Prop :=
  ∀ (g : Vec ℝ n → Vec ℝ n) (y : ℝ → Vec ℝ n) (t₀ : ℝ) (S : Finset Tree), (∀ τ : Tree, τ.order ≤ p → τ ∈ S) →
    ContDiffAt ℝ p (E := Fin n → ℝ) (F := Fin n → ℝ) g (y t₀) → (∀ᶠ t in 𝓝 t₀, SolvesAt (fun _ => g) y t) →
    ∃ C δ, 0 < δ ∧ ∀ (t h : ℝ) (K : Fin (s + 2) → Vec ℝ n), |t - t₀| < δ → |h| < δ →
      RKStages (withLast T) (pureRhs fun _ => g) t h (y t) K →
      ∀ d, |h * ∑ j, E j * K j d| ≤ C * |h| ^ (p + 1) + ε * ∑ τ ∈ S, |h| ^ τ.order * ‖elementary g (y t) τ‖

/-- Every step of the sequence moves the clock forward, by at most `H`. -/
def StepsUpTo (H : ℝ) (l : List (St ℝ n k X)) : Prop :=
  l.IsChain fun u v => 0 < v.t - u.t ∧ v.t - u.t ≤ H

/-- Convergence of order `p`: if `f` is `p` times continuously differentiable and `y' = f(t, y)` on an open interval around
`[t₀, T]`, then every sequence of steps which starts at `(t₀, y t₀)` stays within `C * H^p` of `y` up to `T`, where
`H` is the largest step; `C` depends on the problem only, not on the number of steps. -/
def Converges (cls : Rhs ℝ n → Solver ℝ n k X) (p : Nat) : Prop :=
  ∀ (f : ℝ → Vec ℝ n → Vec ℝ n) (y : ℝ → Vec ℝ n) (a b t₀ T : ℝ),
    ContDiff ℝ p (joint f) → a < t₀ → T < b → (∀ t ∈ Set.Ioo a b, SolvesAt f y t) →
    ∃ C δ, 0 < δ ∧ ∀ (H : ℝ) (s s' : St ℝ n k X) (l : List (St ℝ n k X)) (lim : Bound ℝ), H ≤ δ → s.t = t₀ → On f y s →
      Path (cls (pureRhs f)) lim s l s' → StepsUpTo H (s :: l) →
      ∀ u ∈ l, u.t ≤ T → ∀ d, |u.y d - y u.t d| ≤ C * H ^ p

end Nbkode.Spec
