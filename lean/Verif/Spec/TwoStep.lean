import Verif.Spec.Multistep
import Verif.Spec.Methods
import Verif.Spec.Dissipative

/-!
# Stability of two-step methods on `y' = -lam y + g(t)`
-/

set_option autoImplicit false

namespace Nbkode.Spec
open Nbkode Solver

/-- The right-hand side `-lam y + g(t)`, for one component. -/
def decaying (lam : ℝ) (g : ℝ → ℝ) (t : ℝ) (y : Vec ℝ 1) : Vec ℝ 1 := fun i => -lam * y i + g t

/-- `u 0`, `u 1`, ... are reached by steps on `y' = -lam y + g(t)`. They start at `t₀` with step size `h`, and the two last points recorded there, at `t₀` and
`t₀ - h`, carry the derivatives belonging to their states. -/
structure TwoSteps (cls : Rhs ℝ 1 → Solver ℝ 1 (histExtra 1) Unit) (lam : ℝ) (g : ℝ → ℝ) (t₀ h : ℝ) (u : ℕ → St ℝ 1 (histExtra 1) Unit) : Prop where
  size : (u 0).h = h
  now : ago (u 0).cache.ts 0 = t₀
  before : ago (u 0).cache.ts 1 = t₀ - h
  slope : ∀ i < 2, ago (u 0).cache.fs i = decaying lam g (ago (u 0).cache.ts i) (ago (u 0).cache.ys i)
  takes : ∀ j, Takes (cls (pureRhs (decaying lam g))) (u j) (u (j + 1))

/-- The difference of two runs at the `j`-th step. -/
def gap (u v : ℕ → St ℝ 1 (histExtra 1) Unit) (j : ℕ) : ℝ := (u j).y 0 - (v j).y 0

/-- The difference of the two points recorded before the first. -/
def gapBefore (u v : ℕ → St ℝ 1 (histExtra 1) Unit) : ℝ := ago (u 0).cache.ys 1 0 - ago (v 0).cache.ys 1 0

/-- If `h lam` is below `s`, the difference of any two runs decays exponentially, as that of the exact solutions does. -/
def DecaysBelow (cls : Rhs ℝ 1 → Solver ℝ 1 (histExtra 1) Unit) (s : ℝ) : Prop :=
  ∀ x, 0 < x → x < s → ∃ K ρ, 0 < ρ ∧ ρ < 1 ∧ ∀ (lam : ℝ) (g : ℝ → ℝ) (t₀ h : ℝ) (u v : ℕ → St ℝ 1 (histExtra 1) Unit), h * lam = x →
    TwoSteps cls lam g t₀ h u → TwoSteps cls lam g t₀ h v → ∀ N, |gap u v N| ≤ K * ρ ^ N * (|gap u v 0| + |gapBefore u v|)

/-- If `h lam` is above `s`, it grows exponentially, whatever it is at the start: unless the two runs start alike. -/
def ExplodesAbove (cls : Rhs ℝ 1 → Solver ℝ 1 (histExtra 1) Unit) (s : ℝ) : Prop :=
  ∀ x, s < x → ∃ K ρ, 0 < K ∧ 1 < ρ ∧ ∀ (lam : ℝ) (g : ℝ → ℝ) (t₀ h : ℝ) (u v : ℕ → St ℝ 1 (histExtra 1) Unit), h * lam = x →
    TwoSteps cls lam g t₀ h u → TwoSteps cls lam g t₀ h v → ∀ N, K * ρ ^ N * (|gap u v 0| + |gapBefore u v|) ≤ |gap u v N| + |gap u v (N + 1)|

/-- If `h lam` is above `s`, it grows exponentially, unless the difference at the start is exactly `μ` times the one before, where `|μ| < 1`. -/
def GrowsAbove (cls : Rhs ℝ 1 → Solver ℝ 1 (histExtra 1) Unit) (s : ℝ) : Prop :=
  ∀ x, s < x → ∃ μ ρ, |μ| < 1 ∧ 1 < ρ ∧ ∀ (lam : ℝ) (g : ℝ → ℝ) (t₀ h : ℝ) (u v : ℕ → St ℝ 1 (histExtra 1) Unit), h * lam = x →
    TwoSteps cls lam g t₀ h u → TwoSteps cls lam g t₀ h v → ∀ N, ρ ^ N * |gap u v 0 - μ * gapBefore u v| ≤ |gap u v N| + |gap u v (N + 1)|

end Nbkode.Spec
