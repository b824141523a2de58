import Verif.Spec.TwoStep

/-!
# Stability of multistep methods on stiff problems `y' = -lam y + g(t)`
-/

set_option autoImplicit false

namespace Nbkode.Spec
open Nbkode Solver

variable {p : Nat}

/-- `u 0`, `u 1`, ... are reached by steps on `y' = -lam y + g(t)`, starting at time `t₀` with step size `h` and any history. -/
structure StepsOn (cls : Rhs ℝ 1 → Solver ℝ 1 (histExtra p) Unit) (lam : ℝ) (g : ℝ → ℝ) (t₀ h : ℝ) (u : ℕ → St ℝ 1 (histExtra p) Unit) : Prop where
  size : (u 0).h = h
  now : (u 0).t = t₀
  takes : ∀ j, Takes (cls (pureRhs (decaying lam g))) (u j) (u (j + 1))

/-- For all `lam > 0` and all step sizes `h > 0`, however large `h lam`: a step is possible from everywhere, and the difference of any two runs decays
exponentially, as that of the exact solutions does, at a rate and with a constant that depend on `h lam` only. -/
def StableAtEveryStep (cls : Rhs ℝ 1 → Solver ℝ 1 (histExtra p) Unit) : Prop :=
  ∀ x, 0 < x → ∃ K ρ, 0 < ρ ∧ ρ < 1 ∧ ∀ (lam : ℝ) (g : ℝ → ℝ) (h : ℝ), h * lam = x →
    (∀ st, st.h = h → ∃ st', st'.h = h ∧ Takes (cls (pureRhs (decaying lam g))) st st') ∧
    ∀ (t₀ : ℝ) (u v : ℕ → St ℝ 1 (histExtra p) Unit), StepsOn cls lam g t₀ h u → StepsOn cls lam g t₀ h v →
      ∀ N, |(u N).y 0 - (v N).y 0| ≤ K * ρ ^ N * ∑ i ∈ Finset.range (p + 1), |ago (u 0).cache.ys i 0 - ago (v 0).cache.ys i 0|

end Nbkode.Spec
