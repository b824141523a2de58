import Verif.Spec.Rounded
import Verif.Spec.LocalError

/-!
# Accuracy with machine numbers

The program computes with machine numbers accurate up to `u` and `η`, and the user's right-hand side is a function on machine
numbers that is within `κ` of the function `f` the user means. -/

set_option autoImplicit false

namespace Nbkode.Spec
open Nbkode

variable {φ : Rounding} {n k : Nat}

/-- The real vector a vector of machine numbers stands for. -/
def Num.vals (v : Vec (Num φ) n) : Vec ℝ n := fun d => (v d).val

/-- On points up to size `R`, the machine's right-hand side `F` is within `κ` of `f`. -/
def Computes (F : Num φ → Vec (Num φ) n → Vec (Num φ) n) (f : ℝ → Vec ℝ n → Vec ℝ n) (κ R : ℝ) : Prop :=
  ∀ t v, |t.val| ≤ R → (∀ d, |(v d).val| ≤ R) → ∀ d, |(F t v d).val - f t.val (Num.vals v) d| ≤ κ

/-- Every step of the sequence moves the clock by at least `m` and at most `H`. -/
def StepsBetween {X : Type} (m H : ℝ) (l : List (St (Num φ) n k X)) : Prop :=
  l.IsChain fun u v => m ≤ v.t.val - u.t.val ∧ v.t.val - u.t.val ≤ H

/-- Accuracy of order `p` with machine numbers: if `f` is `p` times continuously differentiable and `y' = f(t, y)` on an open
interval around `[t₀, T]`, then every sequence of steps which starts at a time after `t₀` within `ε` of `y` stays up to `T` within
`C * (H^p + (u + η) / m + κ + ε)` of `y`, where `m` and `H` are the smallest and the largest step. `C` depends on the problem only:
not on the machine, nor on the number of steps. -/
def RoundedConverges {X : Rounding → Type} (cls : ∀ φ, Rhs (Num φ) n → Solver (Num φ) n k (X φ)) (p : Nat) : Prop :=
  ∀ (f : ℝ → Vec ℝ n → Vec ℝ n) (y : ℝ → Vec ℝ n) (a b t₀ T : ℝ),
    ContDiff ℝ p (joint f) → a < t₀ → T < b → (∀ t ∈ Set.Ioo a b, SolvesAt f y t) →
    ∃ C R δ, 0 < δ ∧ ∀ (φ : Rounding) (u η κ ε m H : ℝ) (F : Num φ → Vec (Num φ) n → Vec (Num φ) n),
      φ.Accurate u η → Computes F f κ R → 0 < m → u + η ≤ δ * m → H ≤ δ → κ ≤ δ → ε ≤ δ →
      ∀ (s s' : St (Num φ) n k (X φ)) (l : List (St (Num φ) n k (X φ))) (lim : Bound (Num φ)),
        t₀ ≤ s.t.val → (∀ d, |(s.y d).val - y s.t.val d| ≤ ε) → s.f = F s.t s.y →
        Path (cls φ (pureRhs F)) lim s l s' → StepsBetween m H (s :: l) →
        ∀ v ∈ l, v.t.val ≤ T → ∀ d, |(v.y d).val - y v.t.val d| ≤ C * (H ^ p + (u + η) / m + κ + ε)

end Nbkode.Spec
