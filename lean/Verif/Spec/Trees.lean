import Mathlib.Algebra.BigOperators.Fin
import Mathlib.Algebra.Field.Defs

/-!
# Rooted trees and the order conditions of Runge-Kutta methods

The classical order conditions (Butcher): a tableau has order `p` if for every rooted tree `τ` with at most `p` vertices
`∑ᵢ bᵢ Φᵢ(τ) = 1 / γ(τ)`. The children of a vertex are listed in some order; this repeats conditions but changes none.
-/

set_option autoImplicit false

namespace Nbkode.Spec

/-- A rooted tree: a root and the `k` subtrees hanging from it. -/
inductive Tree : Type where
  | node (k : ℕ) (c : Fin k → Tree)

namespace Tree

/-- The number of vertices. -/
def order : Tree → ℕ
  | node _ c => 1 + ∑ l, (c l).order

/-- `γ(τ)`: the product of the orders of all subtrees. -/
def density : Tree → ℕ
  | node _ c => (1 + ∑ l, (c l).order) * ∏ l, (c l).density

variable {α : Type} [Field α] {s : ℕ}

/-- `Φᵢ(τ)`: the elementary weight of stage `i`. -/
def weight (A : Fin s → Fin s → α) : Tree → Fin s → α
  | node _ c => fun i => ∏ l, ∑ j, A i j * weight A (c l) j

end Tree

/-- The order conditions up to order `p`. -/
def OrderConditions {α : Type} [Field α] {s : ℕ} (A : Fin s → Fin s → α) (B : Fin s → α) (p : ℕ) : Prop :=
  ∀ τ : Tree, τ.order ≤ p → ∑ i, B i * τ.weight A i = 1 / (τ.density : α)

end Nbkode.Spec
