import Mathlib.Algebra.Polynomial.Derivative
import Mathlib.Algebra.Polynomial.Taylor
import Mathlib.Algebra.BigOperators.Fin
import Mathlib.Algebra.Order.Field.Basic
import Mathlib.Tactic.Ring
import Mathlib.Tactic.FieldSimp

/-! Quadrature conditions imply exactness on polynomials. -/

set_option autoImplicit false

namespace Nbkode
open Polynomial

variable {α : Type} [Field α]

/-- `h * sum_j b_j G'(t + c_j h)` in terms of the Taylor coefficients of `G` at `t`. -/
theorem quadrature_expand {m : Nat} (b c : Fin m → α) (G : α[X]) (p : Nat) (hG : G.natDegree ≤ p)
    (t h : α) :
    h * ∑ j, b j * (derivative G).eval (t + c j * h) =
      ∑ k ∈ Finset.range p, (taylor t G).coeff (k + 1) * h ^ (k + 1) *
        ((k + 1 : Nat) * ∑ j, b j * c j ^ k) := by
  have e : ∀ x : α, (derivative G).eval (t + x) =
      ∑ k ∈ Finset.range p, (taylor t G).coeff (k + 1) * (k + 1 : Nat) * x ^ k := by
    intro x
    have h1 : (derivative G).eval (t + x) = (derivative (taylor t G)).eval x := by
      rw [taylor_apply, derivative_comp, eval_mul, eval_comp]; simp [add_comm]
    rw [h1, derivative_eval, sum_def]
    have hd : (taylor t G).natDegree ≤ p := by rw [natDegree_taylor]; exact hG
    have : ∀ f : ℕ → α → α, (∀ i, f i 0 = 0) →
        ∑ i ∈ (taylor t G).support, f i ((taylor t G).coeff i) =
        ∑ i ∈ Finset.range (p + 1), f i ((taylor t G).coeff i) := by
      intro f hf
      exact (Polynomial.sum_over_range' (taylor t G) hf (p + 1) (by omega))
    rw [this (fun i a => a * i * x ^ (i - 1)) (by simp), Finset.sum_range_succ']
    simp
  simp only [e, Finset.mul_sum]
  rw [Finset.sum_comm]
  refine Finset.sum_congr rfl fun k _ => Finset.sum_congr rfl fun j _ => ?_
  rw [mul_pow]; ring

theorem increment_expand (G : α[X]) (p : Nat) (hG : G.natDegree ≤ p) (t h : α) :
    G.eval (t + h) - G.eval t =
      ∑ k ∈ Finset.range p, (taylor t G).coeff (k + 1) * h ^ (k + 1) := by
  have h1 : G.eval (t + h) = (taylor t G).eval h := by rw [taylor_eval, add_comm]
  have hd : (taylor t G).natDegree ≤ p := by rw [natDegree_taylor]; exact hG
  rw [h1, eval_eq_sum_range' (n := p + 1) (by omega), Finset.sum_range_succ']
  simp

/-- The quadrature conditions up to order `p` give exactness for polynomials of degree `<= p`. -/
theorem quadrature_exact [CharZero α] {m : Nat} (b c : Fin m → α) (p : Nat)
    (hq : ∀ k < p, ∑ j, b j * c j ^ k = 1 / ((k : α) + 1)) (G : α[X]) (hG : G.natDegree ≤ p)
    (t h : α) :
    h * ∑ j, b j * (derivative G).eval (t + c j * h) = G.eval (t + h) - G.eval t := by
  rw [quadrature_expand b c G p hG, increment_expand G p hG]
  refine Finset.sum_congr rfl fun k hk => ?_
  rw [hq k (Finset.mem_range.mp hk)]
  have : ((k : α) + 1) ≠ 0 := by exact_mod_cast Nat.succ_ne_zero k
  push_cast
  field_simp

/-- Vanishing moments up to order `p` annihilate polynomials of degree `<= p`. -/
theorem quadrature_zero {m : Nat} (b c : Fin m → α) (p : Nat)
    (hq : ∀ k < p, ∑ j, b j * c j ^ k = 0) (G : α[X]) (hG : G.natDegree ≤ p) (t h : α) :
    h * ∑ j, b j * (derivative G).eval (t + c j * h) = 0 := by
  rw [quadrature_expand b c G p hG]
  refine Finset.sum_eq_zero fun k hk => ?_
  rw [hq k (Finset.mem_range.mp hk)]; ring

end Nbkode
