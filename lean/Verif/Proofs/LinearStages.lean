import Verif.Spec.RungeKutta
import Mathlib.Algebra.Polynomial.Eval.Defs
import Mathlib.Algebra.Polynomial.Eval.SMul
import Mathlib.Algebra.Polynomial.Eval.Degree
import Mathlib.Data.Nat.Factorial.Basic
import Mathlib.Algebra.BigOperators.Intervals
import Mathlib.Algebra.BigOperators.Ring.Finset
import Mathlib.Tactic.Ring

/-! Stages on the linear test equation. -/

set_option autoImplicit false

namespace Nbkode
open Polynomial

variable {α : Type} [Field α] {m : Nat}

/-- `A^l 1`. -/
def powOnes (A : Fin m → Fin m → α) : Nat → Fin m → α
  | 0, _ => 1
  | l + 1, i => ∑ j, A i j * powOnes A l j

theorem powOnes_zero {A : Fin m → Fin m → α} (hA : ∀ i j, i ≤ j → A i j = 0) :
    ∀ (l : Nat) (i : Fin m), i.val < l → powOnes A l i = 0
  | 0, i, h => by omega
  | l + 1, i, h => by
    simp only [powOnes]
    refine Finset.sum_eq_zero fun j _ => ?_
    by_cases hij : i ≤ j
    · rw [hA i j hij, zero_mul]
    · rw [powOnes_zero hA l j (by rw [Fin.le_def] at hij; omega), mul_zero]

theorem linear_stages {A : Fin m → Fin m → α} (hA : ∀ i j, i ≤ j → A i j = 0) (c h y : α)
    (K : Fin m → α) (hK : ∀ i, K i = c * (y + h * ∑ j, A i j * K j)) (i : Fin m) :
    K i = c * y * ∑ l ∈ Finset.range m, (c * h) ^ l * powOnes A l i := by
  have main : ∀ b : Nat, ∀ i : Fin m, i.val < b →
      K i = c * y * ∑ l ∈ Finset.range m, (c * h) ^ l * powOnes A l i := by
    intro b
    induction b with
    | zero => intro i hi; omega
    | succ b ih =>
      intro i hi
      have hm : 0 < m := i.pos
      obtain ⟨m', rfl⟩ : ∃ m', m = m' + 1 := ⟨m - 1, by omega⟩
      have hs : ∑ j, A i j * K j =
          ∑ l ∈ Finset.range (m' + 1), c * y * (c * h) ^ l * powOnes A (l + 1) i := by
        have : ∀ j, A i j * K j =
            ∑ l ∈ Finset.range (m' + 1), c * y * (c * h) ^ l * (A i j * powOnes A l j) := by
          intro j
          by_cases hij : i ≤ j
          · simp [hA i j hij]
          · rw [ih j (by rw [Fin.le_def] at hij; omega), Finset.mul_sum, Finset.mul_sum]
            exact Finset.sum_congr rfl fun l _ => by ring
        simp only [this]
        rw [Finset.sum_comm]
        refine Finset.sum_congr rfl fun l _ => ?_
        rw [← Finset.mul_sum]; rfl
      rw [hK i, hs, Finset.sum_range_succ, powOnes_zero hA (m' + 1) i (by omega),
        Finset.sum_range_succ' (fun l => (c * h) ^ l * powOnes A l i)]
      simp only [powOnes, pow_zero, mul_zero, add_zero, mul_add, Finset.mul_sum, mul_one]
      rw [add_comm]
      congr 1
      refine Finset.sum_congr rfl fun l _ => Finset.sum_congr rfl fun j _ => by ring
  exact main (i.val + 1) i (by omega)

/-- Weighted sum of the stages. -/
theorem linear_weighted {A : Fin m → Fin m → α} (hA : ∀ i j, i ≤ j → A i j = 0) (w : Fin m → α)
    (c h y : α) (K : Fin m → α) (hK : ∀ i, K i = c * (y + h * ∑ j, A i j * K j)) :
    h * ∑ j, w j * K j =
      (∑ l ∈ Finset.range m, (c * h) ^ (l + 1) * ∑ j, w j * powOnes A l j) * y := by
  have : ∀ j, w j * K j = ∑ l ∈ Finset.range m, c * y * (c * h) ^ l * (w j * powOnes A l j) := by
    intro j
    rw [linear_stages hA c h y K hK j, Finset.mul_sum, Finset.mul_sum]
    exact Finset.sum_congr rfl fun l _ => by ring
  simp only [this]
  rw [Finset.sum_comm, Finset.mul_sum, Finset.sum_mul]
  refine Finset.sum_congr rfl fun l _ => ?_
  rw [← Finset.mul_sum]; ring

/-- The remainder polynomial of order `p`. -/
noncomputable def remainder (A : Fin m → Fin m → α) (w : Fin m → α) (p : Nat) : α[X] :=
  ∑ l ∈ Finset.range (m - p), C (∑ j, w j * powOnes A (p + l) j) * X ^ l

theorem weighted_split {A : Fin m → Fin m → α} (w : Fin m → α) (p : Nat) (hp : p ≤ m) (z : α) :
    ∑ l ∈ Finset.range m, z ^ (l + 1) * ∑ j, w j * powOnes A l j =
      ∑ l ∈ Finset.range p, z ^ (l + 1) * ∑ j, w j * powOnes A l j +
        z ^ (p + 1) * (remainder A w p).eval z := by
  obtain ⟨d, rfl⟩ := Nat.exists_eq_add_of_le hp
  rw [Finset.sum_range_add, remainder, eval_finset_sum, Finset.mul_sum]
  congr 1
  rw [show p + d - p = d by omega]
  refine Finset.sum_congr rfl fun l _ => ?_
  simp only [eval_mul, eval_C, eval_pow, eval_X]
  ring

end Nbkode
