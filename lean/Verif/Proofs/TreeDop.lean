import Verif.Proofs.TreeConditions

/-! # The order conditions of DOP853, whose coefficients are decimal fractions -/

set_option autoImplicit false
set_option maxRecDepth 100000

namespace Nbkode
open Spec

set_option maxHeartbeats 4000000 in
theorem dopA_cast (i j : Fin 12) : (DOP853 : DopCoef ℝ).toTableau.A i j = (((DOP853 : DopCoef ℚ).toTableau.A i j : ℚ) : ℝ) := by
  show (dopA i j : ℝ) = ((dopA i j : ℚ) : ℝ)
  fin_cases i <;> fin_cases j <;> simp [dopA, q]

theorem dopB_cast (i : Fin 12) : (DOP853 : DopCoef ℝ).toTableau.B i = (((DOP853 : DopCoef ℚ).toTableau.B i : ℚ) : ℝ) := by
  show (dopB i : ℝ) = ((dopB i : ℚ) : ℝ)
  fin_cases i <;> simp [dopB, q]

theorem DOP853_check : Tree.check (DOP853 : DopCoef ℚ).toTableau.A (DOP853 : DopCoef ℚ).toTableau.B
    (fun g => 1 / (g : ℚ)) (3 / 10 ^ 29) 8 = true := by decide +kernel

theorem DOP853_tree (τ : Tree) (hτ : τ.order ≤ 8) :
    |∑ i, (DOP853 : DopCoef ℝ).toTableau.B i * τ.weight (DOP853 : DopCoef ℝ).toTableau.A i - 1 / (τ.density : ℝ)| ≤
      3 / 10 ^ 29 := by
  have := Tree.cast_check (α := ℝ) DOP853_check dopA_cast dopB_cast τ hτ
  push_cast at this
  exact this

theorem withLast_cast {s : ℕ} {T : Tableau ℝ s} {T' : Tableau ℚ s} (hA : ∀ i j, T.A i j = (T'.A i j : ℝ))
    (hB : ∀ i, T.B i = (T'.B i : ℝ)) (i j : Fin (s + 2)) : (withLast T).A i j = (((withLast T').A i j : ℚ) : ℝ) := by
  simp only [withLast]
  split
  · split
    · exact hA _ _
    · exact hB _
  · simp

theorem DOP853_check3 : Tree.check (withLast (DOP853 : DopCoef ℚ).toTableau).A (DOP853 : DopCoef ℚ).E3
    (fun _ => 0) (2 / 10 ^ 29) 3 = true := by decide +kernel

theorem DOP853_check5 : Tree.check (withLast (DOP853 : DopCoef ℚ).toTableau).A (DOP853 : DopCoef ℚ).E5
    (fun _ => 0) (5 / 10 ^ 28) 5 = true := by decide +kernel

theorem dopE3_cast (i : Fin 13) : (DOP853 : DopCoef ℝ).E3 i = (((DOP853 : DopCoef ℚ).E3 i : ℚ) : ℝ) := by
  show (dopE3 i : ℝ) = ((dopE3 i : ℚ) : ℝ)
  fin_cases i <;> simp [dopE3, dopB, q]

theorem dopE5_cast (i : Fin 13) : (DOP853 : DopCoef ℝ).E5 i = (((DOP853 : DopCoef ℚ).E5 i : ℚ) : ℝ) := by
  show (dopE5 i : ℝ) = ((dopE5 i : ℚ) : ℝ)
  fin_cases i <;> simp [dopE5, q]

theorem DOP853_tree3 (τ : Tree) (hτ : τ.order ≤ 3) :
    |∑ i, (DOP853 : DopCoef ℝ).E3 i * τ.weight (withLast (DOP853 : DopCoef ℝ).toTableau).A i| ≤ 2 / 10 ^ 29 := by
  have := Tree.cast_check (α := ℝ) DOP853_check3 (withLast_cast dopA_cast dopB_cast) dopE3_cast τ hτ
  push_cast at this
  rwa [sub_zero] at this

theorem DOP853_tree5 (τ : Tree) (hτ : τ.order ≤ 5) :
    |∑ i, (DOP853 : DopCoef ℝ).E5 i * τ.weight (withLast (DOP853 : DopCoef ℝ).toTableau).A i| ≤ 5 / 10 ^ 28 := by
  have := Tree.cast_check (α := ℝ) DOP853_check5 (withLast_cast dopA_cast dopB_cast) dopE5_cast τ hτ
  push_cast at this
  rwa [sub_zero] at this

/-- The rows of `A` sum to the nodes up to rounding. -/
theorem DOP853_rows (i : Fin 12) :
    |∑ j, (DOP853 : DopCoef ℝ).toTableau.A i j - (DOP853 : DopCoef ℝ).toTableau.C i| ≤ 6 / 10 ^ 29 := by
  have h : ∀ i : Fin 12, |∑ j, (DOP853 : DopCoef ℚ).toTableau.A i j - (DOP853 : DopCoef ℚ).toTableau.C i| ≤ 6 / 10 ^ 29 := by
    decide +kernel
  have hC : (DOP853 : DopCoef ℝ).toTableau.C i = (((DOP853 : DopCoef ℚ).toTableau.C i : ℚ) : ℝ) := by
    fin_cases i <;> simp [DOP853, dopC, q]
  have e : ∑ j, (DOP853 : DopCoef ℝ).toTableau.A i j - (DOP853 : DopCoef ℝ).toTableau.C i =
      ((∑ j, (DOP853 : DopCoef ℚ).toTableau.A i j - (DOP853 : DopCoef ℚ).toTableau.C i : ℚ) : ℝ) := by
    push_cast
    rw [hC]
    congr 1
    exact Finset.sum_congr rfl fun j _ => dopA_cast i j
  have h1 := (Rat.cast_le (K := ℝ)).mpr (h i)
  rw [Rat.cast_abs] at h1
  rw [e]
  refine h1.trans (le_of_eq ?_)
  push_cast
  rfl

end Nbkode
