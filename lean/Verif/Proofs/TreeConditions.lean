import Verif.Proofs.TreeList
import Verif.Proofs.LocalError
import Verif.Proofs.Trail
import Verif.Model.Tableaux
import Mathlib.Tactic.FinCases
import Mathlib.Tactic.NormNum

/-! # The order conditions of the registered tableaux -/

set_option autoImplicit false
set_option maxRecDepth 100000

namespace Nbkode
open Spec

theorem Runge2_tree : OrderConditions (Runge2 : Tableau ℝ 1).A (Runge2 : Tableau ℝ 1).B 2 :=
  Tree.orderConditions_of_check (A := (Runge2 : Tableau ℚ 1).A) (B := (Runge2 : Tableau ℚ 1).B) (by decide +kernel)
    (by intro i j; fin_cases i <;> fin_cases j <;> simp [Runge2, q])
    (by intro i; fin_cases i <;> simp [Runge2, q])

theorem Runge2_rows : RowSums (Runge2 : Tableau ℝ 1) := by
  intro i
  fin_cases i <;> simp [Fin.sum_univ_succ, Runge2, q] <;> norm_num

theorem Runge3_tree : OrderConditions (Runge3 : Tableau ℝ 3).A (Runge3 : Tableau ℝ 3).B 3 :=
  Tree.orderConditions_of_check (A := (Runge3 : Tableau ℚ 3).A) (B := (Runge3 : Tableau ℚ 3).B) (by decide +kernel)
    (by intro i j; fin_cases i <;> fin_cases j <;> simp [Runge3, q])
    (by intro i; fin_cases i <;> simp [Runge3, q])

theorem Runge3_rows : RowSums (Runge3 : Tableau ℝ 3) := by
  intro i
  fin_cases i <;> simp [Fin.sum_univ_succ, Runge3, q] <;> norm_num

theorem Heun3_tree : OrderConditions (Heun3 : Tableau ℝ 2).A (Heun3 : Tableau ℝ 2).B 3 :=
  Tree.orderConditions_of_check (A := (Heun3 : Tableau ℚ 2).A) (B := (Heun3 : Tableau ℚ 2).B) (by decide +kernel)
    (by intro i j; fin_cases i <;> fin_cases j <;> simp [Heun3, q])
    (by intro i; fin_cases i <;> simp [Heun3, q])

theorem Heun3_rows : RowSums (Heun3 : Tableau ℝ 2) := by
  intro i
  fin_cases i <;> simp [Fin.sum_univ_succ, Heun3, q] <;> norm_num

theorem RungeKutta4_tree : OrderConditions (RungeKutta4 : Tableau ℝ 3).A (RungeKutta4 : Tableau ℝ 3).B 4 :=
  Tree.orderConditions_of_check (A := (RungeKutta4 : Tableau ℚ 3).A) (B := (RungeKutta4 : Tableau ℚ 3).B) (by decide +kernel)
    (by intro i j; fin_cases i <;> fin_cases j <;> simp [RungeKutta4, q])
    (by intro i; fin_cases i <;> simp [RungeKutta4, q])

theorem RungeKutta4_rows : RowSums (RungeKutta4 : Tableau ℝ 3) := by
  intro i
  fin_cases i <;> simp [Fin.sum_univ_succ, RungeKutta4, q] <;> norm_num

theorem RungeKutta3_8_tree : OrderConditions (RungeKutta3_8 : Tableau ℝ 3).A (RungeKutta3_8 : Tableau ℝ 3).B 4 :=
  Tree.orderConditions_of_check (A := (RungeKutta3_8 : Tableau ℚ 3).A) (B := (RungeKutta3_8 : Tableau ℚ 3).B) (by decide +kernel)
    (by intro i j; fin_cases i <;> fin_cases j <;> simp [RungeKutta3_8, q])
    (by intro i; fin_cases i <;> simp [RungeKutta3_8, q])

theorem RungeKutta3_8_rows : RowSums (RungeKutta3_8 : Tableau ℝ 3) := by
  intro i
  fin_cases i <;> simp [Fin.sum_univ_succ, RungeKutta3_8, q] <;> norm_num

theorem RungeKutta23_tree : OrderConditions (RungeKutta23 : FsalCoef ℝ 2 3).toTableau.A (RungeKutta23 : FsalCoef ℝ 2 3).toTableau.B 3 :=
  Tree.orderConditions_of_check (A := (RungeKutta23 : FsalCoef ℚ 2 3).A) (B := (RungeKutta23 : FsalCoef ℚ 2 3).B) (by decide +kernel)
    (by intro i j; fin_cases i <;> fin_cases j <;> simp [RungeKutta23, q])
    (by intro i; fin_cases i <;> simp [RungeKutta23, q])

theorem RungeKutta23_rows : RowSums (RungeKutta23 : FsalCoef ℝ 2 3).toTableau := by
  intro i
  fin_cases i <;> simp [Fin.sum_univ_succ, RungeKutta23, q] <;> norm_num

theorem RungeKutta45_tree : OrderConditions (RungeKutta45 : FsalCoef ℝ 5 4).toTableau.A (RungeKutta45 : FsalCoef ℝ 5 4).toTableau.B 5 :=
  Tree.orderConditions_of_check (A := (RungeKutta45 : FsalCoef ℚ 5 4).A) (B := (RungeKutta45 : FsalCoef ℚ 5 4).B) (by decide +kernel)
    (by intro i j; fin_cases i <;> fin_cases j <;> simp [RungeKutta45, q])
    (by intro i; fin_cases i <;> simp [RungeKutta45, q])

theorem RungeKutta45_rows : RowSums (RungeKutta45 : FsalCoef ℝ 5 4).toTableau := by
  intro i
  fin_cases i <;> simp [Fin.sum_univ_succ, RungeKutta45, q] <;> norm_num

theorem withLast_rows {s : ℕ} {T : Tableau ℝ s} (hT : RowSums T) (hB : ∑ j, T.B j = 1) : RowSums (withLast T) := by
  intro i
  rw [Fin.sum_univ_castSucc]
  have h : ∀ x : Fin (s + 1), (x : ℕ) ≤ s := fun x => Nat.le_of_lt_succ x.2
  simp only [withLast]
  split
  · rename_i hi
    simpa [h] using hT ⟨i, hi⟩
  · simpa [h] using hB

theorem RungeKutta23_tree_estimate (τ : Tree) (hτ : τ.order ≤ 2) :
    ∑ i, (RungeKutta23 : FsalCoef ℝ 2 3).E i * τ.weight (withLast (RungeKutta23 : FsalCoef ℝ 2 3).toTableau).A i = 0 :=
  Tree.vanishing_of_check (A := (withLast (RungeKutta23 : FsalCoef ℚ 2 3).toTableau).A) (B := (RungeKutta23 : FsalCoef ℚ 2 3).E) (p := 2)
    (by decide +kernel)
    (by intro i j; fin_cases i <;> fin_cases j <;> simp [RungeKutta23, withLast, q])
    (by intro i; fin_cases i <;> simp [RungeKutta23, RungeKutta23B2, fsalE, q]) τ hτ

theorem RungeKutta45_tree_estimate (τ : Tree) (hτ : τ.order ≤ 4) :
    ∑ i, (RungeKutta45 : FsalCoef ℝ 5 4).E i * τ.weight (withLast (RungeKutta45 : FsalCoef ℝ 5 4).toTableau).A i = 0 :=
  Tree.vanishing_of_check (A := (withLast (RungeKutta45 : FsalCoef ℚ 5 4).toTableau).A) (B := (RungeKutta45 : FsalCoef ℚ 5 4).E) (p := 4)
    (by decide +kernel)
    (by intro i j; fin_cases i <;> fin_cases j <;> simp [RungeKutta45, withLast, q])
    (by intro i; fin_cases i <;> simp [RungeKutta45, q]) τ hτ

end Nbkode
