import Verif.Proofs.DenseOrder
import Verif.Proofs.TreeConditions

/-! # The order conditions of the dense outputs -/

set_option autoImplicit false
set_option maxRecDepth 100000

namespace Nbkode
open Spec

/-- All the conditions of a continuous extension up to order `p`. -/
def denseCheck {s d : ℕ} (A : Fin s → Fin s → ℚ) (P : Fin s → Fin d → ℚ) (p : ℕ) : Bool :=
  (List.range (p + 1)).all fun m => (Tree.trees A p m).all fun t => (List.finRange d).all fun j =>
    decide ((List.ofFn fun i => P i j * t.1 i).sum = if j.val + 1 = m then 1 / (t.2 : ℚ) else 0)

theorem dense_of_check {s d : ℕ} {A : Fin s → Fin s → ℚ} {P : Fin s → Fin d → ℚ} {p : ℕ}
    (h : denseCheck A P p = true) {A' : Fin s → Fin s → ℝ} {P' : Fin s → Fin d → ℝ}
    (hA : ∀ i j, A' i j = (A i j : ℝ)) (hP : ∀ i j, P' i j = (P i j : ℝ)) : DenseConditions A' P' p := by
  intro τ hτ m
  have h1 := List.all_eq_true.mp (List.all_eq_true.mp (List.all_eq_true.mp h τ.order (List.mem_range.mpr (by omega))) _
    (Tree.mem_trees A p τ hτ)) m (List.mem_finRange m)
  rw [decide_eq_true_eq, List.sum_ofFn] at h1
  simp only [hP, Tree.weight_cast hA]
  have h2 := congrArg (fun q : ℚ => (q : ℝ)) h1
  simp only at h2
  rw [apply_ite (fun q : ℚ => (q : ℝ))] at h2
  push_cast at h2
  exact h2

/-- The weights of cubic Hermite interpolation between the ends of a step, as a continuous extension of the tableau with the
derivative at the new point as an additional stage. -/
def hermiteP {α : Type} [Field α] {s : ℕ} (T : Tableau α s) (j : Fin (s + 2)) (m : Fin 3) : α :=
  let first : α := if j.val = 0 then 1 else 0
  let last : α := if j.val = s + 1 then 1 else 0
  match m with
  | 0 => first
  | 1 => 3 * (withLast T).B j - 2 * first - last
  | 2 => -2 * (withLast T).B j + first + last

theorem Runge2_dense : DenseConditions (withLast (Runge2 : Tableau ℝ 1)).A (hermiteP (Runge2 : Tableau ℝ 1)) 1 :=
  dense_of_check (A := (withLast (Runge2 : Tableau ℚ 1)).A) (P := hermiteP (Runge2 : Tableau ℚ 1)) (by decide +kernel)
    (by intro i j; fin_cases i <;> fin_cases j <;> simp [Runge2, withLast, q])
    (by intro i j; fin_cases i <;> fin_cases j <;> simp [hermiteP, Runge2, withLast, q])

theorem Runge3_dense : DenseConditions (withLast (Runge3 : Tableau ℝ 3)).A (hermiteP (Runge3 : Tableau ℝ 3)) 2 :=
  dense_of_check (A := (withLast (Runge3 : Tableau ℚ 3)).A) (P := hermiteP (Runge3 : Tableau ℚ 3)) (by decide +kernel)
    (by intro i j; fin_cases i <;> fin_cases j <;> simp [Runge3, withLast, q])
    (by intro i j; fin_cases i <;> fin_cases j <;> simp [hermiteP, Runge3, withLast, q])

theorem Heun3_dense : DenseConditions (withLast (Heun3 : Tableau ℝ 2)).A (hermiteP (Heun3 : Tableau ℝ 2)) 2 :=
  dense_of_check (A := (withLast (Heun3 : Tableau ℚ 2)).A) (P := hermiteP (Heun3 : Tableau ℚ 2)) (by decide +kernel)
    (by intro i j; fin_cases i <;> fin_cases j <;> simp [Heun3, withLast, q])
    (by intro i j; fin_cases i <;> fin_cases j <;> simp [hermiteP, Heun3, withLast, q])

theorem RungeKutta4_dense : DenseConditions (withLast (RungeKutta4 : Tableau ℝ 3)).A (hermiteP (RungeKutta4 : Tableau ℝ 3)) 3 :=
  dense_of_check (A := (withLast (RungeKutta4 : Tableau ℚ 3)).A) (P := hermiteP (RungeKutta4 : Tableau ℚ 3)) (by decide +kernel)
    (by intro i j; fin_cases i <;> fin_cases j <;> simp [RungeKutta4, withLast, q])
    (by intro i j; fin_cases i <;> fin_cases j <;> simp [hermiteP, RungeKutta4, withLast, q])

theorem RungeKutta3_8_dense : DenseConditions (withLast (RungeKutta3_8 : Tableau ℝ 3)).A (hermiteP (RungeKutta3_8 : Tableau ℝ 3)) 3 :=
  dense_of_check (A := (withLast (RungeKutta3_8 : Tableau ℚ 3)).A) (P := hermiteP (RungeKutta3_8 : Tableau ℚ 3)) (by decide +kernel)
    (by intro i j; fin_cases i <;> fin_cases j <;> simp [RungeKutta3_8, withLast, q])
    (by intro i j; fin_cases i <;> fin_cases j <;> simp [hermiteP, RungeKutta3_8, withLast, q])

theorem RungeKutta23_dense : DenseConditions (withLast (RungeKutta23 : FsalCoef ℝ 2 3).toTableau).A (RungeKutta23 : FsalCoef ℝ 2 3).P 2 :=
  dense_of_check (A := (withLast (RungeKutta23 : FsalCoef ℚ 2 3).toTableau).A) (P := (RungeKutta23 : FsalCoef ℚ 2 3).P) (by decide +kernel)
    (by intro i j; fin_cases i <;> fin_cases j <;> simp [RungeKutta23, withLast, q])
    (by intro i j; fin_cases i <;> fin_cases j <;> simp [RungeKutta23, q])

set_option maxHeartbeats 4000000 in
theorem RungeKutta45_dense : DenseConditions (withLast (RungeKutta45 : FsalCoef ℝ 5 4).toTableau).A (RungeKutta45 : FsalCoef ℝ 5 4).P 4 :=
  dense_of_check (A := (withLast (RungeKutta45 : FsalCoef ℚ 5 4).toTableau).A) (P := (RungeKutta45 : FsalCoef ℚ 5 4).P) (by decide +kernel)
    (by intro i j; fin_cases i <;> fin_cases j <;> simp [RungeKutta45, withLast, q])
    (by intro i j; fin_cases i <;> fin_cases j <;> simp [RungeKutta45, q])

end Nbkode
