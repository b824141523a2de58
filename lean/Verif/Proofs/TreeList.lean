import Verif.Spec.Trees
import Verif.Proofs.Trees
import Mathlib.Algebra.BigOperators.Fin
import Mathlib.Data.Rat.Cast.CharZero
import Mathlib.Data.List.OfFn
import Mathlib.Data.Rat.Cast.Order

/-! # The order conditions, tree by tree

A complete list of the weights and densities of the trees of each order, so that the conditions of a given
tableau are finitely many equations between rational numbers. -/

set_option autoImplicit false

namespace Nbkode.Spec.Tree

variable {s : ℕ}

/-- Elementary weights and density. -/
abbrev Data (s : ℕ) : Type := (Fin s → ℚ) × ℕ

/-- Prepend a tree to a forest. -/
def Data.graft (A : Fin s → Fin s → ℚ) (a b : Data s) : Data s :=
  (fun i => (List.ofFn fun j => A i j * a.1 j).sum * b.1 i, a.2 * b.2)

/-- The forests with `m` vertices in all, whose trees are taken from `tr`. -/
def forests (A : Fin s → Fin s → ℚ) (tr : ℕ → List (Data s)) : ℕ → ℕ → List (Data s)
  | _, 0 => [(fun _ => 1, 1)]
  | 0, _ + 1 => []
  | f + 1, m + 1 => (List.range (m + 1)).flatMap fun k => (tr (k + 1)).flatMap fun a =>
      (forests A tr f (m - k)).map fun b => a.graft A b

/-- The trees with `m` vertices (`m` up to the first argument). -/
def trees (A : Fin s → Fin s → ℚ) : ℕ → ℕ → List (Data s)
  | 0, _ => []
  | _ + 1, 0 => []
  | N + 1, m + 1 => (forests A (trees A N) m m).map fun d => (d.1, (m + 1) * d.2)

theorem mem_forests (A : Fin s → Fin s → ℚ) (tr : ℕ → List (Data s)) :
    ∀ (k : ℕ) (c : Fin k → Tree) (f : ℕ), (∀ l, ((c l).weight A, (c l).density) ∈ tr (c l).order) →
      ∑ l, (c l).order ≤ f →
      ((fun i => ∏ l, ∑ j, A i j * (c l).weight A j, ∏ l, (c l).density) : Data s) ∈
        forests A tr f (∑ l, (c l).order) := by
  intro k
  induction k with
  | zero => intro c f _ _; cases f <;> simp [forests]
  | succ k ih =>
    intro c f hc hf
    rw [Fin.sum_univ_succ] at hf ⊢
    have h0 := (c 0).order_pos
    obtain ⟨m, hm⟩ : ∃ m, (c 0).order = m + 1 := ⟨(c 0).order - 1, by omega⟩
    obtain ⟨f', rfl⟩ : ∃ f', f = f' + 1 := ⟨f - 1, by omega⟩
    have h1 := ih (fun l => c l.succ) f' (fun l => hc _) (by omega)
    have e : (c 0).order + ∑ l : Fin k, (c l.succ).order = (m + ∑ l : Fin k, (c l.succ).order) + 1 := by omega
    rw [e, forests]
    refine List.mem_flatMap.mpr ⟨m, List.mem_range.mpr (by omega), List.mem_flatMap.mpr
      ⟨((c 0).weight A, (c 0).density), ?_, List.mem_map.mpr
      ⟨(fun i => ∏ l : Fin k, ∑ j, A i j * (c l.succ).weight A j, ∏ l : Fin k, (c l.succ).density), ?_, ?_⟩⟩⟩
    · rw [← hm]; exact hc 0
    · rw [Nat.add_sub_cancel_left]; exact h1
    · simp only [Data.graft, Fin.prod_univ_succ, List.sum_ofFn]

theorem mem_trees (A : Fin s → Fin s → ℚ) : ∀ (N : ℕ) (τ : Tree), τ.order ≤ N →
    (τ.weight A, τ.density) ∈ trees A N τ.order := by
  intro N
  induction N with
  | zero => intro τ h; have := τ.order_pos; omega
  | succ N ih =>
    intro τ h
    obtain ⟨k, c⟩ := τ
    simp only [order, density, weight] at h ⊢
    rw [add_comm 1 (∑ l, (c l).order)] at h ⊢
    rw [trees]
    refine List.mem_map.mpr ⟨_, mem_forests A (trees A N) k c _ (fun l => ih _ ?_) le_rfl, rfl⟩
    have := Finset.single_le_sum (f := fun l => (c l).order) (fun _ _ => Nat.zero_le _) (Finset.mem_univ l)
    omega

/-- All the conditions up to order `p`, with defect at most `ε`. -/
def check (A : Fin s → Fin s → ℚ) (B : Fin s → ℚ) (target : ℕ → ℚ) (ε : ℚ) (p : ℕ) : Bool :=
  (List.range (p + 1)).all fun m => (trees A p m).all fun d =>
    decide (|(List.ofFn fun i => B i * d.1 i).sum - target d.2| ≤ ε)

theorem of_check {A : Fin s → Fin s → ℚ} {B : Fin s → ℚ} {target : ℕ → ℚ} {ε : ℚ} {p : ℕ}
    (h : check A B target ε p = true) (τ : Tree) (hτ : τ.order ≤ p) :
    |∑ i, B i * τ.weight A i - target τ.density| ≤ ε := by
  have h1 := List.all_eq_true.mp (List.all_eq_true.mp h τ.order (List.mem_range.mpr (by omega))) _ (mem_trees A p τ hτ)
  rw [decide_eq_true_eq, List.sum_ofFn] at h1
  exact h1

section
variable {α : Type} [Field α] [LinearOrder α] [IsStrictOrderedRing α]

theorem weight_cast {A : Fin s → Fin s → ℚ} {A' : Fin s → Fin s → α} (hA : ∀ i j, A' i j = (A i j : α)) :
    ∀ (τ : Tree) (i : Fin s), τ.weight A' i = ((τ.weight A i : ℚ) : α)
  | node k c, i => by
    simp only [weight]
    push_cast
    exact Finset.prod_congr rfl fun l _ => Finset.sum_congr rfl fun j _ => by rw [hA, weight_cast hA (c l) j]

theorem cast_check {A : Fin s → Fin s → ℚ} {B : Fin s → ℚ} {target : ℕ → ℚ} {ε : ℚ} {p : ℕ}
    (h : check A B target ε p = true) {A' : Fin s → Fin s → α} {B' : Fin s → α}
    (hA : ∀ i j, A' i j = (A i j : α)) (hB : ∀ i, B' i = (B i : α)) (τ : Tree) (hτ : τ.order ≤ p) :
    |∑ i, B' i * τ.weight A' i - ((target τ.density : ℚ) : α)| ≤ (ε : α) := by
  have h1 := of_check h τ hτ
  have e : ∑ i, B' i * τ.weight A' i - ((target τ.density : ℚ) : α) =
      ((∑ i, B i * τ.weight A i - target τ.density : ℚ) : α) := by
    push_cast
    congr 1
    exact Finset.sum_congr rfl fun i _ => by rw [hB, weight_cast hA]
  rw [e]
  exact_mod_cast h1

/-- Exact conditions. -/
theorem orderConditions_of_check {A : Fin s → Fin s → ℚ} {B : Fin s → ℚ} {p : ℕ}
    (h : check A B (fun g => 1 / (g : ℚ)) 0 p = true) {A' : Fin s → Fin s → α} {B' : Fin s → α}
    (hA : ∀ i j, A' i j = (A i j : α)) (hB : ∀ i, B' i = (B i : α)) : OrderConditions A' B' p := fun τ hτ => by
  have h1 := cast_check h hA hB τ hτ
  push_cast at h1
  exact sub_eq_zero.mp (abs_nonpos_iff.mp h1)

theorem vanishing_of_check {A : Fin s → Fin s → ℚ} {B : Fin s → ℚ} {p : ℕ}
    (h : check A B (fun _ => 0) 0 p = true) {A' : Fin s → Fin s → α} {B' : Fin s → α}
    (hA : ∀ i j, A' i j = (A i j : α)) (hB : ∀ i, B' i = (B i : α)) (τ : Tree) (hτ : τ.order ≤ p) :
    ∑ i, B' i * τ.weight A' i = 0 := by
  have h1 := cast_check h hA hB τ hτ
  push_cast at h1
  exact by simpa using h1
end

end Nbkode.Spec.Tree
