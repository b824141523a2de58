import Verif.Proofs.MethodShape
import Mathlib.Algebra.BigOperators.Fin
import Mathlib.Algebra.Field.Defs
import Mathlib.Tactic.Ring

/-! The Runge-Kutta stage loop computes the solution of the stage equations. -/

set_option autoImplicit false
set_option linter.unusedSectionVars false

namespace Nbkode
open Py Spec

section lawless
variable {α : Type}
variable [Add α] [Sub α] [Mul α] [Div α] [Neg α] [Zero α] [One α] [NatCast α] [BEq α]
variable [LT α] [DecidableLT α] [LE α] [DecidableLE α]
variable {n : Nat}

theorem rowDot_congr {s m : Nat} (hm : s + 1 ≤ m) (A : Fin (s + 1) → Fin (s + 1) → α)
    (K K' : Fin m → Vec α n) (i : Fin (s + 1)) (h : ∀ j : Fin m, j.val < i.val → K j = K' j) :
    rowDot hm A K i = rowDot hm A K' i := by
  unfold rowDot
  congr 1
  funext j
  exact h _ j.isLt

theorem stageLoop_ok {s m : Nat} (hm : s + 1 ≤ m) (T : Tableau α s) (rhs : Rhs α n) (t h : α)
    (y : Vec α n) (r : Nat) (p : Nat) (hp : p + r = s + 1) (K K' : Fin m → Vec α n) :
    (stageLoop hm T rhs t h y ((List.finRange (s + 1)).drop p)).run K = some (.ok (), K') ↔
      (∀ j : Fin m, j.val < p → K' j = K j) ∧
      (∀ i : Fin (s + 1), p ≤ i.val →
        rhs (t + h * T.C i) (y + scale h (rowDot hm T.A K' i)) = .ok (K' (Fin.castLE hm i))) ∧
      (∀ j : Fin m, s + 1 ≤ j.val → K' j = K j) := by
  induction r generalizing p K with
  | zero =>
    have : (List.finRange (s + 1)).drop p = [] := by
      apply List.drop_eq_nil_of_le; rw [List.length_finRange]; omega
    rw [this]
    simp only [stageLoop, run_pure, Option.some.injEq, Prod.mk.injEq, true_and]
    constructor
    · rintro rfl
      exact ⟨fun _ _ => rfl, fun i hi => absurd i.isLt (by omega), fun _ _ => rfl⟩
    · rintro ⟨h1, _, h3⟩
      funext j
      by_cases hj : j.val < p
      · exact (h1 j hj).symm
      · exact (h3 j (by omega)).symm
  | succ r ih =>
    have hps : p < s + 1 := by omega
    have hd : (List.finRange (s + 1)).drop p =
        (⟨p, hps⟩ : Fin (s + 1)) :: (List.finRange (s + 1)).drop (p + 1) := by
      rw [List.drop_eq_getElem_cons (by rw [List.length_finRange]; exact hps)]
      simp
    rw [hd, stageLoop]
    simp only [run_bind, run_get, andThen_ok, run_ofExcept, run_modify]
    cases hr : rhs (t + h * T.C ⟨p, hps⟩) (y + scale h (rowDot hm T.A K ⟨p, hps⟩)) with
    | error e =>
      simp only [andThen_error, Option.some.injEq, Prod.mk.injEq, reduceCtorEq, false_and, false_iff]
      rintro ⟨h1, h2, _⟩
      have := h2 ⟨p, hps⟩ (le_refl _)
      rw [rowDot_congr hm T.A K' K ⟨p, hps⟩ (fun j hj => h1 j hj), hr] at this
      simp at this
    | ok k =>
      simp only [andThen_ok]
      rw [ih (p + 1) (by omega)]
      constructor
      · rintro ⟨h1, h2, h3⟩
        have hK : ∀ j : Fin m, j.val < p → K' j = K j := by
          intro j hj
          rw [h1 j (by omega), Function.update_of_ne]
          intro e; rw [e] at hj; simp at hj
        refine ⟨hK, ?_, ?_⟩
        · intro i hi
          by_cases hip : i.val = p
          · obtain rfl : i = ⟨p, hps⟩ := Fin.ext hip
            rw [rowDot_congr hm T.A K' K ⟨p, hps⟩ (fun j hj => hK j hj), hr]
            rw [h1 _ (by simp), Function.update_self]
          · exact h2 i (by omega)
        · intro j hj
          rw [h3 j hj, Function.update_of_ne]
          intro e; rw [e] at hj; simp at hj; omega
      · rintro ⟨h1, h2, h3⟩
        have hk : K' (Fin.castLE hm ⟨p, hps⟩) = k := by
          have := h2 ⟨p, hps⟩ (le_refl _)
          rw [rowDot_congr hm T.A K' K ⟨p, hps⟩ (fun j hj => h1 j hj), hr] at this
          exact (Except.ok.inj this).symm
        refine ⟨?_, fun i hi => h2 i (by omega), ?_⟩
        · intro j hj
          by_cases hjp : j.val = p
          · obtain rfl : j = Fin.castLE hm ⟨p, hps⟩ := Fin.ext hjp
            rw [hk, Function.update_self]
          · rw [h1 j (by omega), Function.update_of_ne]
            intro e; rw [e] at hjp; simp at hjp
        · intro j hj
          rw [h3 j hj, Function.update_of_ne]
          intro e; rw [e] at hj; simp at hj; omega

/-- The stages: the loop ends with `K'` exactly when `K'` solves the stage equations (and keeps the rows the
loop does not own). -/
theorem stages_ok {s m : Nat} (hm : s + 1 ≤ m) (T : Tableau α s) (rhs : Rhs α n) (t h : α)
    (y f : Vec α n) (K K' : Fin m → Vec α n) :
    (stages hm T rhs t h y f).run K = some (.ok (), K') ↔
      K' (Fin.castLE hm 0) = f ∧
      (∀ i : Fin (s + 1), i ≠ 0 →
        rhs (t + h * T.C i) (y + scale h (rowDot hm T.A K' i)) = .ok (K' (Fin.castLE hm i))) ∧
      (∀ j : Fin m, s + 1 ≤ j.val → K' j = K j) := by
  unfold stages
  simp only [run_bind, run_modify, andThen_ok]
  rw [show (List.finRange (s + 1)).tail = (List.finRange (s + 1)).drop 1 by simp,
    stageLoop_ok hm T rhs t h y s 1 (by omega)]
  constructor
  · rintro ⟨h1, h2, h3⟩
    refine ⟨?_, fun i hi => h2 i ?_, fun j hj => ?_⟩
    · rw [h1 _ (by simp), Function.update_self]
    · have : i.val ≠ 0 := fun e => hi (Fin.ext e)
      omega
    · rw [h3 j hj, Function.update_of_ne]
      intro e; rw [e] at hj; simp at hj
  · rintro ⟨h1, h2, h3⟩
    refine ⟨fun j hj => ?_, fun i hi => h2 i ?_, fun j hj => ?_⟩
    · obtain rfl : j = Fin.castLE hm 0 := Fin.ext (by simp; omega)
      rw [h1, Function.update_self]
    · intro e; rw [e] at hi; simp at hi
    · rw [h3 j hj, Function.update_of_ne]
      intro e; rw [e] at hj; simp at hj

/-- A right-hand side that never raises makes every stage succeed. -/
theorem stages_pure {s m : Nat} (hm : s + 1 ≤ m) (T : Tableau α s) (g : α → Vec α n → Vec α n)
    (t h : α) (y f : Vec α n) (K : Fin m → Vec α n) :
    ∃ K', (stages hm T (pureRhs g) t h y f).run K = some (.ok (), K') := by
  unfold stages
  simp only [run_bind, run_modify, andThen_ok]
  generalize Function.update K (Fin.castLE hm 0) f = K0
  generalize (List.finRange (s + 1)).tail = l
  induction l generalizing K0 with
  | nil => exact ⟨_, rfl⟩
  | cons i l ih =>
    rw [stageLoop]
    simp only [run_bind, run_get, andThen_ok, run_ofExcept, run_modify, pureRhs]
    exact ih _

end lawless

section sums
variable {α : Type} [CommRing α] {n : Nat}

theorem foldl_eq_sum {m : Nat} (g : Fin m → α) (a : α) :
    Fin.foldl m (fun acc j => acc + g j) a = a + ∑ j, g j := by
  induction m with
  | zero => simp
  | succ m ih =>
    rw [Fin.foldl_succ_last, Fin.sum_univ_castSucc, ih]
    ring

theorem vdot_apply {m : Nat} (b : Fin m → α) (K : Fin m → Vec α n) (i : Fin n) :
    vdot b K i = ∑ j, b j * K j i := by
  unfold vdot
  rw [foldl_eq_sum]; simp

/-- With a zero upper triangle, `A[s, :s] @ K[:s]` is the full sum. -/
theorem rowDot_apply {s m : Nat} (hm : s + 1 ≤ m) (A : Fin (s + 1) → Fin (s + 1) → α)
    (hA : ∀ i j, i ≤ j → A i j = 0) (K : Fin m → Vec α n) (i : Fin (s + 1)) (d : Fin n) :
    rowDot hm A K i d = ∑ j, A i j * K (Fin.castLE hm j) d := by
  unfold rowDot
  rw [vdot_apply]
  have hi : i.val + (s + 1 - i.val) = s + 1 := by have := i.isLt; omega
  have key : ∀ (p : Nat) (hp : p = s + 1 - i.val) (e : i.val + p = s + 1),
      ∑ j : Fin (s + 1), A i j * K (Fin.castLE hm j) d =
      ∑ j : Fin (i.val + p), A i (Fin.cast e j) * K (Fin.castLE hm (Fin.cast e j)) d := by
    intro p _ e
    exact (Fintype.sum_equiv (finCongr e) _ _ (fun j => rfl)).symm
  rw [key _ rfl hi, Fin.sum_univ_add]
  rw [show ∑ j : Fin (s + 1 - i.val), A i (Fin.cast hi (Fin.natAdd i.val j)) *
      K (Fin.castLE hm (Fin.cast hi (Fin.natAdd i.val j))) d = 0 from
    Finset.sum_eq_zero fun j _ => by
      rw [hA _ _ (by simp [Fin.le_def]), zero_mul]]
  rw [add_zero]
  rfl

end sums

end Nbkode
