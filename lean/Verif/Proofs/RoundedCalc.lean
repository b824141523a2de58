import Verif.Proofs.Rounded
import Verif.Proofs.Stages
import Mathlib.Algebra.BigOperators.Fin
import Mathlib.Algebra.Order.BigOperators.Group.Finset

/-! Error analysis of sums and products of machine numbers. -/

set_option autoImplicit false
set_option linter.unusedSectionVars false

namespace Nbkode
open Spec Spec.Num

/-- `x` is within `c e` of `r`, which is at most `M`. -/
structure Close (e c M x r : ℝ) : Prop where
  near : |x - r| ≤ c * e
  le : |r| ≤ M

namespace Close
variable {e c c' M M' x r x' r' : ℝ}

theorem mono (h : Close e c M x r) (he : 0 ≤ e) (hc : c ≤ c') (hM : M ≤ M') : Close e c' M' x r :=
  ⟨h.near.trans (mul_le_mul_of_nonneg_right hc he), h.le.trans hM⟩

theorem self (he : 0 ≤ e) (h : |x| ≤ M) : Close e 0 M x x := ⟨by simp, h⟩

theorem abs_le (h : Close e c M x r) (hc : 0 ≤ c) (he : e ≤ 1) : |x| ≤ M + c := by
  have h1 := h.near.trans (mul_le_of_le_one_right hc he)
  have h2 : |x| ≤ |x - r| + |r| := by
    calc |x| = |(x - r) + r| := by ring_nf
      _ ≤ _ := abs_add_le _ _
  linarith [h.le]

theorem add (h : Close e c M x r) (h' : Close e c' M' x' r') : Close e (c + c') (M + M') (x + x') (r + r') := by
  refine ⟨?_, (abs_add_le _ _).trans (add_le_add h.le h'.le)⟩
  rw [show x + x' - (r + r') = (x - r) + (x' - r') by ring, add_mul]
  exact (abs_add_le _ _).trans (add_le_add h.near h'.near)

theorem neg (h : Close e c M x r) : Close e c M (-x) (-r) := by
  refine ⟨?_, by rw [abs_neg]; exact h.le⟩
  rw [show -x - -r = -(x - r) by ring, abs_neg]
  exact h.near

theorem mul (h : Close e c M x r) (h' : Close e c' M' x' r') (he : 0 ≤ e) (he1 : e ≤ 1) (hc : 0 ≤ c) (hc' : 0 ≤ c') :
    Close e (c * M' + c * c' + M * c') (M * M') (x * x') (r * r') := by
  have hM : 0 ≤ M := (abs_nonneg _).trans h.le
  refine ⟨?_, ?_⟩
  · rw [show x * x' - r * r' = (x - r) * x' + r * (x' - r') by ring]
    refine (abs_add_le _ _).trans ?_
    rw [abs_mul, abs_mul]
    have h1 := mul_le_mul h.near (h'.abs_le hc' he1) (abs_nonneg _) (by positivity)
    have h2 := mul_le_mul h.le h'.near (abs_nonneg _) hM
    nlinarith
  · rw [abs_mul]
    exact mul_le_mul h.le h'.le (abs_nonneg _) hM

theorem round {φ : Rounding} {u η : ℝ} (hA : φ.Accurate u η) (hu : u + η ≤ e) (he1 : e ≤ 1) (hc : 0 ≤ c)
    (h : Close e c M x r) : Close e (c + (M + c + 1)) M (φ.round x) r := by
  refine ⟨?_, h.le⟩
  have h1 := hA.error x
  have h2 := h.abs_le hc he1
  have h3 : |φ.round x - r| ≤ |φ.round x - x| + |x - r| := by
    calc |φ.round x - r| = |(φ.round x - x) + (x - r)| := by ring_nf
      _ ≤ _ := abs_add_le _ _
  have hM : 0 ≤ M := (abs_nonneg _).trans h.le
  have hu0 := hA.unit_nonneg
  have hη := hA.tiny_nonneg
  have h4 : u * |x| ≤ u * (M + c) := mul_le_mul_of_nonneg_left h2 hu0
  have h5 : u * (M + c) ≤ e * (M + c) := mul_le_mul_of_nonneg_right (by linarith) (by linarith)
  have := h.near
  nlinarith

end Close

section ops
variable {φ : Rounding} {u η e c c' M M' : ℝ} {x x' : Num φ} {r r' : ℝ}

theorem close_add (hA : φ.Accurate u η) (hu : u + η ≤ e) (he1 : e ≤ 1) (hc : 0 ≤ c) (hc' : 0 ≤ c')
    (h : Close e c M x.val r) (h' : Close e c' M' x'.val r') :
    Close e (c + c' + (M + M' + (c + c') + 1)) (M + M') (x + x').val (r + r') := by
  rw [val_add]
  exact (h.add h').round hA hu he1 (by positivity)

theorem close_sub (hA : φ.Accurate u η) (hu : u + η ≤ e) (he1 : e ≤ 1) (hc : 0 ≤ c) (hc' : 0 ≤ c')
    (h : Close e c M x.val r) (h' : Close e c' M' x'.val r') :
    Close e (c + c' + (M + M' + (c + c') + 1)) (M + M') (x - x').val (r - r') := by
  rw [val_sub, sub_eq_add_neg x.val, sub_eq_add_neg r]
  exact (h.add h'.neg).round hA hu he1 (by positivity)

theorem close_mul (hA : φ.Accurate u η) (hu : u + η ≤ e) (he1 : e ≤ 1) (hc : 0 ≤ c) (hc' : 0 ≤ c')
    (h : Close e c M x.val r) (h' : Close e c' M' x'.val r') :
    Close e (c * M' + c * c' + M * c' + (M * M' + (c * M' + c * c' + M * c') + 1)) (M * M') (x * x').val (r * r') := by
  have hM : 0 ≤ M := (abs_nonneg _).trans h.le
  have hM' : 0 ≤ M' := (abs_nonneg _).trans h'.le
  have he : 0 ≤ e := le_trans (add_nonneg hA.unit_nonneg hA.tiny_nonneg) hu
  rw [val_mul]
  exact (h.mul h' he he1 hc hc').round hA hu he1 (by positivity)

end ops

/-- A dot product computed term by term. -/
theorem close_dot (m : ℕ) {c c' M M' : ℝ} (hc : 0 ≤ c) (hc' : 0 ≤ c') (hM : 0 ≤ M) (hM' : 0 ≤ M') :
    ∃ c₁ M₁, 0 ≤ c₁ ∧ 0 ≤ M₁ ∧ ∀ {φ : Rounding} {u η e : ℝ}, φ.Accurate u η → u + η ≤ e → e ≤ 1 →
      ∀ (b x : Fin m → Num φ) (r r' : Fin m → ℝ), (∀ j, Close e c M (b j).val (r j)) → (∀ j, Close e c' M' (x j).val (r' j)) →
        Close e c₁ M₁ (Fin.foldl m (fun acc j => acc + b j * x j) 0).val (∑ j, r j * r' j) := by
  induction m with
  | zero =>
    refine ⟨0, 0, le_rfl, le_rfl, fun hA hu he b x r r' _ _ => ?_⟩
    simp only [Fin.foldl_zero, Finset.univ_eq_empty, Finset.sum_empty, val_zero]
    exact ⟨by simp, by simp⟩
  | succ m ih =>
    obtain ⟨c₁, M₁, h1, h2, h3⟩ := ih
    set c₂ := c * M' + c * c' + M * c' + (M * M' + (c * M' + c * c' + M * c') + 1)
    have hc₂ : 0 ≤ c₂ := by positivity
    refine ⟨c₁ + c₂ + (M₁ + M * M' + (c₁ + c₂) + 1), M₁ + M * M', by positivity, by positivity,
      fun {φ u η e} hA hu he b x r r' hb hx => ?_⟩
    rw [Fin.foldl_succ_last, Fin.sum_univ_castSucc]
    exact close_add hA hu he h1 hc₂ (h3 hA hu he _ _ _ _ (fun j => hb _) fun j => hx _)
      (close_mul hA hu he hc hc' (hb _) (hx _))

/-! ### Constants -/

/-- A constant of the program: the number the machine gets for it is close to a real number. -/
def NearConst (x : ∀ φ : Rounding, Num φ) (r : ℝ) : Prop :=
  ∃ c, 0 ≤ c ∧ ∀ (φ : Rounding) (u η : ℝ), φ.Accurate u η → u + η ≤ 1 / 2 → |(x φ).val - r| ≤ c * (u + η)

theorem nearConst_zero : NearConst (fun _ => 0) 0 := ⟨0, le_rfl, fun φ u η _ _ => by rw [val_zero]; simp⟩
theorem nearConst_one : NearConst (fun _ => 1) 1 := ⟨0, le_rfl, fun φ u η _ _ => by rw [val_one]; simp⟩

theorem NearConst.neg {x : ∀ φ : Rounding, Num φ} {r : ℝ} (h : NearConst x r) : NearConst (fun φ => -x φ) (-r) := by
  obtain ⟨c, hc, h⟩ := h
  refine ⟨c, hc, fun φ u η hA hu => ?_⟩
  rw [val_neg, show -(x φ).val - -r = -((x φ).val - r) by ring, abs_neg]
  exact h φ u η hA hu

theorem nearConst_q (a b : ℕ) (hb : 0 < b) : NearConst (fun φ => q a b) (q a b) := by
  refine ⟨2 * (2 * a + 1) + (3 * a + 2), by positivity, fun φ u η hA hu => ?_⟩
  have hu0 := hA.unit_nonneg
  have hη := hA.tiny_nonneg
  show |φ.round (φ.round ((a : ℕ) : ℝ) / φ.round ((b : ℕ) : ℝ)) - (a : ℝ) / (b : ℝ)| ≤ _
  have hb1 : (1 : ℝ) ≤ b := by exact_mod_cast hb
  have ha0 : (0 : ℝ) ≤ a := Nat.cast_nonneg a
  have ea := hA.error (a : ℝ)
  have eb := hA.error (b : ℝ)
  rw [abs_of_nonneg ha0] at ea
  rw [abs_of_nonneg (by linarith : (0 : ℝ) ≤ b)] at eb
  set A := φ.round (a : ℝ)
  set B := φ.round (b : ℝ)
  have eb' : |B - b| ≤ (u + η) * b := by nlinarith
  have hB : (b : ℝ) / 2 ≤ B := by
    have := (abs_le.mp eb').1
    nlinarith
  have hB0 : 0 < B := by linarith
  have e1 : |A / B - a / b| ≤ (2 * (2 * a + 1)) * (u + η) := by
    have hb0 : (b : ℝ) ≠ 0 := by linarith
    rw [show A / B - a / b = ((A - a) * b + a * (b - B)) / (B * b) by field_simp; ring, abs_div,
      abs_of_pos (by positivity : 0 < B * (b : ℝ)), div_le_iff₀ (by positivity)]
    have h1 : |(A - a) * b + a * (b - B)| ≤ (u * a + η) * b + a * ((u + η) * b) := by
      refine (abs_add_le _ _).trans (add_le_add ?_ ?_)
      · rw [abs_mul, abs_of_nonneg (by linarith : (0 : ℝ) ≤ b)]
        exact mul_le_mul_of_nonneg_right ea (by linarith)
      · rw [abs_mul, abs_of_nonneg ha0, abs_sub_comm]
        exact mul_le_mul_of_nonneg_left eb' ha0
    refine h1.trans ?_
    have h2 : (u * a + η) * b + a * ((u + η) * b) ≤ (2 * a + 1) * (u + η) * b := by
      have : u * a + η + a * (u + η) ≤ (2 * a + 1) * (u + η) := by nlinarith
      nlinarith
    refine h2.trans ?_
    have h3 : b ≤ 2 * (B * b) := by nlinarith
    have h4 : 0 ≤ (2 * (a : ℝ) + 1) * (u + η) := by positivity
    calc (2 * (a : ℝ) + 1) * (u + η) * b ≤ (2 * (a : ℝ) + 1) * (u + η) * (2 * (B * b)) := mul_le_mul_of_nonneg_left h3 h4
      _ = _ := by ring
  have e2 := hA.error (A / B)
  have hAB : |A / B| ≤ 2 * (a : ℝ) + 1 + (a : ℝ) := by
    have h1 : |A / B| ≤ |A / B - a / b| + |(a : ℝ) / b| := by
      calc |A / B| = |(A / B - a / b) + a / b| := by ring_nf
        _ ≤ _ := abs_add_le _ _
    have h2 : |(a : ℝ) / b| ≤ a := by
      rw [abs_of_nonneg (by positivity)]
      exact div_le_self ha0 hb1
    nlinarith
  have h3 : |φ.round (A / B) - a / b| ≤ |φ.round (A / B) - A / B| + |A / B - a / b| := by
    calc |φ.round (A / B) - a / b| = |(φ.round (A / B) - A / B) + (A / B - a / b)| := by ring_nf
      _ ≤ _ := abs_add_le _ _
  have h4 : u * |A / B| ≤ u * (2 * a + 1 + a) := mul_le_mul_of_nonneg_left hAB hu0
  nlinarith

end Nbkode
