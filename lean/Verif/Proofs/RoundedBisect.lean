import Verif.Proofs.Rounded
import Verif.Proofs.Bisect

/-! `bisect` with machine numbers. -/

set_option autoImplicit false
set_option linter.unusedSectionVars false

namespace Nbkode
open Py Spec Solver Spec.Num

variable {φ : Rounding} {σ : Type}

theorem num_beq_zero {x : Num φ} : (x == 0) = true ↔ x.val = 0 := by
  rw [beq_iff_eq]
  constructor
  · rintro rfl; exact val_zero
  · intro h; exact Num.ext (h.trans val_zero.symm)

theorem num_two_div (a : Num φ) : pyDiv a ((2 : Nat) : Num φ) = .ok (a / ((2 : Nat) : Num φ)) := by
  unfold pyDiv
  rw [if_neg]
  rw [num_beq_zero, val_two]
  norm_num

theorem num_pyAbs (x : Num φ) : (pyAbs x).val = |x.val| := by
  unfold pyAbs
  split
  · rename_i h; rw [val_neg, abs_of_neg (neg_iff.mp h)]
  · rename_i h
    rw [neg_iff, not_lt] at h
    rw [abs_of_nonneg h]

theorem num_isclose (x tol rtol : Num φ) : isclose x 0 tol rtol = true ↔ |x.val| ≤ tol.val := by
  unfold isclose
  have e1 : x - 0 = x := Num.ext (by rw [val_sub, val_zero, sub_zero]; exact φ.round_self _ x.val_mem)
  have e2 : pyAbs (0 : Num φ) = 0 := Num.ext (by rw [num_pyAbs, val_zero, abs_zero])
  have e3 : rtol * (0 : Num φ) = 0 := Num.ext (by rw [val_mul, val_zero, mul_zero]; exact φ.round_self _ φ.zero_mem)
  have e4 : tol + (0 : Num φ) = tol := Num.ext (by rw [val_add, val_zero, add_zero]; exact φ.round_self _ tol.val_mem)
  rw [e1, e2, e3, e4, decide_eq_true_iff, le_iff, num_pyAbs]

/-- Opposite signs. -/
def NumOpp (x y : Num φ) : Prop := (x < 0 ∧ 0 < y) ∨ (0 < x ∧ y < 0)

theorem num_opp_of_mul {x y : Num φ} (h : x * y < 0) : NumOpp x y := by
  rw [neg_iff, val_mul] at h
  have h2 : x.val * y.val < 0 := by
    by_contra hc
    push Not at hc
    exact absurd (le_round φ.zero_mem hc) (not_le.mpr h)
  unfold NumOpp
  rw [neg_iff, neg_iff, pos_iff, pos_iff]
  rcases mul_neg_iff.mp h2 with h | h
  · exact Or.inr h
  · exact Or.inl h

theorem num_sign_opp {x y z : Num φ} (hx : x ≠ 0) (h : NumOpp y z) :
    (pySign x = pySign y → NumOpp x z) ∧ (pySign x ≠ pySign y → NumOpp y x) := by
  unfold pySign NumOpp at *
  rcases lt_or_gt_of_ne hx with h1 | h1
  · rcases h with ⟨h2, h3⟩ | ⟨h2, h3⟩
    · simp [h1, h2, h3, not_lt.mpr h1.le, not_lt.mpr h2.le]
    · simp [h1, h2, not_lt.mpr h1.le]
  · rcases h with ⟨h2, h3⟩ | ⟨h2, h3⟩
    · simp [h1, h2, not_lt.mpr h2.le]
    · simp [h1, h2, h3]

theorem num_mid {l r : Num φ} (h : l ≤ r) : l ≤ (l + r) / ((2 : Nat) : Num φ) ∧ (l + r) / ((2 : Nat) : Num φ) ≤ r ∧
    ∀ {u η : ℝ}, φ.Accurate u η → ∀ M, |l.val| ≤ M → |r.val| ≤ M →
      |((l + r) / ((2 : Nat) : Num φ)).val - (l.val + r.val) / 2| ≤ 2 * u * M + 3 / 2 * η := by
  have h' := le_iff.mp h
  have a1 : 2 * l.val ≤ (l + r).val := le_round (φ.double_mem _ l.val_mem) (by linarith)
  have a2 : (l + r).val ≤ 2 * r.val := round_le (φ.double_mem _ r.val_mem) (by linarith)
  have b1 : l.val ≤ φ.round ((l + r).val / 2) := le_round l.val_mem (by linarith)
  have b2 : φ.round ((l + r).val / 2) ≤ r.val := round_le r.val_mem (by linarith)
  refine ⟨?_, ?_, ?_⟩
  · rw [le_iff, val_div, val_two]; exact b1
  · rw [le_iff, val_div, val_two]; exact b2
  · intro u η hA M hl hr
    rw [val_div, val_two]
    have e1 := hA.error (l.val + r.val)
    have e2 := hA.error ((l + r).val / 2)
    rw [← val_add] at e1
    have m1 : |l.val + r.val| ≤ 2 * M := (abs_add_le _ _).trans (by linarith)
    have m2 : |(l + r).val / 2| ≤ M := by
      rw [abs_le] at hl hr ⊢
      constructor <;> linarith
    have u1 := mul_le_mul_of_nonneg_left m1 hA.unit_nonneg
    have u2 := mul_le_mul_of_nonneg_left m2 hA.unit_nonneg
    rw [abs_le] at e1 e2 ⊢
    constructor <;> linarith

theorem num_bisectLoop_spec {u η : ℝ} (hA : φ.Accurate u η) {fn : Num φ → Py σ (Num φ)} {I : σ → Prop} {lo hi : Num φ}
    {F : Num φ → Num φ → Prop} (hF : Steady fn I lo hi F) (bo : BisectOpts (Num φ)) (htol : 0 ≤ bo.tol) (m : Nat) :
    ∀ left yl right yr mid s r s', lo ≤ left → left ≤ right → right ≤ hi → F left yl → F right yr → NumOpp yl yr →
      (right.val - left.val - (4 * u * max |lo.val| |hi.val| + 3 * η)) / 2 ^ m ≤ (hi.val - lo.val) / 2 ^ bo.maxiter →
      (∀ x, mid = some x → x = left ∨ x = right) →
      (bisectLoop fn bo.tol bo.rtol m left yl right mid).run s = some (r, s') → I s →
      I s' ∧ ∀ τ, r = .ok τ → lo ≤ τ ∧ τ ≤ hi ∧ LocatedWithin u η bo F lo hi τ := by
  induction m with
  | zero =>
    intro left yl right yr mid s r s' h1 h2 h3 h4 h5 h6 h7 h8 h hI
    cases mid with
    | none =>
      rw [bisectLoop] at h
      simp only [run_throw, Option.some.injEq, Prod.mk.injEq] at h
      obtain ⟨rfl, rfl⟩ := h
      exact ⟨hI, by simp⟩
    | some x =>
      rw [bisectLoop] at h
      simp only [run_pure, Option.some.injEq, Prod.mk.injEq] at h
      obtain ⟨rfl, rfl⟩ := h
      refine ⟨hI, fun τ hτ => ?_⟩
      simp only [Except.ok.injEq] at hτ
      subst hτ
      have hx := h8 x rfl
      refine ⟨?_, ?_, .bracket left right yl yr h1 h2 h3 (by rw [pow_zero, div_one] at h7; linarith) h4 h5 h6 hx⟩
      · rcases hx with rfl | rfl
        · exact h1
        · exact h1.trans h2
      · rcases hx with rfl | rfl
        · exact h2.trans h3
        · exact h3
  | succ m ih =>
    intro left yl right yr mid s r s' h1 h2 h3 h4 h5 h6 h7 h8 h hI
    rw [bisectLoop] at h
    simp only [run_bind, run_ofExcept, num_two_div, andThen_ok] at h
    obtain ⟨b1, b2, b5⟩ := num_mid h2
    have b6 := b5 hA (max |lo.val| |hi.val|) ?_ ?_
    rotate_left
    · rw [abs_le]
      have k1 := le_iff.mp h1
      have k2 := le_iff.mp (h2.trans h3)
      have := le_max_left |lo.val| |hi.val|
      have := le_max_right |lo.val| |hi.val|
      have := neg_abs_le lo.val
      have := le_abs_self hi.val
      constructor <;> linarith
    · rw [abs_le]
      have k1 := le_iff.mp (h1.trans h2)
      have k2 := le_iff.mp h3
      have := le_max_left |lo.val| |hi.val|
      have := le_max_right |lo.val| |hi.val|
      have := neg_abs_le lo.val
      have := le_abs_self hi.val
      constructor <;> linarith
    clear b5
    generalize (left + right) / ((2 : Nat) : Num φ) = c at *
    have b3 : lo ≤ c := h1.trans b1
    have b4 : c ≤ hi := b2.trans h3
    rw [abs_le] at b6
    have w1 : (right.val - c.val - (4 * u * max |lo.val| |hi.val| + 3 * η)) / 2 ^ m ≤ (hi.val - lo.val) / 2 ^ bo.maxiter := by
      refine le_trans ?_ h7
      rw [pow_succ', ← div_div]
      refine div_le_div_of_nonneg_right ?_ (by positivity)
      linarith
    have w2 : (c.val - left.val - (4 * u * max |lo.val| |hi.val| + 3 * η)) / 2 ^ m ≤ (hi.val - lo.val) / 2 ^ bo.maxiter := by
      refine le_trans ?_ h7
      rw [pow_succ', ← div_div]
      refine div_le_div_of_nonneg_right ?_ (by positivity)
      linarith
    rw [andThen_eq_some] at h
    rcases h with ⟨e, s1, h9, h10⟩ | ⟨ym, s1, h9, h10⟩
    · cases h10
      exact ⟨hF.inv _ _ _ _ b3 b4 hI h9, by simp⟩
    · have hI1 := hF.inv _ _ _ _ b3 b4 hI h9
      have hv := hF.val _ _ _ _ b3 b4 hI h9
      simp only [run_ite, run_pure] at h10
      split at h10
      · rename_i hc
        simp only [Option.some.injEq, Prod.mk.injEq] at h10
        obtain ⟨rfl, rfl⟩ := h10
        refine ⟨hI1, fun τ hτ => ?_⟩
        simp only [Except.ok.injEq] at hτ
        subst hτ
        exact ⟨b3, b4, .small ym hv ((num_isclose _ _ _).mp hc)⟩
      · rename_i hc
        have hne : ym ≠ 0 := by
          rintro rfl
          refine hc ((num_isclose _ _ _).mpr ?_)
          rw [val_zero, abs_zero]
          have := le_iff.mp htol
          rwa [val_zero] at this
        split at h10
        · rename_i hs
          exact ih _ _ _ yr _ _ _ _ b3 b2 h3 hv h5 ((num_sign_opp hne h6).1 (by simpa using hs)) w1 (by simp) h10 hI1
        · rename_i hs
          exact ih _ _ _ ym _ _ _ _ h1 b1 b4 h4 hv ((num_sign_opp hne h6).2 (by simpa using hs)) w2 (by simp) h10 hI1

theorem num_bisect_spec {u η : ℝ} (hA : φ.Accurate u η) {fn : Num φ → Py σ (Num φ)} {I : σ → Prop} {lo hi : Num φ}
    {F : Num φ → Num φ → Prop} (hF : Steady fn I lo hi F) (bo : BisectOpts (Num φ)) (htol : 0 ≤ bo.tol) (s : σ) (r) (s' : σ)
    (h : (bisect fn lo hi bo.tol bo.maxiter bo.rtol).run s = some (r, s')) (hI : I s) :
    I s' ∧ ∀ τ, r = .ok τ → lo ≤ τ ∧ τ ≤ hi ∧ LocatedWithin u η bo F lo hi τ := by
  have h00 : |(0 : Num φ).val| ≤ bo.tol.val := by
    have := le_iff.mp htol
    rw [val_zero] at this
    rwa [val_zero, abs_zero]
  unfold bisect at h
  simp only [run_bind, run_ite, run_throw, run_pure, andThen_error] at h
  split at h
  · simp only [Option.some.injEq, Prod.mk.injEq] at h
    obtain ⟨rfl, rfl⟩ := h
    exact ⟨hI, by simp⟩
  · rename_i hlt
    replace hlt : lo < hi := by simpa using hlt
    rw [andThen_eq_some] at h
    rcases h with ⟨e, s1, h1, h2⟩ | ⟨yl, s1, h1, h2⟩
    · cases h2
      exact ⟨hF.inv _ _ _ _ le_rfl hlt.le hI h1, by simp⟩
    · have hI1 := hF.inv _ _ _ _ le_rfl hlt.le hI h1
      have hl := hF.val _ _ _ _ le_rfl hlt.le hI h1
      split at h2
      · rename_i h0
        simp only [beq_iff_eq] at h0
        simp only [Option.some.injEq, Prod.mk.injEq] at h2
        obtain ⟨rfl, rfl⟩ := h2
        refine ⟨hI1, fun τ hτ => ?_⟩
        simp only [Except.ok.injEq] at hτ
        subst hτ
        exact ⟨le_rfl, hlt.le, .small yl hl (by rw [h0]; exact h00)⟩
      · rw [andThen_eq_some] at h2
        rcases h2 with ⟨e, s2, h3, h4⟩ | ⟨yr, s2, h3, h4⟩
        · cases h4
          exact ⟨hF.inv _ _ _ _ hlt.le le_rfl hI1 h3, by simp⟩
        · have hI2 := hF.inv _ _ _ _ hlt.le le_rfl hI1 h3
          have hr := hF.val _ _ _ _ hlt.le le_rfl hI1 h3
          split at h4
          · rename_i h0
            simp only [beq_iff_eq] at h0
            simp only [Option.some.injEq, Prod.mk.injEq] at h4
            obtain ⟨rfl, rfl⟩ := h4
            refine ⟨hI2, fun τ hτ => ?_⟩
            simp only [Except.ok.injEq] at hτ
            subst hτ
            exact ⟨hlt.le, le_rfl, .small yr hr (by rw [h0]; exact h00)⟩
          · split at h4
            · simp only [Option.some.injEq, Prod.mk.injEq] at h4
              obtain ⟨rfl, rfl⟩ := h4
              exact ⟨hI2, by simp⟩
            · rename_i hmul
              refine num_bisectLoop_spec hA hF bo htol _ _ _ _ _ _ _ _ _ le_rfl hlt.le le_rfl hl hr
                (num_opp_of_mul (by simpa using hmul)) ?_ (by simp) h4 hI2
              refine div_le_div_of_nonneg_right ?_ (by positivity)
              have h5 : 0 ≤ u * max |lo.val| |hi.val| := mul_nonneg hA.unit_nonneg ((abs_nonneg _).trans (le_max_left _ _))
              have h6 := hA.tiny_nonneg
              linarith

theorem num_locates {u η : ℝ} (hA : φ.Accurate u η) (bo : BisectOpts (Num φ)) (htol : 0 ≤ bo.tol) :
    Locates bo (LocatedWithin u η bo) :=
  fun hF s r s' h hI => num_bisect_spec hA hF bo htol s r s' h hI

end Nbkode
