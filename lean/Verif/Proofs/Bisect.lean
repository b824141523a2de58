import Verif.Spec.Events
import Verif.Proofs.PyLemmas
import Mathlib.Algebra.Order.Field.Basic
import Mathlib.Algebra.Order.AbsoluteValue.Basic
import Mathlib.Tactic.Linarith
import Mathlib.Tactic.Ring
import Mathlib.Tactic.LinearCombination

/-! `bisect`. -/

set_option autoImplicit false
set_option linter.unusedSectionVars false

namespace Nbkode
open Py Spec

section order
variable {α : Type} [LinearOrder α]
variable [Add α] [Sub α] [Mul α] [Div α] [Neg α] [Zero α] [One α] [NatCast α] [BEq α]

/-- What `bisect` does when the function it calls keeps the invariant `I` and, on `[lo, hi]`, gives the values `F`. -/
structure Steady {σ : Type} (fn : α → Py σ α) (I : σ → Prop) (lo hi : α) (F : α → α → Prop) : Prop where
  inv : ∀ x s r s', lo ≤ x → x ≤ hi → I s → (fn x).run s = some (r, s') → I s'
  val : ∀ x s v s', lo ≤ x → x ≤ hi → I s → (fn x).run s = some (.ok v, s') → F x v

/-- `bisect` returns a time located as `L` says. -/
def Locates (bo : BisectOpts α) (L : Locator α) : Prop :=
  ∀ {σ : Type} {fn : α → Py σ α} {I : σ → Prop} {lo hi : α} {F : α → α → Prop}, Steady fn I lo hi F → ∀ (s : σ) r (s' : σ),
    (bisect fn lo hi bo.tol bo.maxiter bo.rtol).run s = some (r, s') → I s →
    I s' ∧ ∀ τ, r = .ok τ → lo ≤ τ ∧ τ ≤ hi ∧ L F lo hi τ

end order

section field
variable {α : Type} [Field α] [LinearOrder α] [IsStrictOrderedRing α] [BEq α] [LawfulBEq α]
variable {σ : Type}

theorem pyAbs_abs (x : α) : pyAbs x = |x| := by
  unfold pyAbs
  split
  · rename_i h; rw [abs_of_neg h]
  · rename_i h; rw [abs_of_nonneg (not_lt.mp h)]

theorem isclose_zero (x tol rtol : α) : isclose x 0 tol rtol = true ↔ |x| ≤ tol := by
  unfold isclose
  simp [pyAbs_abs]

/-- Opposite signs. -/
def Opp (x y : α) : Prop := (x < 0 ∧ 0 < y) ∨ (0 < x ∧ y < 0)

theorem opp_of_mul {x y : α} (h : x * y < 0) : Opp x y := by
  rcases mul_neg_iff.mp h with h | h
  · exact Or.inr h
  · exact Or.inl h

theorem opp_mul {x y : α} (h : Opp x y) : x * y < 0 := by
  rcases h with ⟨h1, h2⟩ | ⟨h1, h2⟩
  · exact mul_neg_of_neg_of_pos h1 h2
  · exact mul_neg_of_pos_of_neg h1 h2

theorem sign_opp {x y z : α} (hx : x ≠ 0) (h : Opp y z) : (pySign x = pySign y → Opp x z) ∧ (pySign x ≠ pySign y → Opp y x) := by
  unfold pySign Opp at *
  rcases lt_or_gt_of_ne hx with h1 | h1
  · rcases h with ⟨h2, h3⟩ | ⟨h2, h3⟩
    · simp [h1, h2, h3, not_lt.mpr h1.le, not_lt.mpr h2.le]
    · simp [h1, h2, not_lt.mpr h1.le]
  · rcases h with ⟨h2, h3⟩ | ⟨h2, h3⟩
    · simp [h1, h2, not_lt.mpr h2.le]
    · simp [h1, h2, h3]

theorem two_div (a : α) : pyDiv a ((2 : Nat) : α) = .ok (a / 2) := by
  unfold pyDiv
  rw [if_neg]
  · norm_num
  · rw [beq_iff_eq]; norm_num

theorem bisectLoop_spec {fn : α → Py σ α} {I : σ → Prop} {lo hi : α} {F : α → α → Prop} (hF : Steady fn I lo hi F)
    (bo : BisectOpts α) (htol : 0 ≤ bo.tol) (m : Nat) :
    ∀ left yl right yr mid s r s', lo ≤ left → left < right → right ≤ hi → F left yl → F right yr → Opp yl yr →
      (right - left) * 2 ^ bo.maxiter = (hi - lo) * 2 ^ m → (∀ x, mid = some x → x = left ∨ x = right) →
      (bisectLoop fn bo.tol bo.rtol m left yl right mid).run s = some (r, s') → I s →
      I s' ∧ ∀ τ, r = .ok τ → lo ≤ τ ∧ τ ≤ hi ∧ Located bo F lo hi τ := by
  induction m with
  | zero =>
    intro left yl right yr mid s r s' h1 h2 h3 h4 h5 h6 h7 h8 h hI
    cases mid with
    | none =>
      rw [bisectLoop] at h
      simp only [run_throw, Option.some.injEq, Prod.mk.injEq] at h
      obtain ⟨rfl, rfl⟩ := h
      exact ⟨hI, by simp⟩
    | some x =>
      rw [bisectLoop] at h
      simp only [run_pure, Option.some.injEq, Prod.mk.injEq] at h
      obtain ⟨rfl, rfl⟩ := h
      refine ⟨hI, fun τ hτ => ?_⟩
      simp only [Except.ok.injEq] at hτ
      subst hτ
      have hx := h8 x rfl
      refine ⟨?_, ?_, .bracket left right yl yr h1 h2 h3 (by rw [h7]; simp) h4 h5 h6 hx⟩
      · rcases hx with rfl | rfl <;> linarith
      · rcases hx with rfl | rfl <;> linarith
  | succ m ih =>
    intro left yl right yr mid s r s' h1 h2 h3 h4 h5 h6 h7 h8 h hI
    rw [bisectLoop] at h
    simp only [run_bind, run_ofExcept, two_div, andThen_ok] at h
    have b1 : left < (left + right) / 2 := by linarith
    have b2 : (left + right) / 2 < right := by linarith
    have b3 : lo ≤ (left + right) / 2 := by linarith
    have b4 : (left + right) / 2 ≤ hi := by linarith
    rw [andThen_eq_some] at h
    rcases h with ⟨e, s1, h9, h10⟩ | ⟨ym, s1, h9, h10⟩
    · cases h10
      exact ⟨hF.inv _ _ _ _ b3 b4 hI h9, by simp⟩
    · have hI1 := hF.inv _ _ _ _ b3 b4 hI h9
      have hv := hF.val _ _ _ _ b3 b4 hI h9
      simp only [run_ite, run_pure] at h10
      split at h10
      · rename_i hc
        simp only [Option.some.injEq, Prod.mk.injEq] at h10
        obtain ⟨rfl, rfl⟩ := h10
        refine ⟨hI1, fun τ hτ => ?_⟩
        simp only [Except.ok.injEq] at hτ
        subst hτ
        exact ⟨b3, b4, .small ym hv ((isclose_zero _ _ _).mp hc)⟩
      · rename_i hc
        have hne : ym ≠ 0 := by
          rintro rfl
          exact hc ((isclose_zero _ _ _).mpr (by simpa using htol))
        split at h10
        · rename_i hs
          exact ih _ _ _ yr _ _ _ _ b3 b2 h3 hv h5 ((sign_opp hne h6).1 (by simpa using hs))
            (by rw [pow_succ] at h7; linear_combination h7 / 2) (by simp) h10 hI1
        · rename_i hs
          exact ih _ _ _ ym _ _ _ _ h1 b1 b4 h4 hv ((sign_opp hne h6).2 (by simpa using hs))
            (by rw [pow_succ] at h7; linear_combination h7 / 2) (by simp) h10 hI1

theorem bisect_spec {fn : α → Py σ α} {I : σ → Prop} {lo hi : α} {F : α → α → Prop} (hF : Steady fn I lo hi F)
    (bo : BisectOpts α) (htol : 0 ≤ bo.tol) (s : σ) (r) (s' : σ)
    (h : (bisect fn lo hi bo.tol bo.maxiter bo.rtol).run s = some (r, s')) (hI : I s) :
    I s' ∧ ∀ τ, r = .ok τ → lo ≤ τ ∧ τ ≤ hi ∧ Located bo F lo hi τ := by
  unfold bisect at h
  simp only [run_bind, run_ite, run_throw, run_pure, andThen_error] at h
  split at h
  · simp only [Option.some.injEq, Prod.mk.injEq] at h
    obtain ⟨rfl, rfl⟩ := h
    exact ⟨hI, by simp⟩
  · rename_i hlt
    replace hlt : lo < hi := by simpa using hlt
    rw [andThen_eq_some] at h
    rcases h with ⟨e, s1, h1, h2⟩ | ⟨yl, s1, h1, h2⟩
    · cases h2
      exact ⟨hF.inv _ _ _ _ le_rfl hlt.le hI h1, by simp⟩
    · have hI1 := hF.inv _ _ _ _ le_rfl hlt.le hI h1
      have hl := hF.val _ _ _ _ le_rfl hlt.le hI h1
      split at h2
      · rename_i h0
        simp only [beq_iff_eq] at h0
        simp only [Option.some.injEq, Prod.mk.injEq] at h2
        obtain ⟨rfl, rfl⟩ := h2
        refine ⟨hI1, fun τ hτ => ?_⟩
        simp only [Except.ok.injEq] at hτ
        subst hτ
        exact ⟨le_rfl, hlt.le, .small yl hl (by rw [h0]; simpa using htol)⟩
      · rw [andThen_eq_some] at h2
        rcases h2 with ⟨e, s2, h3, h4⟩ | ⟨yr, s2, h3, h4⟩
        · cases h4
          exact ⟨hF.inv _ _ _ _ hlt.le le_rfl hI1 h3, by simp⟩
        · have hI2 := hF.inv _ _ _ _ hlt.le le_rfl hI1 h3
          have hr := hF.val _ _ _ _ hlt.le le_rfl hI1 h3
          split at h4
          · rename_i h0
            simp only [beq_iff_eq] at h0
            simp only [Option.some.injEq, Prod.mk.injEq] at h4
            obtain ⟨rfl, rfl⟩ := h4
            refine ⟨hI2, fun τ hτ => ?_⟩
            simp only [Except.ok.injEq] at hτ
            subst hτ
            exact ⟨hlt.le, le_rfl, .small yr hr (by rw [h0]; simpa using htol)⟩
          · split at h4
            · simp only [Option.some.injEq, Prod.mk.injEq] at h4
              obtain ⟨rfl, rfl⟩ := h4
              exact ⟨hI2, by simp⟩
            · rename_i hmul
              exact bisectLoop_spec hF bo htol _ _ _ _ _ _ _ _ _ le_rfl hlt le_rfl hl hr
                (opp_of_mul (by simpa using hmul)) rfl (by simp) h4 hI2

theorem located_locates (bo : BisectOpts α) (htol : 0 ≤ bo.tol) : Locates bo (Located bo) :=
  fun hF s r s' h hI => bisect_spec hF bo htol s r s' h hI

theorem bisectLoop_total {fn : α → Py σ α} {I : σ → Prop} {lo hi : α} {F : α → α → Prop} (hF : Steady fn I lo hi F)
    (ht : ∀ x s, lo ≤ x → x ≤ hi → I s → ∃ v s', (fn x).run s = some (.ok v, s')) (tol rtol : α) (m : Nat) :
    ∀ left yl right mid s, lo ≤ left → left < right → right ≤ hi → (m = 0 → mid ≠ none) → I s →
      ∃ τ s', (bisectLoop fn tol rtol m left yl right mid).run s = some (.ok τ, s') := by
  induction m with
  | zero =>
    intro left yl right mid s _ _ _ h4 _
    cases mid with
    | none => exact absurd rfl (h4 rfl)
    | some x => rw [bisectLoop]; exact ⟨_, _, rfl⟩
  | succ m ih =>
    intro left yl right mid s h1 h2 h3 _ hI
    rw [bisectLoop]
    simp only [run_bind, run_ofExcept, two_div, andThen_ok]
    have b3 : lo ≤ (left + right) / 2 := by linarith
    have b4 : (left + right) / 2 ≤ hi := by linarith
    obtain ⟨v, s1, hv⟩ := ht _ s b3 b4 hI
    rw [hv]
    simp only [andThen_ok, run_ite, run_pure]
    have hI1 := hF.inv _ _ _ _ b3 b4 hI hv
    split
    · exact ⟨_, _, rfl⟩
    · split
      · exact ih _ _ _ _ _ b3 (by linarith) h3 (by simp) hI1
      · exact ih _ _ _ _ _ h1 (by linarith) b4 (by simp) hI1

theorem bisect_total {fn : α → Py σ α} {I : σ → Prop} {lo hi : α} {F : α → α → Prop} (hF : Steady fn I lo hi F)
    (ht : ∀ x s, lo ≤ x → x ≤ hi → I s → ∃ v s', (fn x).run s = some (.ok v, s')) (bo : BisectOpts α)
    (hm : bo.maxiter ≠ 0) (hlt : lo < hi) (hopp : ∀ yl yr, F lo yl → F hi yr → yl = 0 ∨ yr = 0 ∨ Opp yl yr)
    (s : σ) (hI : I s) : ∃ τ s', (bisect fn lo hi bo.tol bo.maxiter bo.rtol).run s = some (.ok τ, s') := by
  unfold bisect
  simp only [run_bind, run_ite, run_throw, run_pure, andThen_error]
  rw [if_neg (by simpa using hlt)]
  obtain ⟨yl, s1, h1⟩ := ht _ s le_rfl hlt.le hI
  have hI1 := hF.inv _ _ _ _ le_rfl hlt.le hI h1
  have hl := hF.val _ _ _ _ le_rfl hlt.le hI h1
  obtain ⟨yr, s2, h2⟩ := ht _ s1 hlt.le le_rfl hI1
  have hI2 := hF.inv _ _ _ _ hlt.le le_rfl hI1 h2
  have hr := hF.val _ _ _ _ hlt.le le_rfl hI1 h2
  rw [h1]
  simp only [andThen_ok, beq_iff_eq]
  split
  · exact ⟨_, _, rfl⟩
  · rename_i hl0
    rw [h2]
    simp only [andThen_ok]
    split
    · exact ⟨_, _, rfl⟩
    · rename_i hr0
      rcases hopp yl yr hl hr with h | h | h
      · exact absurd h hl0
      · exact absurd h hr0
      · rw [if_neg (by simpa using opp_mul h)]
        exact bisectLoop_total hF ht _ _ _ _ _ _ _ _ le_rfl hlt le_rfl (fun h => absurd h hm) hI2

end field
end Nbkode
