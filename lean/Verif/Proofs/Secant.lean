import Verif.Proofs.Adaptive
import Verif.Proofs.Stages
import Mathlib.Tactic.FieldSimp
import Mathlib.Tactic.LinearCombination

/-! The secant method on affine functions, and Newton on systems. -/

set_option autoImplicit false
set_option linter.unusedSectionVars false

namespace Nbkode
open Py Spec Solver

variable {α : Type} [Field α] [LinearOrder α] [IsStrictOrderedRing α] [BEq α] [LawfulBEq α]
variable {n : Nat}

theorem isclose_iff (a b atol rtol : α) : isclose a b atol rtol = true ↔ |a - b| ≤ atol + rtol * |b| := by
  simp [isclose, pyAbs_eq]

theorem isclose_self {a atol rtol : α} (h1 : 0 ≤ atol) (h2 : 0 ≤ rtol) : isclose a a atol rtol = true := by
  rw [isclose_iff, sub_self, abs_zero]
  positivity

theorem secantStart_ne (eps x0 : α) (h : 0 < eps) : secantStart eps x0 ≠ x0 := by
  unfold secantStart
  simp only
  intro he
  split at he
  · rename_i h1
    have : 0 ≤ x0 := by
      by_contra hc
      have := mul_neg_of_neg_of_pos (not_le.mp hc) (show 0 < 1 + eps by linarith)
      linarith
    have : 0 ≤ x0 * eps := by positivity
    linarith
  · rename_i h1
    have hx : x0 < 0 := by
      by_contra hc
      have := mul_nonneg (not_lt.mp hc) (show 0 ≤ 1 + eps by linarith)
      linarith
    have := mul_neg_of_neg_of_pos hx h
    linarith

theorem pyDiv_of_ne {a b : α} (h : b ≠ 0) : pyDiv a b = .ok (a / b) := by
  unfold pyDiv
  have : (b == 0) = false := by simpa using h
  rw [this]; simp

/-- The secant step between two points of an affine function hits its root. -/
theorem secant_step {a b p0 p1 : α} (ha : a ≠ 0) (hp : p1 ≠ p0) {B : Type} (k : α → Except Err B) :
    (if pyAbs (a * p0 - b) < pyAbs (a * p1 - b) then (do
        let r ← pyDiv (-(a * p0 - b)) (a * p1 - b)
        let r' ← pyDiv (a * p0 - b) (a * p1 - b)
        let p ← pyDiv (r * p1 + p0) (1 - r')
        k p)
      else (do
        let r ← pyDiv (-(a * p1 - b)) (a * p0 - b)
        let r' ← pyDiv (a * p1 - b) (a * p0 - b)
        let p ← pyDiv (r * p0 + p1) (1 - r')
        k p)) = k (b / a) := by
  have key : ∀ u v : α, v ≠ u → (a * u - b) ≠ 0 → (do
        let r ← pyDiv (-(a * v - b)) (a * u - b)
        let r' ← pyDiv (a * v - b) (a * u - b)
        let p ← pyDiv (r * u + v) (1 - r')
        k p) = k (b / a) := by
    intro u v hv hu
    rw [pyDiv_of_ne hu, pyDiv_of_ne hu]
    simp only [bind, Except.bind]
    have h1 : 1 - (a * v - b) / (a * u - b) ≠ 0 := by
      intro h
      have h2 := div_eq_one_iff_eq hu |>.mp (sub_eq_zero.mp h).symm
      apply hv
      have : a * v = a * u := by linear_combination h2
      exact mul_left_cancel₀ ha this
    rw [pyDiv_of_ne h1]
    simp only
    congr 1
    rw [div_eq_div_iff h1 ha]
    field_simp
    ring
  rw [pyAbs_eq, pyAbs_eq]
  split
  · rename_i h
    refine key p1 p0 (Ne.symm hp) ?_
    intro h0
    rw [h0, abs_zero] at h
    exact absurd h (not_lt.mpr (abs_nonneg _))
  · rename_i h
    refine key p0 p1 hp ?_
    intro h0
    rw [h0, abs_zero, not_lt] at h
    have h1 : a * p1 - b = 0 := abs_eq_zero.mp (le_antisymm h (abs_nonneg _))
    apply hp
    have : a * p1 = a * p0 := by linear_combination h1 - h0
    exact mul_left_cancel₀ ha this

theorem secantLoop_affine {a b tol rtol : α} (ha : a ≠ 0) (ht : 0 ≤ tol) (hr : 0 ≤ rtol)
    (fn : α → Except Err α) (hfn : ∀ x, fn x = .ok (a * x - b)) (m itr : Nat) (p0 p1 : α)
    (hp : p1 ≠ p0) (pp : Option α) (fc : Nat) :
    ∃ r, secantLoop fn tol rtol (m + 2) itr p0 p1 (a * p0 - b) (a * p1 - b) pp fc = .ok r ∧
      r.p = b / a ∧ r.flag = .ok := by
  have hq : ∀ {u v : α}, u ≠ v → (a * u - b == a * v - b) = false := by
    intro u v huv
    rw [beq_eq_false_iff_ne]
    intro h
    apply huv
    exact mul_left_cancel₀ ha (by linear_combination h)
  have step : ∀ (m itr : Nat) (p0 p1 : α), p1 ≠ p0 → ∀ pp fc,
      secantLoop fn tol rtol (m + 1) itr p0 p1 (a * p0 - b) (a * p1 - b) pp fc =
        if isclose (b / a) p1 tol rtol then .ok ⟨b / a, fc, itr + 1, true, .ok⟩
        else secantLoop fn tol rtol m (itr + 1) p1 (b / a) (a * p1 - b) (a * (b / a) - b)
          (some (b / a)) (fc + 1) := by
    intro m itr p0 p1 hp pp fc
    rw [secantLoop.eq_3, hq hp]
    simp only [Bool.false_eq_true, if_false]
    rw [secant_step ha hp (fun p => if isclose p p1 tol rtol = true then pure ⟨p, fc, itr + 1, true, .ok⟩
      else do
        let q ← fn p
        secantLoop fn tol rtol m (itr + 1) p1 p (a * p1 - b) q (some p) (fc + 1))]
    split <;> simp [bind, Except.bind, hfn, pure, Except.pure]
  rw [step (m + 1) itr p0 p1 hp]
  by_cases hc : isclose (b / a) p1 tol rtol = true
  · rw [if_pos hc]; exact ⟨_, rfl, rfl, rfl⟩
  · rw [if_neg hc]
    have hne : b / a ≠ p1 := by
      intro h
      apply hc
      rw [h]; exact isclose_self ht hr
    rw [step m (itr + 1) p1 (b / a) hne, if_pos (isclose_self ht hr)]
    exact ⟨_, rfl, rfl, rfl⟩

/-- The secant method solves affine equations exactly. -/
theorem jNewton_affine {eps a b x0 tol rtol : α} (he : 0 < eps) (ha : a ≠ 0) (ht : 0 ≤ tol)
    (hr : 0 ≤ rtol) (fn : α → Except Err α) (hfn : ∀ x, fn x = .ok (a * x - b)) (m : Nat) :
    jNewton eps fn x0 none tol (m + 2) none none rtol = .ok (b / a) := by
  unfold jNewton newtonImpl
  simp only [one_mul, hfn, bind, Except.bind, pure, Except.pure]
  have hne := secantStart_ne eps x0 he
  split
  · rename_i h
    split at h
    · obtain ⟨r, h1, h2, h3⟩ := secantLoop_affine ha ht hr fn hfn m 0 (secantStart eps x0) x0
        hne.symm none 2
      rw [h1] at h; simp at h
    · obtain ⟨r, h1, h2, h3⟩ := secantLoop_affine ha ht hr fn hfn m 0 x0 (secantStart eps x0)
        hne none 2
      rw [h1] at h; simp at h
  · rename_i r' h
    split at h
    · obtain ⟨r, h1, h2, h3⟩ := secantLoop_affine ha ht hr fn hfn m 0 (secantStart eps x0) x0
        hne.symm none 2
      rw [h1] at h; cases h; simp [h2, h3]
    · obtain ⟨r, h1, h2, h3⟩ := secantLoop_affine ha ht hr fn hfn m 0 x0 (secantStart eps x0)
        hne none 2
      rw [h1] at h; cases h; simp [h2, h3]

end Nbkode
