import Verif.Proofs.Newton
import Verif.Props.RealLib

/-!
# Root finders: C56, C57
-/

set_option autoImplicit false
set_option linter.unusedSectionVars false

namespace Nbkode
open Py Spec Solver

variable {α : Type} [Field α] [LinearOrder α] [IsStrictOrderedRing α] [BEq α] [LawfulBEq α]
variable {n : Nat}

/-- What the result `r` of at most `m` Newton steps from `x0` means. -/
def NewtonMeaning (fn fprime : α → Except Err α) (fprime2 : Option (α → Except Err α)) (tol rtol x0 : α)
    (m : Nat) (r : NewtonResult α) : Prop :=
  match r.flag with
  | .ok => ∃ j < m, (NewtonIter fn fprime fprime2 j x0 r.p ∧ fn r.p = .ok 0) ∨
      ∃ p0, NewtonIter fn fprime fprime2 j x0 p0 ∧ NewtonStep fn fprime fprime2 p0 r.p ∧
        |r.p - p0| ≤ tol + rtol * |p0|
  | .derivativeWasZero => ∃ j < m, NewtonIter fn fprime fprime2 j x0 r.p ∧ fprime r.p = .ok 0 ∧
      ∃ v, fn r.p = .ok v ∧ v ≠ 0
  | .notConverged => NewtonIter fn fprime fprime2 m x0 r.p
  | .toleranceReached => False

/-- One successful round of the loop, as a Newton step. -/
theorem newtonLoop_succ (fn fprime : α → Except Err α) (fprime2 : Option (α → Except Err α))
    (tol rtol : α) (left itr : Nat) (p0 : α) (pp : Option α) (fc : Nat) (r : NewtonResult α)
    (h : newtonLoop fn fprime fprime2 tol rtol (left + 1) itr p0 pp fc = .ok r) :
    (fn p0 = .ok 0 ∧ r.p = p0 ∧ r.flag = .ok ∧ r.itr = itr ∧ r.econverged = true) ∨
    (∃ v, fn p0 = .ok v ∧ v ≠ 0 ∧ fprime p0 = .ok 0 ∧ r.p = p0 ∧ r.flag = .derivativeWasZero ∧
      r.itr = itr + 1 ∧ r.econverged = false) ∨
    ∃ p, NewtonStep fn fprime fprime2 p0 p ∧
      ((|p - p0| ≤ tol + rtol * |p0| ∧ r.p = p ∧ r.flag = .ok ∧ r.itr = itr + 1 ∧
          r.econverged = true) ∨
        (¬ |p - p0| ≤ tol + rtol * |p0| ∧
          ∃ fc', newtonLoop fn fprime fprime2 tol rtol left (itr + 1) p (some p) fc' = .ok r)) := by
  rw [newtonLoop.eq_3] at h
  cases hv : fn p0 with
  | error e => simp [hv, bind, Except.bind] at h
  | ok v =>
    by_cases h0 : v = 0
    · subst h0
      simp [hv, bind, Except.bind, pure, Except.pure] at h
      subst h
      exact Or.inl ⟨rfl, rfl, rfl, rfl, rfl⟩
    · right
      have hb : (v == 0) = false := by simpa using h0
      cases hd : fprime p0 with
      | error e => simp [hv, hd, hb, bind, Except.bind] at h
      | ok d =>
        by_cases hd0 : d = 0
        · subst hd0
          simp [hv, hd, hb, bind, Except.bind, pure, Except.pure] at h
          subst h
          exact Or.inl ⟨v, rfl, h0, rfl, rfl, rfl, rfl, rfl⟩
        · right
          have hb' : (d == 0) = false := by simpa using hd0
          have fin : ∀ (p : α) (fc' : Nat),
              (if isclose p p0 tol rtol = true then
                (Except.ok ⟨p, fc', itr + 1, true, .ok⟩ : Except Err (NewtonResult α))
               else newtonLoop fn fprime fprime2 tol rtol left (itr + 1) p (some p) fc') = .ok r →
              ((|p - p0| ≤ tol + rtol * |p0| ∧ r.p = p ∧ r.flag = .ok ∧ r.itr = itr + 1 ∧
                r.econverged = true) ∨
              (¬ |p - p0| ≤ tol + rtol * |p0| ∧
                ∃ fc', newtonLoop fn fprime fprime2 tol rtol left (itr + 1) p (some p) fc' = .ok r)) := by
            intro p fc' h
            by_cases hc : isclose p p0 tol rtol = true
            · rw [if_pos hc] at h
              cases h
              exact Or.inl ⟨(isclose_iff _ _ _ _).mp hc, rfl, rfl, rfl, rfl⟩
            · rw [if_neg hc] at h
              rw [isclose_iff] at hc
              exact Or.inr ⟨hc, _, h⟩
          cases fprime2 with
          | none =>
            refine ⟨p0 - v / d, ⟨v, d, hv, hd, h0, hd0, rfl⟩, ?_⟩
            apply fin _ (fc + 2)
            rw [← h]
            simp [hv, hd, hb, hb', bind, Except.bind, pure, Except.pure, pyDiv_of_ne hd0]
          | some f2 =>
            cases hd2 : f2 p0 with
            | error e =>
              simp [hv, hd, hb, hb', bind, Except.bind, pure, Except.pure, pyDiv_of_ne hd0, hd2] at h
            | ok d2 =>
              by_cases ha : |v / d * d2 / d / 2| < 1
              · have hne : 1 - v / d * d2 / d / 2 ≠ 0 := by
                  intro h1
                  rw [← sub_eq_zero.mp h1, abs_one] at ha
                  exact lt_irrefl _ ha
                refine ⟨p0 - v / d / (1 - v / d * d2 / d / 2),
                  ⟨v, d, hv, hd, h0, hd0, d2, hd2, by simp only [ha, if_true]⟩, ?_⟩
                apply fin _ (fc + 3)
                rw [← h]
                simp [hv, hd, hb, hb', bind, Except.bind, pure, Except.pure, pyDiv_of_ne hd0, hd2,
                  pyDiv_of_ne (two_ne_zero (α := α)), pyAbs_eq, ha, pyDiv_of_ne hne]
              · refine ⟨p0 - v / d,
                  ⟨v, d, hv, hd, h0, hd0, d2, hd2, by simp only [ha, if_false]⟩, ?_⟩
                apply fin _ (fc + 3)
                rw [← h]
                simp [hv, hd, hb, hb', bind, Except.bind, pure, Except.pure, pyDiv_of_ne hd0, hd2,
                  pyDiv_of_ne (two_ne_zero (α := α)), pyAbs_eq, ha]

theorem newtonLoop_meaning (fn fprime : α → Except Err α) (fprime2 : Option (α → Except Err α))
    (tol rtol : α) (left itr : Nat) (p0 : α) (pp : Option α) (hpp : pp = none ∨ pp = some p0)
    (fc : Nat) (r : NewtonResult α)
    (h : newtonLoop fn fprime fprime2 tol rtol left itr p0 pp fc = .ok r) :
    NewtonMeaning fn fprime fprime2 tol rtol p0 left r ∧ r.itr ≤ itr + left ∧
      (r.econverged = true ↔ r.flag = .ok) := by
  induction left generalizing itr p0 pp fc with
  | zero =>
    rcases hpp with rfl | rfl
    · simp [newtonLoop] at h
    · simp only [newtonLoop, Except.ok.injEq] at h
      subst h
      exact ⟨.zero _, by simp, by simp⟩
  | succ left ih =>
    rcases newtonLoop_succ fn fprime fprime2 tol rtol left itr p0 pp fc r h with
      ⟨h1, h2, h3, h4, h5⟩ | ⟨v, h1, h2, h3, h4, h5, h6, h7⟩ | ⟨p, hs, h1 | ⟨_, fc', h1⟩⟩
    · refine ⟨?_, by omega, by simp [h3, h5]⟩
      unfold NewtonMeaning
      rw [h3, h2]
      exact ⟨0, by omega, Or.inl ⟨.zero _, h1⟩⟩
    · refine ⟨?_, by omega, by simp [h5, h7]⟩
      unfold NewtonMeaning
      rw [h5, h4]
      exact ⟨0, by omega, .zero _, h3, v, h1, h2⟩
    · obtain ⟨h1, h2, h3, h4, h5⟩ := h1
      refine ⟨?_, by omega, by simp [h3, h5]⟩
      unfold NewtonMeaning
      rw [h3, h2]
      exact ⟨0, by omega, Or.inr ⟨p0, .zero _, hs, h1⟩⟩
    · obtain ⟨i1, i2, i3⟩ := ih (itr + 1) p (some p) (Or.inr rfl) fc' h1
      refine ⟨?_, by omega, i3⟩
      unfold NewtonMeaning at *
      cases hf : r.flag with
      | ok =>
        rw [hf] at i1
        obtain ⟨j, hj, ⟨a, b⟩ | ⟨q, a, b⟩⟩ := i1
        · exact ⟨j + 1, by omega, Or.inl ⟨.succ hs a, b⟩⟩
        · exact ⟨j + 1, by omega, Or.inr ⟨q, .succ hs a, b⟩⟩
      | derivativeWasZero =>
        rw [hf] at i1
        obtain ⟨j, hj, a, b⟩ := i1
        exact ⟨j + 1, by omega, .succ hs a, b⟩
      | toleranceReached => rw [hf] at i1; exact i1
      | notConverged => rw [hf] at i1; exact .succ hs i1

/-- **C56**, with a derivative: whatever the functions do, if `_newton` returns, the flag tells the truth and at most
`maxiter` iterations were made. `OK` means: the result is an iterate where the function is exactly zero, or it
agrees within tolerance with the iterate it was computed from. -/
theorem C56_newton_derivative (eps : α) (fn fprime : α → Except Err α)
    (fprime2 : Option (α → Except Err α)) (x0 tol rtol : α) (m : Nat) (x1 : Option α)
    (r : NewtonResult α)
    (h : newtonImpl eps fn x0 (some fprime) tol m fprime2 x1 rtol = .ok r) :
    NewtonMeaning fn fprime fprime2 tol rtol x0 m r ∧ r.itr ≤ m ∧
      (r.econverged = true ↔ r.flag = .ok) := by
  unfold newtonImpl at h
  simp only [one_mul] at h
  have := newtonLoop_meaning fn fprime fprime2 tol rtol m 0 x0 none (Or.inl rfl) 0 r h
  simpa using this

/-- What the result `r` of at most `m` secant steps from the pair `a`, `b` means. -/
def SecantMeaning (fn : α → Except Err α) (tol rtol a b : α) (m : Nat) (r : NewtonResult α) : Prop :=
  match r.flag with
  | .ok => ∃ j < m, ∃ p0 p1, SecantIter fn j a b p0 p1 ∧
      ((∃ q0 q1, fn p0 = .ok q0 ∧ fn p1 = .ok q1 ∧ SecantPoint p0 q0 p1 q1 r.p ∧
        |r.p - p1| ≤ tol + rtol * |p1|) ∨ (p0 = p1 ∧ r.p = p1))
  | .toleranceReached => ∃ j < m, ∃ p0 p1 q, SecantIter fn j a b p0 p1 ∧ p0 ≠ p1 ∧
      fn p0 = .ok q ∧ fn p1 = .ok q ∧ r.p = (p1 + p0) / 2
  | .notConverged => ∃ p, SecantIter fn m a b p r.p
  | .derivativeWasZero => False

theorem secantLoop_succ (fn : α → Except Err α) (tol rtol : α) (left itr : Nat) (p0 p1 q0 q1 : α)
    (pp : Option α) (fc : Nat) (r : NewtonResult α)
    (h : secantLoop fn tol rtol (left + 1) itr p0 p1 q0 q1 pp fc = .ok r) :
    (q1 = q0 ∧ r = ⟨(p1 + p0) / 2, fc, itr + 1, true,
      if p1 = p0 then .ok else .toleranceReached⟩) ∨
    ∃ p, SecantPoint p0 q0 p1 q1 p ∧
      ((|p - p1| ≤ tol + rtol * |p1| ∧ r = ⟨p, fc, itr + 1, true, .ok⟩) ∨
        ∃ q, ¬ |p - p1| ≤ tol + rtol * |p1| ∧ fn p = .ok q ∧
          secantLoop fn tol rtol left (itr + 1) p1 p q1 q (some p) (fc + 1) = .ok r) := by
  rw [secantLoop.eq_3] at h
  by_cases hq : q1 = q0
  · left
    refine ⟨hq, ?_⟩
    subst hq
    simp only [beq_self_eq_true, if_true, Nat.cast_ofNat, pyDiv_of_ne (two_ne_zero (α := α)), bind,
      Except.bind, pure, Except.pure, Except.ok.injEq, beq_iff_eq] at h
    exact h.symm
  · right
    have hb : (q1 == q0) = false := by simpa using hq
    rw [hb] at h
    simp only [Bool.false_eq_true, if_false, pyAbs_eq] at h
    have key : ∀ (u v qu qv : α), qu ≠ qv → qu ≠ 0 → 1 - qv / qu ≠ 0 ∧
        ((-qv / qu * u + v) / (1 - qv / qu)) * (qu - qv) = v * qu - u * qv := by
      intro u v qu qv h1 h2
      have h3 : 1 - qv / qu ≠ 0 := by
        intro h4
        exact h1 ((div_eq_one_iff_eq h2).mp (sub_eq_zero.mp h4).symm).symm
      refine ⟨h3, ?_⟩
      have h5 : 1 - qv / qu = (qu - qv) / qu := by field_simp
      rw [h5]
      have h6 : qu - qv ≠ 0 := sub_ne_zero.mpr h1
      field_simp
      ring
    have fin : ∀ p, (do
        if isclose p p1 tol rtol = true then
          return (⟨p, fc, itr + 1, true, .ok⟩ : NewtonResult α)
        let q ← fn p
        secantLoop fn tol rtol left (itr + 1) p1 p q1 q (some p) (fc + 1) : Except Err _) = .ok r →
        ((|p - p1| ≤ tol + rtol * |p1| ∧ r = ⟨p, fc, itr + 1, true, .ok⟩) ∨
        ∃ q, ¬ |p - p1| ≤ tol + rtol * |p1| ∧ fn p = .ok q ∧
          secantLoop fn tol rtol left (itr + 1) p1 p q1 q (some p) (fc + 1) = .ok r) := by
      intro p h
      by_cases hc : isclose p p1 tol rtol = true
      · simp only [hc, if_true, pure, Except.pure, Except.ok.injEq] at h
        exact Or.inl ⟨(isclose_iff _ _ _ _).mp hc, h.symm⟩
      · right
        have hc' := (isclose_iff _ _ _ _).not.mp hc
        simp only [hc] at h
        cases hf : fn p with
        | error e => simp [hf, bind, Except.bind, pure, Except.pure] at h
        | ok q => simp [hf, bind, Except.bind, pure, Except.pure] at h; exact ⟨q, hc', rfl, h⟩
    by_cases hlt : |q0| < |q1|
    · rw [if_pos hlt] at h
      have hq1 : q1 ≠ 0 := by
        rintro rfl; rw [abs_zero] at hlt; exact absurd hlt (not_lt.mpr (abs_nonneg _))
      obtain ⟨k1, k2⟩ := key p1 p0 q1 q0 hq hq1
      simp only [pyDiv_of_ne hq1, bind, Except.bind] at h
      rw [pyDiv_of_ne k1] at h
      exact ⟨_, ⟨hq, k2⟩, fin _ h⟩
    · rw [if_neg hlt] at h
      have hq0 : q0 ≠ 0 := by
        rintro rfl
        rw [abs_zero, not_lt] at hlt
        exact hq (abs_eq_zero.mp (le_antisymm hlt (abs_nonneg _)))
      obtain ⟨k1, k2⟩ := key p0 p1 q0 q1 (Ne.symm hq) hq0
      simp only [pyDiv_of_ne hq0, bind, Except.bind] at h
      rw [pyDiv_of_ne k1] at h
      exact ⟨_, ⟨hq, by linear_combination -k2⟩, fin _ h⟩

theorem secantLoop_meaning (fn : α → Except Err α) (tol rtol : α) (left itr : Nat) (p0 p1 q0 q1 : α)
    (h0 : fn p0 = .ok q0) (h1 : fn p1 = .ok q1) (pp : Option α) (hpp : pp = none ∨ pp = some p1)
    (fc : Nat) (r : NewtonResult α)
    (h : secantLoop fn tol rtol left itr p0 p1 q0 q1 pp fc = .ok r) :
    SecantMeaning fn tol rtol p0 p1 left r ∧ r.itr ≤ itr + left := by
  induction left generalizing itr p0 p1 q0 q1 pp fc with
  | zero =>
    rcases hpp with rfl | rfl
    · simp [secantLoop] at h
    · simp only [secantLoop, Except.ok.injEq] at h
      subst h
      exact ⟨⟨p0, .zero _ _⟩, by simp⟩
  | succ left ih =>
    rcases secantLoop_succ fn tol rtol left itr p0 p1 q0 q1 pp fc r h with
      ⟨rfl, rfl⟩ | ⟨p, hp, ⟨hc, rfl⟩ | ⟨q, -, hf, hr⟩⟩
    · refine ⟨?_, by simp⟩
      unfold SecantMeaning
      by_cases he : p1 = p0
      · subst he
        simp only [if_true]
        refine ⟨0, by omega, p1, p1, .zero _ _, Or.inr ⟨rfl, ?_⟩⟩
        field_simp; ring
      · simp only [he, if_false]
        exact ⟨0, by omega, p0, p1, q1, .zero _ _, Ne.symm he, h0, h1, rfl⟩
    · refine ⟨?_, by simp⟩
      unfold SecantMeaning
      exact ⟨0, by omega, p0, p1, .zero _ _, Or.inl ⟨q0, q1, h0, h1, hp, hc⟩⟩
    · obtain ⟨i1, i2⟩ := ih (itr + 1) p1 p q1 q h1 hf (some p) (Or.inr rfl) (fc + 1) hr
      refine ⟨?_, by omega⟩
      unfold SecantMeaning at *
      cases hfl : r.flag with
      | ok =>
        rw [hfl] at i1
        obtain ⟨j, hj, a, b, hi, hh⟩ := i1
        exact ⟨j + 1, by omega, a, b, .succ h0 h1 hp hi, hh⟩
      | toleranceReached =>
        rw [hfl] at i1
        obtain ⟨j, hj, a, b, c, hi, hh⟩ := i1
        exact ⟨j + 1, by omega, a, b, c, .succ h0 h1 hp hi, hh⟩
      | derivativeWasZero => rw [hfl] at i1; exact i1
      | notConverged =>
        rw [hfl] at i1
        obtain ⟨a, hi⟩ := i1
        exact ⟨a, .succ h0 h1 hp hi⟩

/-- **C56**, without a derivative (secant): the same. The iteration starts from the two start points, the one with the
smaller function value first. -/
theorem C56_newton_secant (eps : α) (fn : α → Except Err α)
    (fprime2 : Option (α → Except Err α)) (x0 tol rtol : α) (m : Nat) (x1 : Option α)
    (r : NewtonResult α) (h : newtonImpl eps fn x0 none tol m fprime2 x1 rtol = .ok r) :
    (SecantMeaning fn tol rtol x0 (x1.getD (secantStart eps x0)) m r ∨
      SecantMeaning fn tol rtol (x1.getD (secantStart eps x0)) x0 m r) ∧ r.itr ≤ m := by
  have key : ∀ p1, (do
      let q0 ← fn x0
      let q1 ← fn p1
      if pyAbs q1 < pyAbs q0 then
        secantLoop fn tol rtol m 0 p1 x0 q1 q0 none 2
      else
        secantLoop fn tol rtol m 0 x0 p1 q0 q1 none 2 : Except Err _) = .ok r →
      (SecantMeaning fn tol rtol x0 p1 m r ∨ SecantMeaning fn tol rtol p1 x0 m r) ∧ r.itr ≤ m := by
    intro p1 h
    cases h0 : fn x0 with
    | error e => simp [h0, bind, Except.bind] at h
    | ok q0 =>
      cases h1 : fn p1 with
      | error e => simp [h0, h1, bind, Except.bind] at h
      | ok q1 =>
        simp only [h0, h1, bind, Except.bind] at h
        split at h
        · obtain ⟨a, b⟩ := secantLoop_meaning fn tol rtol m 0 p1 x0 q1 q0 h1 h0 none (Or.inl rfl) 2 r h
          exact ⟨Or.inr a, by simpa using b⟩
        · obtain ⟨a, b⟩ := secantLoop_meaning fn tol rtol m 0 x0 p1 q0 q1 h0 h1 none (Or.inl rfl) 2 r h
          exact ⟨Or.inl a, by simpa using b⟩
  unfold newtonImpl at h
  simp only [one_mul] at h
  cases x1 with
  | none => exact key _ h
  | some x1 =>
    simp only at h
    split at h
    · simp [bind, Except.bind, throw, throwThe, MonadExceptOf.throw] at h
    · exact key x1 h

/-- **C56**, what the callers see: `j_newton` returns exactly the `OK` results, and reports every other completed
search with `RuntimeError`. -/
theorem C56_jNewton (eps : α) (fn : α → Except Err α) (x0 : α) (fprime : Option (α → Except Err α))
    (tol : α) (m : Nat) (fprime2 : Option (α → Except Err α)) (x1 : Option α) (rtol : α) :
    jNewton eps fn x0 fprime tol m fprime2 x1 rtol =
      match newtonImpl eps fn x0 fprime tol m fprime2 x1 rtol with
      | .error e => .error e
      | .ok r => if r.flag = .ok then .ok r.p else .error .runtimeError := by
  unfold jNewton
  cases newtonImpl eps fn x0 fprime tol m fprime2 x1 rtol with
  | error e => rfl
  | ok r => by_cases h : r.flag = .ok <;> simp [bind, Except.bind, h, pure, Except.pure, throw, throwThe, MonadExceptOf.throw]

/-- **C56**, `newton`: bad `tol` or `maxiter` is a `ValueError`, otherwise it is `j_newton`. -/
theorem C56_newton (eps : α) (fn : α → Except Err α) (x0 : α) (fprime : Option (α → Except Err α))
    (tol : α) (m : Int) (fprime2 : Option (α → Except Err α)) (x1 : Option α) (rtol : α) :
    newton eps fn x0 fprime tol m fprime2 x1 rtol =
      if tol ≤ 0 ∨ m < 1 then .error .valueError
      else jNewton eps fn x0 fprime tol m.toNat fprime2 x1 rtol := by
  unfold newton jNewton
  by_cases h1 : tol ≤ 0 <;> by_cases h2 : m < 1 <;>
    simp [h1, h2, bind, Except.bind, throw, throwThe, MonadExceptOf.throw, pure, Except.pure]

/-- **C56**, refused arguments. -/
theorem C56_refuses (eps : α) (fn : α → Except Err α) (x0 : α) (fprime : Option (α → Except Err α)) (tol : α) (m : Int)
    (fprime2 : Option (α → Except Err α)) (x1 : Option α) (rtol : α) (h : tol ≤ 0 ∨ m < 1) :
    newton eps fn x0 fprime tol m fprime2 x1 rtol = .error .valueError := by
  rw [C56_newton, if_pos h]

theorem newton_result {eps : α} {fn : α → Except Err α} {x0 : α} {fprime : Option (α → Except Err α)} {tol : α} {m : Int}
    {fprime2 : Option (α → Except Err α)} {x1 : Option α} {rtol p : α}
    (h : newton eps fn x0 fprime tol m fprime2 x1 rtol = .ok p) :
    0 < tol ∧ 1 ≤ m ∧ ∃ r, newtonImpl eps fn x0 fprime tol m.toNat fprime2 x1 rtol = .ok r ∧ r.flag = .ok ∧ r.p = p := by
  rw [C56_newton] at h
  split at h
  · cases h
  · rename_i hc
    rw [not_or, not_le, not_lt] at hc
    refine ⟨hc.1, hc.2, ?_⟩
    rw [C56_jNewton] at h
    split at h
    · cases h
    · rename_i r hr
      split at h
      · exact ⟨r, hr, ‹_›, Except.ok.inj h⟩
      · cases h

/-- **C56**, the whole call with a derivative: what `newton` returns was reached from `x0` by fewer than `maxiter` Newton (or
Halley) steps and either is an exact zero, or one more step made it and that step was no longer than
`tol + rtol * |p0|`. -/
theorem C56_returns (eps : α) (fn fprime : α → Except Err α) (x0 tol : α) (m : Int) (fprime2 : Option (α → Except Err α))
    (x1 : Option α) (rtol p : α) (h : newton eps fn x0 (some fprime) tol m fprime2 x1 rtol = .ok p) :
    ∃ j : Nat, j < m ∧ ((NewtonIter fn fprime fprime2 j x0 p ∧ fn p = .ok 0) ∨
      ∃ p0, NewtonIter fn fprime fprime2 j x0 p0 ∧ NewtonStep fn fprime fprime2 p0 p ∧ |p - p0| ≤ tol + rtol * |p0|) := by
  obtain ⟨-, hm, r, hr, hf, rfl⟩ := newton_result h
  have := (C56_newton_derivative eps fn fprime fprime2 x0 tol rtol m.toNat x1 r hr).1
  unfold NewtonMeaning at this
  rw [hf] at this
  obtain ⟨j, hj, h⟩ := this
  exact ⟨j, by omega, h⟩

/-- **C56**, the whole call without a derivative: `newton` returns the end of fewer than `maxiter` secant steps from `x0` and a
second point (`x1`, or `x0 * (1 + eps)` moved by `eps` away from zero), in either order, followed by one no
longer than `tol + rtol * |p1|`; or the two points coincide. -/
theorem C56_returns_secant (eps : α) (fn : α → Except Err α) (x0 tol : α) (m : Int) (fprime2 : Option (α → Except Err α))
    (x1 : Option α) (rtol p : α) (h : newton eps fn x0 none tol m fprime2 x1 rtol = .ok p) :
    ∃ b, (∀ v, x1 = some v → b = v) ∧ (x1 = none → 0 ≤ x0 * (1 + eps) → b = x0 * (1 + eps) + eps) ∧
      (x1 = none → x0 * (1 + eps) < 0 → b = x0 * (1 + eps) - eps) ∧
      ∃ (j : Nat) (a c p0 p1 : α), j < m ∧ ((a = x0 ∧ c = b) ∨ (a = b ∧ c = x0)) ∧ SecantIter fn j a c p0 p1 ∧
        ((∃ q0 q1, fn p0 = .ok q0 ∧ fn p1 = .ok q1 ∧ SecantPoint p0 q0 p1 q1 p ∧ |p - p1| ≤ tol + rtol * |p1|) ∨
          (p0 = p1 ∧ p = p1)) := by
  obtain ⟨-, hm, r, hr, hf, rfl⟩ := newton_result h
  refine ⟨x1.getD (secantStart eps x0), ?_, ?_, ?_, ?_⟩
  · rintro v rfl; rfl
  · rintro rfl h0
    simp only [Option.getD_none, secantStart, if_pos h0]
  · rintro rfl h0
    simp only [Option.getD_none, secantStart, if_neg (not_le.mpr h0), sub_eq_add_neg]
  · have key : ∀ a c, SecantMeaning fn tol rtol a c m.toNat r → ∃ (j : Nat) (p0 p1 : α), j < m ∧ SecantIter fn j a c p0 p1 ∧
        ((∃ q0 q1, fn p0 = .ok q0 ∧ fn p1 = .ok q1 ∧ SecantPoint p0 q0 p1 q1 r.p ∧ |r.p - p1| ≤ tol + rtol * |p1|) ∨
          (p0 = p1 ∧ r.p = p1)) := by
      intro a c hm
      unfold SecantMeaning at hm
      rw [hf] at hm
      obtain ⟨j, hj, p0, p1, h⟩ := hm
      exact ⟨j, p0, p1, by omega, h⟩
    rcases (C56_newton_secant eps fn fprime2 x0 tol rtol m.toNat x1 r hr).1 with h | h
    · obtain ⟨j, p0, p1, h1, h2⟩ := key _ _ h
      exact ⟨j, _, _, p0, p1, h1, Or.inl ⟨rfl, rfl⟩, h2⟩
    · obtain ⟨j, p0, p1, h1, h2⟩ := key _ _ h
      exact ⟨j, _, _, p0, p1, h1, Or.inr ⟨rfl, rfl⟩, h2⟩

/-- **C57.** `newton_hd` either raises or returns a point reached by at most `maxiter` Newton updates with
`||F(y)||_2 <= atol`. -/
theorem C57_newtonHd (lib : Lib α) (eps : α) (fn : Vec α n → Except Err (Vec α n)) (y0 : Vec α n)
    (atol rtol : α) (m : Nat) (y : Vec α n)
    (h : newtonHd lib eps fn y0 atol rtol m = .ok y) :
    ∃ j ≤ m, Updates lib eps fn j y0 y ∧ ∃ v, fn y = .ok v ∧ |euclid lib v| ≤ atol := newtonHd_ok h

/-- **C57**, failure: a search given up after `maxiter` (that is, `maxiter + 1` updates) is a `RuntimeError`. -/
theorem C57_newtonHd_fails (lib : Lib α) (eps : α) (fn : Vec α n → Except Err (Vec α n)) (y0 : Vec α n)
    (atol rtol : α) (m : Nat) (y : Vec α n)
    (h : newtonHdImpl lib eps fn y0 atol rtol m = .ok (y, .notConverged)) :
    newtonHd lib eps fn y0 atol rtol m = .error .runtimeError ∧ Updates lib eps fn (m + 1) y0 y := by
  refine ⟨by simp [newtonHd, h, bind, Except.bind, throw, throwThe, MonadExceptOf.throw], ?_⟩
  unfold newtonHdImpl at h
  cases hv : fn y0 with
  | error e => simp [hv, bind, Except.bind] at h
  | ok v =>
    simp only [hv, bind, Except.bind] at h
    rcases newtonHdLoop_ok lib eps fn atol rtol m y0 v hv y _ h with ⟨h1, _⟩ | ⟨_, h1⟩
    · simp at h1
    · exact h1

/-- **C57**, affine systems: `F(y) = A y - b` with regular `A` and an exact linear solver. If the start is not already
good enough, the result of one update is returned, and it solves the system exactly. -/
theorem C57_affine (lib : Lib α) (hs : ExactSolve lib) (hq : lib.sqrt 0 = 0) (eps : α) (he : eps ≠ 0)
    (A : Fin n → Fin n → α) (hA : ∀ x : Vec α n, (∀ i, ∑ j, A i j * x j = 0) → x = 0) (b : Vec α n)
    (y0 : Vec α n) (atol rtol : α) (ha : 0 ≤ atol) (m : Nat) :
    ∃ y, newtonHd lib eps (fun y => .ok fun i => ∑ j, A i j * y j - b i) y0 atol rtol (m + 1) = .ok y ∧
      ((y = y0 ∧ |euclid lib (fun i => ∑ j, A i j * y0 j - b i)| ≤ atol) ∨
        ∀ i, ∑ j, A i j * y j = b i) := by
  set fn : Vec α n → Except Err (Vec α n) := fun y => .ok fun i => ∑ j, A i j * y j - b i with hfn
  have hC : CentralDiff eps fn y0 A := by
    intro i
    refine ⟨_, _, rfl, rfl, fun r => ?_⟩
    have h1 : ∀ e, ∑ j, A r j * Function.update y0 i (y0 i + e) j = ∑ j, A r j * y0 j + A r i * e := by
      intro e
      have : ∀ j, A r j * Function.update y0 i (y0 i + e) j =
          A r j * y0 j + if j = i then A r i * e else 0 := by
        intro j
        by_cases hj : j = i
        · subst hj; simp; ring
        · simp [hj]
      simp only [this, Finset.sum_add_distrib]
      simp
    have h2 := h1 (-eps)
    rw [← sub_eq_add_neg] at h2
    rw [h1, h2]
    field_simp
    ring
  by_cases hc : |euclid lib (fun i => ∑ j, A i j * y0 j - b i)| ≤ atol
  · refine ⟨y0, ?_, Or.inl ⟨rfl, hc⟩⟩
    unfold newtonHd newtonHdImpl
    simp only [hfn, bind, Except.bind]
    rw [newtonHdLoop.eq_1, norm2_eq, if_pos]
    · rfl
    · rw [isclose_iff]; simpa using hc
  · obtain ⟨d, hd⟩ := hs.complete A (-(fun i => ∑ j, A i j * y0 j - b i)) hA
    have hsol := hs.sound _ _ _ hd
    have hy : ∀ i, ∑ j, A i j * (y0 + d) j = b i := by
      intro i
      have := hsol i
      simp only [Pi.add_apply, Pi.neg_apply, mul_add, Finset.sum_add_distrib] at this ⊢
      rw [this]; ring
    refine ⟨y0 + d, ?_, Or.inr hy⟩
    have hz : (fun i => ∑ j, A i j * (y0 + d) j - b i) = (0 : Vec α n) := by
      funext i; rw [hy i]; simp
    unfold newtonHd newtonHdImpl
    have hfy : fn (y0 + d) = .ok 0 := by rw [hfn]; simp only [hz]
    have h0 : fn y0 = .ok (fun i => ∑ j, A i j * y0 j - b i) := rfl
    simp only [h0, bind, Except.bind]
    rw [newtonHdLoop.eq_1, norm2_eq, if_neg (by rw [isclose_iff]; simpa using hc), jacobian_of hC]
    simp only [bind, Except.bind, hd, hfy]
    rw [newtonHdLoop.eq_1, norm2_eq, if_pos]
    · rfl
    · have : euclid lib (0 : Vec α n) = 0 := by simp [euclid, hq]
      rw [isclose_iff, this]; simpa using ha

/-! ### Concrete searches -/

/-- **C56**: Newton on `x^2 - 4` from `3` with tolerance `1/100` converges; from `0` the derivative vanishes; one
iteration is not enough. -/
example : (newtonImpl (1 / 10000) (fun x : ℚ => .ok (x ^ 2 - 4)) 3 (some fun x => .ok (2 * x)) (1 / 100) 50 none none
    0).map (fun r => (r.flag, r.itr)) = .ok (.ok, 3) := by decide +kernel
example : (newtonImpl (1 / 10000) (fun x : ℚ => .ok (x ^ 2 - 4)) 0 (some fun x => .ok (2 * x)) (1 / 100) 50 none none
    0).map (fun r => (r.flag, r.p)) = .ok (.derivativeWasZero, 0) := by decide +kernel
example : (newtonImpl (1 / 10000) (fun x : ℚ => .ok (x ^ 2 - 4)) 3 (some fun x => .ok (2 * x)) (1 / 100) 1 none none
    0).map (fun r => (r.flag, r.itr)) = .ok (.notConverged, 1) := by decide +kernel

/-- **C56**, the calls a user makes: converging with and without a derivative, refused, given up, flat. -/
example : (newton (1 / 10000) (fun x : ℚ => .ok (x ^ 2 - 4)) 3 (some fun x => .ok (2 * x)) (1 / 100) 50 none none 0).toBool =
      true ∧
    (newton (1 / 10000) (fun x : ℚ => .ok (x ^ 2 - 4)) 3 (some fun x => .ok (2 * x)) (1 / 100) 50 (some fun _ => .ok 2) none
      0).toBool = true ∧
    (newton (1 / 10000) (fun x : ℚ => .ok (x ^ 2 - 4)) 3 none (1 / 100) 50 none (some 1) 0).toBool = true ∧
    newton (1 / 10000) (fun x : ℚ => .ok (x ^ 2 - 4)) 3 none 0 50 none none 0 = .error .valueError ∧
    newton (1 / 10000) (fun x : ℚ => .ok (x ^ 2 - 4)) 3 (some fun x => .ok (2 * x)) (1 / 100) 1 none none 0 =
      .error .runtimeError ∧
    newton (1 / 10000) (fun x : ℚ => .ok (x ^ 2 - 4)) 0 (some fun x => .ok (2 * x)) (1 / 100) 50 none none 0 =
      .error .runtimeError := by decide +kernel

/-- The secant search on the same function. -/
example : (newtonImpl (1 / 10000) (fun x : ℚ => .ok (x ^ 2 - 4)) 3 none (1 / 100) 50 none none
    0).map (fun r => r.flag) = .ok .ok := by decide +kernel

/-- `newton_hd` on a regular affine system succeeds. -/
example : ∃ y, newtonHd Demo.realLib 1 (fun y : Vec ℝ 2 => .ok fun i =>
    ∑ j, (fun i j => if i = j then 2 else 0 : Fin 2 → Fin 2 → ℝ) i j * y j - 1) (fun _ => 0) 0 0 1 = .ok y := by
  obtain ⟨y, h, -⟩ := C57_affine Demo.realLib Demo.realLib_exactSolve Demo.realLib_sqrt_zero 1 one_ne_zero
    (fun i j => if i = j then 2 else 0 : Fin 2 → Fin 2 → ℝ) (by
      intro x hx
      funext i
      simpa using hx i) (fun _ => 1) (fun _ => 0) 0 0 (le_refl _) 0
  exact ⟨y, h⟩

end Nbkode
