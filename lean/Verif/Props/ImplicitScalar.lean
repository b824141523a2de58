import Verif.Props.Implicit
import Verif.Props.Zeros

/-!
# Scalar implicit steps solve their equation approximately: C32 for one component
-/

set_option autoImplicit false
set_option linter.unusedSectionVars false

namespace Nbkode
open Py Spec Solver

variable {α : Type} [Field α] [LinearOrder α] [IsStrictOrderedRing α] [BEq α] [LawfulBEq α]
variable {p : Nat}

/-- A secant iteration started from two different points meets the same point twice only at a zero. -/
theorem secantIter_eq {fn : α → Except Err α} {j : Nat} {a b u v : α} (hi : SecantIter fn j a b u v) (hab : a ≠ b)
    (huv : u = v) : fn v = .ok 0 := by
  induction hi with
  | zero p0 p1 => exact absurd huv hab
  | @succ j p0 p1 p2 p3 q0 q1 p h0 h1 hp hi ih =>
    by_cases hpp : p1 = p
    · subst hpp
      have hq1 : q1 = 0 := by
        have h2 : (p1 - p0) * q1 = 0 := by linear_combination hp.2
        rcases mul_eq_zero.mp h2 with h | h
        · exact absurd (sub_eq_zero.mp h).symm hab
        · exact h
      cases hi with
      | zero => rw [h1, hq1]
      | succ g0 g1 gp _ =>
        rw [g0] at g1
        exact absurd (Except.ok.inj g1).symm gp.1
    · exact ih hpp huv

/-- The value of a Lipschitz function where the secant search stops. -/
theorem secant_residual {fn : α → Except Err α} {F : α → α} (hF : ∀ x, fn x = .ok (F x)) {Λ : α}
    (hL : ∀ u v, |F u - F v| ≤ Λ * |u - v|) {tol a b : α} (ht : 0 ≤ tol) (hab : a ≠ b) {m : Nat} {r : NewtonResult α}
    (h : SecantMeaning fn tol 0 a b m r) (hr : r.flag = .ok) : |F r.p| ≤ 2 * Λ * tol := by
  have hΛ : 0 ≤ Λ := by
    have h1 := (abs_nonneg _).trans (hL a b)
    by_contra hc
    exact absurd h1 (not_le.mpr (mul_neg_of_neg_of_pos (not_le.mp hc) (abs_pos.mpr (sub_ne_zero.mpr hab))))
  unfold SecantMeaning at h
  rw [hr] at h
  obtain ⟨j, _, p0, p1, hi, ⟨q0, q1, h0, h1, hp, hc⟩ | ⟨he, hrp⟩⟩ := h
  · rw [hF] at h0 h1
    cases h0; cases h1
    rw [zero_mul, add_zero] at hc
    have hne : p1 ≠ p0 := fun he => hp.1 (by rw [he])
    have h2 : F p1 * (p1 - p0) = -((r.p - p1) * (F p1 - F p0)) := by linear_combination hp.2
    have h3 : |F p1| * |p1 - p0| ≤ Λ * tol * |p1 - p0| := by
      rw [← abs_mul, h2, abs_neg, abs_mul]
      calc |r.p - p1| * |F p1 - F p0| ≤ tol * (Λ * |p1 - p0|) := mul_le_mul hc (hL _ _) (abs_nonneg _) ht
        _ = _ := by ring
    have h4 : |F p1| ≤ Λ * tol := le_of_mul_le_mul_right h3 (abs_pos.mpr (sub_ne_zero.mpr hne))
    have h5 : |F r.p - F p1| ≤ Λ * tol := (hL _ _).trans (mul_le_mul_of_nonneg_left hc hΛ)
    have h6 : |F r.p| ≤ |F r.p - F p1| + |F p1| := by simpa using abs_add_le (F r.p - F p1) (F p1)
    linarith
  · have h1 := secantIter_eq hi hab he
    rw [hF] at h1
    rw [hrp, Except.ok.inj h1, abs_zero]
    positivity

/-- One component, in terms of the model's buffer (`C32_scalar` states it without): when the right-hand side is Lipschitz in `y` with constant `L` at the new time, and the relative
tolerance is zero (as in the code), an implicit multistep step that succeeds appends a point at `t + h` which misses the method's
equation by at most `2 (1 + |h Bn| L)` times the tolerance. -/
theorem implicit_scalar (lib : Lib α) (zo : ZeroOpts α) (he : 0 < zo.secantEps) (ht : 0 ≤ zo.tol) (hz : zo.rtol = 0)
    (c : MultistepCoef α p) (f : α → Vec α 1 → Vec α 1) (L : α) (b : Bound α) (st st' : St α 1 (histExtra p) Unit)
    (hL : ∀ u v : Vec α 1, |f (st.t + st.h) u 0 - f (st.t + st.h) v 0| ≤ L * |u 0 - v 0|)
    (h : Takes ⟨implicitMultistep lib zo c, pureRhs f, b⟩ st st') :
    ∃ y', st' = ⟨st.cache.push (st.t + st.h) y' (f (st.t + st.h) y'), st.h, ()⟩ ∧
      |defect c st.cache st.h y' (f (st.t + st.h) y') 0| ≤ 2 * (1 + |st.h * c.Bn| * L) * zo.tol := by
  unfold Takes at h
  change (implicitMultistepBody lib zo c (pureRhs f)).run st = _ at h
  rw [implicitMultistepBody_run] at h
  split at h
  · simp at h
  · rename_i y' hy
    simp only [pureRhs] at h
    cases h
    refine ⟨y', rfl, ?_⟩
    rw [implicitSolve, dif_pos rfl] at hy
    dsimp only at hy
    rw [C56_jNewton] at hy
    set fn : α → Except Err α := fun x => do
      let v ← implicitRoot (pureRhs f) (st.t + st.h) (st.h * c.Bn) (multistepK c st.cache st.h) fun _ => x
      return v ⟨0, by omega⟩ with hfn
    set F : α → α := fun x => x - st.h * c.Bn * f (st.t + st.h) (fun _ => x) 0 - multistepK c st.cache st.h 0 with hF
    have hfF : ∀ x, fn x = .ok (F x) := by
      intro x
      simp only [hfn, hF, implicitRoot, pureRhs, bind, Except.bind, pure, Except.pure, scale]
      rfl
    have hLF : ∀ u v, |F u - F v| ≤ (1 + |st.h * c.Bn| * L) * |u - v| := by
      intro u v
      have e : F u - F v = (u - v) - st.h * c.Bn * (f (st.t + st.h) (fun _ => u) 0 - f (st.t + st.h) (fun _ => v) 0) := by
        simp only [hF]; ring
      rw [e]
      refine (abs_sub _ _).trans ?_
      rw [abs_mul, add_mul, one_mul]
      refine add_le_add le_rfl ?_
      rw [mul_assoc]
      exact mul_le_mul_of_nonneg_left (hL _ _) (abs_nonneg _)
    cases hn : newtonImpl zo.secantEps fn (st.y ⟨0, by omega⟩) none zo.tol 50 none none zo.rtol with
    | error e =>
      rw [hn] at hy
      simp [bind, Except.bind] at hy
    | ok r =>
      rw [hn] at hy
      by_cases hr : r.flag = .ok
      · simp only [hr, if_true, bind, Except.bind, pure, Except.pure, Except.ok.injEq] at hy
        subst hy
        have hne := secantStart_ne zo.secantEps (st.y ⟨0, by omega⟩) he
        have key : |F r.p| ≤ 2 * (1 + |st.h * c.Bn| * L) * zo.tol := by
          rw [hz] at hn
          rcases (C56_newton_secant _ _ _ _ _ _ _ _ _ hn).1 with h1 | h1
          · exact secant_residual hfF hLF ht (Ne.symm hne) h1 hr
          · exact secant_residual hfF hLF ht hne h1 hr
        refine le_trans (le_of_eq ?_) key
        rw [residual_eq]
        rfl
      · simp [hr, bind, Except.bind] at hy

/-- **C32**, one component: when the right-hand side is Lipschitz in `y` with constant `L` at the new time, and the relative
tolerance is zero (as in the code), an implicit multistep step that succeeds records a point at `t + h` which misses the method's
equation by at most `2 (1 + |h Bn| L)` times the tolerance. -/
theorem C32_scalar (lib : Lib α) (zo : ZeroOpts α) (he : 0 < zo.secantEps) (ht : 0 ≤ zo.tol) (hz : zo.rtol = 0)
    (c : MultistepCoef α p) (f : α → Vec α 1 → Vec α 1) (L : α) (b : Bound α) (st st' : St α 1 (histExtra p) Unit)
    (hL : ∀ u v : Vec α 1, |f (st.t + st.h) u 0 - f (st.t + st.h) v 0| ≤ L * |u 0 - v 0|)
    (h : Takes ⟨implicitMultistep lib zo c, pureRhs f, b⟩ st st') :
    ∃ y', Records st.cache st'.cache (st.t + st.h) y' (f (st.t + st.h) y') ∧ st'.h = st.h ∧
      |defect c st.cache st.h y' (f (st.t + st.h) y') 0| ≤ 2 * (1 + |st.h * c.Bn| * L) * zo.tol := by
  obtain ⟨y', h1, h2⟩ := implicit_scalar lib zo he ht hz c f L b st st' hL h
  have h4 := state_records_iff.mp h1
  exact ⟨y', h4.1, h4.2.1, h2⟩

end Nbkode
