import Verif.Proofs.MethodShape
import Mathlib.Algebra.Order.Field.Basic
import Mathlib.Tactic.Linarith
import Mathlib.Tactic.Positivity
import Mathlib.Tactic.Ring

/-! The step-size controller over an ordered field. -/

set_option autoImplicit false
set_option linter.unusedSectionVars false

namespace Nbkode
open Py Spec

variable {α : Type} [Field α] [LinearOrder α] [IsStrictOrderedRing α] [BEq α]
variable {n k : Nat} {X : Type}

theorem pyMin_eq (a b : α) : pyMin a b = min a b := by
  unfold pyMin
  split
  · rename_i h; rw [min_eq_right h.le]
  · rename_i h; rw [min_eq_left (not_lt.mp h)]

theorem pyMax_eq (a b : α) : pyMax a b = max a b := by
  unfold pyMax
  split
  · rename_i h; rw [max_eq_right h.le]
  · rename_i h; rw [max_eq_left (not_lt.mp h)]

theorem pyAbs_eq (a : α) : pyAbs a = |a| := by
  unfold pyAbs
  split
  · rename_i h; rw [abs_of_neg h]
  · rename_i h; rw [abs_of_nonneg (not_lt.mp h)]

theorem pyDiv_ok {a b c : α} (h : pyDiv a b = .ok c) : c = a / b := by
  unfold pyDiv at h
  split at h
  · simp at h
  · simp only [Except.ok.injEq] at h; exact h.symm

/-- The new step size is the old one times a factor in `[min(min_factor, max_factor), max_factor]`; a rejected
attempt has error norm at least one. -/
theorem stepUpdate_ok {lib : Lib α} {o : VarOptions α} {ex en h h' : α} {acc : Bool}
    (hu : stepUpdate lib o ex en h = .ok (h', acc)) :
    ∃ q, h' = h * q ∧ min o.minFactor o.maxFactor ≤ q ∧ q ≤ o.maxFactor ∧
      (acc = true → en < 1 ∨ (en == 0) = true) ∧
      (acc = false → 1 ≤ en ∧
        q = min o.maxFactor (max o.minFactor (o.safetyFactor / lib.pow en ex))) := by
  unfold stepUpdate at hu
  split at hu
  · rename_i hz
    simp only [Except.ok.injEq, Prod.mk.injEq] at hu
    obtain ⟨rfl, rfl⟩ := hu
    exact ⟨_, rfl, min_le_right _ _, le_refl _, fun _ => Or.inr hz, by simp⟩
  · cases hd : pyDiv o.safetyFactor (lib.pow en ex) with
    | error e => rw [hd] at hu; simp [bind, Except.bind] at hu
    | ok f =>
      rw [hd] at hu
      simp only [bind, Except.bind, pure, Except.pure, Except.ok.injEq, Prod.mk.injEq] at hu
      obtain ⟨rfl, rfl⟩ := hu
      refine ⟨_, rfl, ?_, ?_, ?_, ?_⟩
      · rw [pyMin_eq, pyMax_eq]
        exact le_min (min_le_right _ _) ((min_le_left _ _).trans (le_max_left _ _))
      · rw [pyMin_eq]; exact min_le_left _ _
      · intro h; exact Or.inl (by simpa using h)
      · intro h
        refine ⟨by simpa using h, ?_⟩
        rw [pyMin_eq, pyMax_eq, pyDiv_ok hd]

theorem stepUpdate_pos {lib : Lib α} {o : VarOptions α} (ho : SaneOptions o) {ex en h h' : α}
    {acc : Bool} (hu : stepUpdate lib o ex en h = .ok (h', acc)) :
    ∃ q, 0 < q ∧ h' = h * q := by
  obtain ⟨q, h1, h2, _⟩ := stepUpdate_ok hu
  exact ⟨q, lt_of_lt_of_le (lt_min ho.minFactor_pos ho.maxFactor_pos) h2, h1⟩

theorem stepUpdate_rejected {lib : Lib α} {o : VarOptions α} (hl : PowLaw lib) (ho : SaneOptions o)
    {ex en h h' : α} (hex : 0 ≤ ex) (hu : stepUpdate lib o ex en h = .ok (h', false)) :
    ∃ q, 0 < q ∧ q ≤ 1 ∧ h' = h * q := by
  obtain ⟨q, h1, h2, _, _, h3⟩ := stepUpdate_ok hu
  obtain ⟨h4, rfl⟩ := h3 rfl
  refine ⟨_, lt_of_lt_of_le (lt_min ho.minFactor_pos ho.maxFactor_pos) h2, ?_, h1⟩
  refine (min_le_right _ _).trans (max_le ho.minFactor_le ?_)
  have hp := hl.one_le en ex h4 hex
  rw [div_le_one (lt_of_lt_of_le one_pos hp)]
  exact ho.safety_le.trans hp

section body
variable {s : Nat} {I : Type}

/-- The attempts of one variable step: the accepted time is `t` plus a step size which is the initial one times
a factor in `(0, 1]`; the step size afterwards keeps its sign. -/
theorem fsalBody_time {lib : Lib α} {o : VarOptions α} (hl : PowLaw lib) (ho : SaneOptions o)
    {ex : α} (hex : 0 ≤ ex) (T : Tableau α s) (errNorm : ErrNorm α n s) (rhs : Rhs α n) :
    ∀ (st : St α n 0 (FsalAux α n s I)) r s',
      (fsalBody lib o ex T errNorm rhs).run st = some (r, s') →
      (∃ q, 0 < q ∧ s'.h = st.h * q) ∧
      (r = .ok () → ∃ q, 0 < q ∧ q ≤ 1 ∧ s'.t = st.t + st.h * q) := by
  refine fsalBody_ind lib o ex T errNorm rhs (fun st r s' =>
      (∃ q, 0 < q ∧ s'.h = st.h * q) ∧
      (r = .ok () → ∃ q, 0 < q ∧ q ≤ 1 ∧ s'.t = st.t + st.h * q)) ?_ ?_ ?_ ?_
  · intro st e K' _; exact ⟨⟨1, one_pos, by simp⟩, by simp⟩
  · intro st y' K' e _ _; exact ⟨⟨1, one_pos, by simp⟩, by simp⟩
  · intro st y' K' en h' _ _ _ hu
    refine ⟨stepUpdate_pos ho hu, fun _ => ⟨1, one_pos, le_refl _, ?_⟩⟩
    simp only [St.t]
    rw [push_t]; simp
  · intro st y' K' en h' r s' _ _ _ hu ⟨⟨q, hq, h1⟩, h2⟩
    obtain ⟨p, hp, hp1, rfl⟩ := stepUpdate_rejected hl ho hex hu
    refine ⟨⟨p * q, by positivity, by rw [h1]; simp only; ring⟩, fun hr => ?_⟩
    obtain ⟨q', hq', hq1, h3⟩ := h2 hr
    refine ⟨p * q', by positivity, mul_le_one₀ hp1 hq'.le hq1, ?_⟩
    rw [h3]; simp only [St.t]; ring

end body

/-- One step of a well configured method: the step size keeps its sign, the time moves by `h * q` with
`0 < q <= 1`. -/
theorem Spec.WellConfigured.time {M : Method α n k X} (hM : WellConfigured M) (rhs : Rhs α n)
    (s : St α n k X) (r : Except Err Unit) (s' : St α n k X)
    (h : (M.body rhs).run s = some (r, s')) :
    (∃ q, 0 < q ∧ s'.h = s.h * q) ∧
    (r = .ok () → ∃ q, 0 < q ∧ q ≤ 1 ∧ s'.t = s.t + s.h * q) := by
  rcases hM with hM | ⟨lib, o, ex, hM, hl, ho, hex⟩
  · have hS := IsFixed.shaped hM
    refine ⟨⟨1, one_pos, by rw [hS.body_h _ _ _ _ h]; simp⟩, ?_⟩
    rintro rfl
    exact ⟨1, one_pos, le_refl _, by rw [hS.body_fixed _ _ _ h]; simp⟩
  · cases hM with
    | fsal c => exact fsalBody_time hl ho hex _ _ _ _ _ _ h
    | dop853 c => exact fsalBody_time hl ho hex _ _ _ _ _ _ h

theorem Spec.WellConfigured.library {M : Method α n k X} (hM : WellConfigured M) : IsLibrary M := by
  rcases hM with hM | ⟨lib, o, ex, hM, _⟩
  · exact Or.inl hM
  · exact Or.inr ⟨lib, o, ex, hM⟩

end Nbkode
