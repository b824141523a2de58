import Verif.Spec.Rounded
import Verif.Proofs.Forward
import Verif.Proofs.Halting
import Mathlib.Tactic.Linarith
import Mathlib.Tactic.Ring
import Mathlib.Tactic.Positivity

/-! Solvers that compute with machine numbers. -/

set_option autoImplicit false
set_option linter.unusedSectionVars false

namespace Nbkode
open Py Spec Solver

variable {φ : Rounding}

namespace Spec.Num

theorem le_iff {x y : Num φ} : x ≤ y ↔ x.val ≤ y.val := Iff.rfl
theorem lt_iff {x y : Num φ} : x < y ↔ x.val < y.val := Iff.rfl
theorem ext {x y : Num φ} (h : x.val = y.val) : x = y := Subtype.ext h
theorem val_mem (x : Num φ) : x.val ∈ φ.numbers := x.2
theorem val_of (x : ℝ) : (of φ x).val = φ.round x := rfl
theorem val_add (x y : Num φ) : (x + y).val = φ.round (x.val + y.val) := rfl
theorem val_sub (x y : Num φ) : (x - y).val = φ.round (x.val - y.val) := rfl
theorem val_mul (x y : Num φ) : (x * y).val = φ.round (x.val * y.val) := rfl
theorem val_div (x y : Num φ) : (x / y).val = φ.round (x.val / y.val) := rfl
theorem val_neg (x : Num φ) : (-x).val = -x.val := φ.round_self _ (φ.neg_mem _ x.2)
theorem val_zero : (0 : Num φ).val = 0 := φ.round_self _ φ.zero_mem
theorem val_one : (1 : Num φ).val = 1 := φ.round_self _ φ.one_mem
theorem val_two : ((2 : Nat) : Num φ).val = 2 := by
  show φ.round ((2 : Nat) : ℝ) = 2
  have := φ.double_mem 1 φ.one_mem
  rw [mul_one] at this
  push_cast
  exact φ.round_self _ this

theorem le_round {z x : ℝ} (hz : z ∈ φ.numbers) (h : z ≤ x) : z ≤ φ.round x := by
  have := φ.monotone h
  rwa [φ.round_self z hz] at this

theorem round_le {z x : ℝ} (hz : z ∈ φ.numbers) (h : x ≤ z) : φ.round x ≤ z := by
  have := φ.monotone h
  rwa [φ.round_self z hz] at this

theorem pos_iff {x : Num φ} : 0 < x ↔ 0 < x.val := by rw [lt_iff, val_zero]
theorem neg_iff {x : Num φ} : x < 0 ↔ x.val < 0 := by rw [lt_iff, val_zero]

theorem le_add (t : Num φ) {h : Num φ} (hh : 0 ≤ h) : t ≤ t + h := by
  rw [le_iff, val_zero] at hh
  show t.val ≤ φ.round _
  exact le_round t.val_mem (le_add_of_nonneg_right hh)

theorem add_le_add (t : Num φ) {a b : Num φ} (h : a ≤ b) : t + a ≤ t + b :=
  φ.monotone (by have := le_iff.mp h; linarith)

theorem mul_le_self {h q : Num φ} (hh : 0 ≤ h) (hq : q ≤ 1) : h * q ≤ h := by
  rw [le_iff, val_zero] at hh
  rw [le_iff, val_one] at hq
  exact round_le h.2 (mul_le_of_le_one_right hh hq)

theorem mul_pos (hU : φ.NoUnderflow) {h q : Num φ} (hh : 0 < h) (hq : 0 < q) : 0 < h * q := by
  rw [pos_iff] at *
  exact hU _ (_root_.mul_pos hh hq)

theorem div_le_one {a b : Num φ} (h1 : a ≤ 1) (h2 : 1 ≤ b) : a / b ≤ 1 := by
  rw [le_iff, val_one] at *
  rw [val_div]
  refine round_le φ.one_mem ?_
  rw [_root_.div_le_one (by linarith)]
  linarith

end Spec.Num

open Spec.Num

section step
variable {n k : Nat} {X : Type}

theorem num_stepUpdate {lib : Lib (Num φ)} {o : VarOptions (Num φ)} (ho : SaneOptions o) {ex en h h' : Num φ} {acc : Bool}
    (hu : stepUpdate lib o ex en h = .ok (h', acc)) :
    ∃ q, 0 < q ∧ h' = h * q ∧ (acc = false → 1 ≤ en ∧ q = pyMin o.maxFactor (pyMax o.minFactor (o.safetyFactor / lib.pow en ex))) := by
  have hmin : ∀ x, 0 < pyMin o.maxFactor (pyMax o.minFactor x) := by
    intro x
    have h2 : 0 < pyMax o.minFactor x := by
      unfold pyMax
      split_ifs with h
      · exact ho.minFactor_pos.trans h
      · exact ho.minFactor_pos
    unfold pyMin
    split_ifs
    · exact h2
    · exact ho.maxFactor_pos
  unfold stepUpdate at hu
  split at hu
  · simp only [Except.ok.injEq, Prod.mk.injEq] at hu
    obtain ⟨rfl, rfl⟩ := hu
    exact ⟨_, ho.maxFactor_pos, rfl, by simp⟩
  · cases hd : pyDiv o.safetyFactor (lib.pow en ex) with
    | error e => rw [hd] at hu; simp [bind, Except.bind] at hu
    | ok f =>
      have hf : f = o.safetyFactor / lib.pow en ex := by
        unfold pyDiv at hd
        split at hd
        · simp at hd
        · simp only [Except.ok.injEq] at hd; exact hd.symm
      subst hf
      rw [hd] at hu
      simp only [bind, Except.bind, pure, Except.pure, Except.ok.injEq, Prod.mk.injEq] at hu
      obtain ⟨rfl, rfl⟩ := hu
      exact ⟨_, hmin _, rfl, fun h => ⟨by simpa using h, rfl⟩⟩

theorem num_rejected {lib : Lib (Num φ)} {o : VarOptions (Num φ)} (hl : PowLaw lib) (ho : SaneOptions o)
    {ex en h h' : Num φ} (hex : 0 ≤ ex) (hu : stepUpdate lib o ex en h = .ok (h', false)) :
    ∃ q, 0 < q ∧ q ≤ 1 ∧ h' = h * q := by
  obtain ⟨q, h1, h2, h3⟩ := num_stepUpdate ho hu
  obtain ⟨h4, h5⟩ := h3 rfl
  refine ⟨q, h1, ?_, h2⟩
  have hp := hl.one_le en ex h4 hex
  have hd := Num.div_le_one ho.safety_le hp
  rw [h5]
  have h6 : pyMax o.minFactor (o.safetyFactor / lib.pow en ex) ≤ 1 := by
    unfold pyMax
    split_ifs
    · exact hd
    · exact ho.minFactor_le
  unfold pyMin
  split_ifs with g
  · exact h6
  · exact (not_lt.mp g).trans h6

theorem num_fsalBody {s : Nat} {I : Type} (hU : φ.NoUnderflow) {lib : Lib (Num φ)} {o : VarOptions (Num φ)} (hl : PowLaw lib)
    (ho : SaneOptions o) {ex : Num φ} (hex : 0 ≤ ex) (T : Tableau (Num φ) s) (errNorm : ErrNorm (Num φ) n s) (rhs : Rhs (Num φ) n) :
    ∀ (st : St (Num φ) n 0 (FsalAux (Num φ) n s I)) r s',
      (fsalBody lib o ex T errNorm rhs).run st = some (r, s') → 0 < st.h → 0 < s'.h ∧
      (r = .ok () → ∃ q, 0 < q ∧ q ≤ st.h ∧ s'.t = st.t + q) := by
  refine fsalBody_ind lib o ex T errNorm rhs (fun st r s' => 0 < st.h → 0 < s'.h ∧
      (r = .ok () → ∃ q, 0 < q ∧ q ≤ st.h ∧ s'.t = st.t + q)) ?_ ?_ ?_ ?_
  · intro st e K' _ hh; exact ⟨hh, by simp⟩
  · intro st y' K' e _ _ hh; exact ⟨hh, by simp⟩
  · intro st y' K' en h' _ _ _ hu hh
    obtain ⟨q, hq, rfl, -⟩ := num_stepUpdate ho hu
    refine ⟨Num.mul_pos hU hh hq, fun _ => ⟨st.h, hh, le_refl _, ?_⟩⟩
    simp only [St.t]
    rw [push_t]
  · intro st y' K' en h' r s' _ _ _ hu ih hh
    obtain ⟨p, hp, hp1, rfl⟩ := num_rejected hl ho hex hu
    obtain ⟨h1, h2⟩ := ih (Num.mul_pos hU hh hp)
    refine ⟨h1, fun hr => ?_⟩
    obtain ⟨q', hq', hq1, h3⟩ := h2 hr
    exact ⟨q', hq', hq1.trans (Num.mul_le_self hh.le hp1), h3⟩

/-- One step with machine numbers: the step size stays positive, and the time becomes `t + q` with `0 < q ≤ h`. -/
theorem num_time {M : Method (Num φ) n k X} (hM : WellConfigured M) (hU : IsFixed M ∨ φ.NoUnderflow) (rhs : Rhs (Num φ) n)
    (s : St (Num φ) n k X) (r : Except Err Unit) (s' : St (Num φ) n k X)
    (h : (M.body rhs).run s = some (r, s')) (hh : 0 < s.h) :
    0 < s'.h ∧ (r = .ok () → ∃ q, 0 < q ∧ q ≤ s.h ∧ s'.t = s.t + q) := by
  have hfix : IsFixed M → 0 < s'.h ∧ (r = .ok () → ∃ q, 0 < q ∧ q ≤ s.h ∧ s'.t = s.t + q) := by
    intro hM
    have hS := IsFixed.shaped hM
    refine ⟨by rw [hS.body_h _ _ _ _ h]; exact hh, ?_⟩
    rintro rfl
    exact ⟨s.h, hh, le_refl _, hS.body_fixed _ _ _ h⟩
  rcases hU with hU | hU
  · exact hfix hU
  rcases hM with hM | ⟨lib, o, ex, hM, hl, ho, hex⟩
  · exact hfix hM
  · cases hM with
    | fsal c => exact num_fsalBody hU hl ho hex _ _ _ _ _ _ h hh
    | dop853 c => exact num_fsalBody hU hl ho hex _ _ _ _ _ _ h hh

theorem library_of {M : Method (Num φ) n k X} (hM : WellConfigured M) : IsLibrary M := by
  rcases hM with hM | ⟨lib, o, ex, hM, _⟩
  · exact Or.inl hM
  · exact Or.inr ⟨lib, o, ex, hM⟩

theorem num_forward {S : Solver (Num φ) n k X} (hM : WellConfigured S.method) (hU : IsFixed S.method ∨ φ.NoUnderflow) :
    Forward S where
  library := library_of hM
  step s s' hh ht := by
    obtain ⟨h1, h2⟩ := num_time hM hU _ _ _ _ ht hh
    obtain ⟨q, hq, -, e⟩ := h2 rfl
    exact ⟨by rw [e]; exact Num.le_add _ hq.le, h1⟩

end step
end Nbkode
