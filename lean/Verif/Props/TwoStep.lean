import Verif.Spec.TwoStep
import Verif.Proofs.TwoStep
import Verif.Props.Implicit
import Verif.Props.MultistepOrders
import Verif.Props.InvariantImplicit
import Mathlib.Analysis.SpecificLimits.Basic
import Mathlib.Analysis.SpecialFunctions.Trigonometric.Basic

/-!
# Which step sizes keep the two-step methods stable (C109)
-/

set_option autoImplicit false
set_option linter.unusedSectionVars false

namespace Nbkode
open Py Spec Solver

/-- The steps of a class solve the formula `c` on `y' = -lam y + g(t)`, if `1 + h lam Bn` is not zero. -/
def Solves2 (cls : Rhs ℝ 1 → Solver ℝ 1 (histExtra 1) Unit) (c : MultistepCoef ℝ 1) : Prop :=
  ∀ lam g (st st' : St ℝ 1 (histExtra 1) Unit), 1 + st.h * lam * c.Bn ≠ 0 → Takes (cls (pureRhs (decaying lam g))) st st' →
    ∃ y' f', defect c st.cache st.h y' f' = 0 ∧ f' = decaying lam g (st.t + st.h) y' ∧ st' = ⟨st.cache.push (st.t + st.h) y' f', st.h, ()⟩

theorem solves2_explicit (c : MultistepCoef ℝ 1) (hc : c.Bn = 0) (b : Bound ℝ) :
    Solves2 (fun rhs => ⟨explicitMultistep c, rhs, b⟩) c := by
  intro lam g st st' _ h
  obtain ⟨y', f', h1, h2, h3⟩ := (explicit_takes_iff c hc _ b st st').mp h
  exact ⟨y', f', h1, by simpa [pureRhs] using h2.symm, h3⟩

theorem solves2_implicit (lib : Lib ℝ) (zo : ZeroOpts ℝ) (he : 0 < zo.secantEps) (ht : 0 ≤ zo.tol) (hr : 0 ≤ zo.rtol)
    (c : MultistepCoef ℝ 1) (b : Bound ℝ) : Solves2 (fun rhs => ⟨implicitMultistep lib zo c, rhs, b⟩) c := by
  intro lam g st st' hreg h
  obtain ⟨y', f', h1, h2, h3⟩ := linear_exact lib zo he ht hr c (-lam) g b st (by
    intro e; apply hreg; rw [← e]; ring)
  refine ⟨y', f', h3, h1, ?_⟩
  have h' : Takes ⟨implicitMultistep lib zo c, pureRhs fun t (y : Vec ℝ 1) i => -lam * y i + g t, b⟩ st st' := h
  unfold Takes at h' h2
  rw [h2] at h'
  cases h'
  rfl

theorem ago_push {A : Type} {k : Nat} (a : Fin (k + 2) → A) (x : A) : ago (shiftIn a x) 0 = x ∧ ∀ i ≤ k, ago (shiftIn a x) (i + 1) = ago a i := by
  constructor
  · unfold ago shiftIn
    rw [dif_neg (by dsimp only; omega)]
  · intro i hi
    unfold ago shiftIn
    rw [dif_pos (by dsimp only; omega)]
    congr 1
    ext
    dsimp only
    omega

theorem twoSteps_invariant {cls : Rhs ℝ 1 → Solver ℝ 1 (histExtra 1) Unit} {c : MultistepCoef ℝ 1} (hc : Solves2 cls c) {lam : ℝ} {g : ℝ → ℝ}
    {t₀ h : ℝ} (hreg : 1 + h * lam * c.Bn ≠ 0) {u : ℕ → St ℝ 1 (histExtra 1) Unit} (hu : TwoSteps cls lam g t₀ h u) (j : ℕ) :
    (u j).h = h ∧ ago (u j).cache.ts 0 = t₀ + j * h ∧ ago (u j).cache.ts 1 = t₀ + j * h - h ∧
    ago (u j).cache.fs 0 = decaying lam g (t₀ + j * h) (ago (u j).cache.ys 0) ∧
    ago (u j).cache.fs 1 = decaying lam g (t₀ + j * h - h) (ago (u j).cache.ys 1) := by
  induction j with
  | zero =>
    have h0 := hu.slope 0 (by norm_num)
    have h1 := hu.slope 1 (by norm_num)
    rw [hu.now] at h0
    rw [hu.before] at h1
    simp only [Nat.cast_zero, zero_mul, add_zero]
    exact ⟨hu.size, hu.now, hu.before, h0, h1⟩
  | succ j ih =>
    obtain ⟨e1, e2, e3, e4, e5⟩ := ih
    obtain ⟨y', f', -, h2, h3⟩ := hc lam g _ _ (by rw [e1]; exact hreg) (hu.takes j)
    have et : (u j).t = t₀ + j * h := e2
    rw [et, e1] at h2 h3
    rw [h3]
    have at' := ago_push (u j).cache.ts (t₀ + j * h + h)
    have ay := ago_push (u j).cache.ys y'
    have af := ago_push (u j).cache.fs f'
    refine ⟨rfl, ?_, ?_, ?_, ?_⟩
    · refine at'.1.trans ?_
      push_cast; ring
    · refine (at'.2 0 (Nat.zero_le _)).trans (e2.trans ?_)
      push_cast; ring
    · refine af.1.trans (h2.trans ?_)
      rw [show t₀ + ((j + 1 : ℕ) : ℝ) * h = t₀ + j * h + h by push_cast; ring]
      exact congrArg _ ay.1.symm
    · refine (af.2 0 (Nat.zero_le _)).trans (e4.trans ?_)
      rw [show t₀ + ((j + 1 : ℕ) : ℝ) * h - h = t₀ + j * h by push_cast; ring]
      exact congrArg _ (ay.2 0 (Nat.zero_le _)).symm

/-- The differences, with the one before the first at 0. -/
noncomputable def gaps (u v : ℕ → St ℝ 1 (histExtra 1) Unit) : ℕ → ℝ
  | 0 => gapBefore u v
  | j + 1 => gap u v j

theorem gaps_ago {cls : Rhs ℝ 1 → Solver ℝ 1 (histExtra 1) Unit} {c : MultistepCoef ℝ 1} (hc : Solves2 cls c) {lam : ℝ} {g : ℝ → ℝ}
    {t₀ h : ℝ} (hreg : 1 + h * lam * c.Bn ≠ 0) {u v : ℕ → St ℝ 1 (histExtra 1) Unit} (hu : TwoSteps cls lam g t₀ h u)
    (hv : TwoSteps cls lam g t₀ h v) (j : ℕ) : gaps u v j = ago (u j).cache.ys 1 0 - ago (v j).cache.ys 1 0 := by
  cases j with
  | zero => rfl
  | succ j =>
    have key : ∀ {w}, TwoSteps cls lam g t₀ h w → ago (w (j + 1)).cache.ys 1 = (w j).y := by
      intro w hw
      obtain ⟨y', f', -, h2, h3⟩ := hc lam g _ _ (by rw [(twoSteps_invariant hc hreg hw j).1]; exact hreg) (hw.takes j)
      rw [h3]
      exact (ago_push (w j).cache.ys y').2 0 (Nat.zero_le _)
    rw [key hu, key hv]
    rfl

theorem gaps_rec {cls : Rhs ℝ 1 → Solver ℝ 1 (histExtra 1) Unit} {c : MultistepCoef ℝ 1} (hc : Solves2 cls c) {lam : ℝ} {g : ℝ → ℝ}
    {t₀ h : ℝ} (hreg : 1 + h * lam * c.Bn ≠ 0) {u v : ℕ → St ℝ 1 (histExtra 1) Unit} (hu : TwoSteps cls lam g t₀ h u)
    (hv : TwoSteps cls lam g t₀ h v) (j : ℕ) : gaps u v (j + 2) =
      -(c.A 1 + h * lam * c.B 1) / (1 + h * lam * c.Bn) * gaps u v (j + 1) - (c.A 0 + h * lam * c.B 0) / (1 + h * lam * c.Bn) * gaps u v j := by
  have key : ∀ {w}, TwoSteps cls lam g t₀ h w → (w (j + 1)).y 0 + c.A 1 * (w j).y 0 + c.A 0 * ago (w j).cache.ys 1 0 =
      h * (c.Bn * (-lam * (w (j + 1)).y 0 + g (t₀ + j * h + h)) + c.B 1 * (-lam * (w j).y 0 + g (t₀ + j * h)) +
        c.B 0 * (-lam * ago (w j).cache.ys 1 0 + g (t₀ + j * h - h))) := by
    intro w hw
    obtain ⟨e1, e2, e3, e4, e5⟩ := twoSteps_invariant hc hreg hw j
    obtain ⟨y', f', h1, h2, h3⟩ := hc lam g _ _ (by rw [e1]; exact hreg) (hw.takes j)
    have et : (w j).t = t₀ + j * h := e2
    have ey : (w (j + 1)).y = y' := by rw [h3]; exact push_y _ _ _ _
    have h4 := congrFun h1 0
    have s1 : ∀ F : Fin (1 + 1) → ℝ, ∑ i, F i = F 0 + F 1 := fun F => Fin.sum_univ_two F
    simp only [defect, s1, Pi.zero_apply] at h4
    change y' 0 + (c.A 1 * ago (w j).cache.ys 0 0 + c.A 0 * ago (w j).cache.ys 1 0) -
      (w j).h * (c.Bn * f' 0 + (c.B 1 * ago (w j).cache.fs 0 0 + c.B 0 * ago (w j).cache.fs 1 0)) = 0 at h4
    rw [e4, e5, h2, et, e1] at h4
    rw [ey]
    simp only [decaying] at h4
    have e0 : (w j).y 0 = ago (w j).cache.ys 0 0 := rfl
    rw [e0]
    linarith
  have k1 := key hu
  have k2 := key hv
  have e := gaps_ago hc hreg hu hv j
  rw [div_mul_eq_mul_div, div_mul_eq_mul_div, div_sub_div_same, eq_div_iff hreg, e]
  show gap u v (j + 1) * _ = _ * gap u v j - _
  unfold gap
  linear_combination k1 - k2

theorem decays_of {cls : Rhs ℝ 1 → Solver ℝ 1 (histExtra 1) Unit} {c : MultistepCoef ℝ 1} (hc : Solves2 cls c) {s : ℝ}
    (h : ∀ x, 0 < x → x < s → 0 < 1 + x * c.Bn ∧ |(c.A 0 + x * c.B 0) / (1 + x * c.Bn)| < 1 ∧
      |-(c.A 1 + x * c.B 1) / (1 + x * c.Bn)| < 1 + (c.A 0 + x * c.B 0) / (1 + x * c.Bn)) : DecaysBelow cls s := by
  intro x x0 xs
  obtain ⟨h1, h2, h3⟩ := h x x0 xs
  obtain ⟨K, ρ, r0, r1, hK⟩ := rec_decays h2 h3
  refine ⟨K * ρ, ρ, r0, r1, fun lam g t₀ h u v hx hu hv N => ?_⟩
  subst hx
  have := hK (gaps u v) (gaps_rec hc h1.ne' hu hv) (N + 1)
  rw [pow_succ] at this
  refine (show |gap u v N| ≤ _ from this).trans (le_of_eq ?_)
  show _ * (|gap u v 0| + |gapBefore u v|) = _
  ring

theorem explodes_of {cls : Rhs ℝ 1 → Solver ℝ 1 (histExtra 1) Unit} {c : MultistepCoef ℝ 1} (hc : Solves2 cls c) {s : ℝ}
    (h : ∀ x, s < x → 0 < 1 + x * c.Bn ∧ 1 < (c.A 0 + x * c.B 0) / (1 + x * c.Bn) ∧
      |-(c.A 1 + x * c.B 1) / (1 + x * c.Bn)| < 1 + (c.A 0 + x * c.B 0) / (1 + x * c.Bn)) : ExplodesAbove cls s := by
  intro x xs
  obtain ⟨h1, h2, h3⟩ := h x xs
  obtain ⟨K, ρ, r0, r1, hK⟩ := rec_explodes h2 h3
  refine ⟨K * ρ, ρ, by positivity, r1, fun lam g t₀ h u v hx hu hv N => ?_⟩
  subst hx
  have := hK (gaps u v) (gaps_rec hc h1.ne' hu hv) (N + 1)
  rw [pow_succ] at this
  refine le_trans (le_of_eq ?_) (show _ ≤ |gap u v N| + |gap u v (N + 1)| from this)
  show _ = _ * (|gap u v 0| + |gapBefore u v|)
  ring

/-- **C109**: the differences between runs of `AdamsBashforth2` decay if `h lam < 2/3`, and all of them grow if `h lam > 2/3`. -/
theorem C109_AdamsBashforth2_partial (b : Bound ℝ) :
    DecaysBelow (fun rhs => ⟨explicitMultistep AdamsBashforth2, rhs, b⟩) (2 / 3) ∧
    ExplodesAbove (fun rhs => ⟨explicitMultistep AdamsBashforth2, rhs, b⟩) (2 / 3) := by
  have hA0 : (AdamsBashforth2 : MultistepCoef ℝ 1).A 0 = 0 := by simp [AdamsBashforth2, adamsA]
  have hA1 : (AdamsBashforth2 : MultistepCoef ℝ 1).A 1 = -1 := by simp [AdamsBashforth2, adamsA]
  have hB0 : (AdamsBashforth2 : MultistepCoef ℝ 1).B 0 = 3 / 2 := by simp [AdamsBashforth2, q]
  have hB1 : (AdamsBashforth2 : MultistepCoef ℝ 1).B 1 = -(1 / 2) := by simp [AdamsBashforth2, q]
  have hn : (AdamsBashforth2 : MultistepCoef ℝ 1).Bn = 0 := rfl
  refine ⟨decays_of (solves2_explicit _ rfl b) fun x h0 hs => ?_, explodes_of (solves2_explicit _ rfl b) fun x hs => ?_⟩
  · rw [hA0, hA1, hB0, hB1, hn, mul_zero, add_zero, div_one, div_one, abs_lt, abs_lt]
    exact ⟨one_pos, ⟨by linarith, by linarith⟩, ⟨by linarith, by linarith⟩⟩
  · rw [hA0, hA1, hB0, hB1, hn, mul_zero, add_zero, div_one, div_one, abs_lt]
    exact ⟨one_pos, by linarith, ⟨by linarith, by linarith⟩⟩

/-- The formula documented for `AdamsBashforth2`, with the coefficients the other way round, is stable up to 1. -/
theorem C109_AdamsBashforth2_documented (b : Bound ℝ) :
    DecaysBelow (fun rhs => ⟨explicitMultistep AdamsBashforth2.reversed, rhs, b⟩) 1 := by
  have hA0 : (AdamsBashforth2 : MultistepCoef ℝ 1).reversed.A 0 = 0 := by simp [AdamsBashforth2, adamsA, MultistepCoef.reversed]
  have hA1 : (AdamsBashforth2 : MultistepCoef ℝ 1).reversed.A 1 = -1 := by simp [AdamsBashforth2, adamsA, MultistepCoef.reversed]
  have hB0 : (AdamsBashforth2 : MultistepCoef ℝ 1).reversed.B 0 = -(1 / 2) := by simp [AdamsBashforth2, q, MultistepCoef.reversed, Fin.rev]
  have hB1 : (AdamsBashforth2 : MultistepCoef ℝ 1).reversed.B 1 = 3 / 2 := by simp [AdamsBashforth2, q, MultistepCoef.reversed, Fin.rev]
  have hn : (AdamsBashforth2 : MultistepCoef ℝ 1).reversed.Bn = 0 := rfl
  refine decays_of (solves2_explicit _ rfl b) fun x h0 hs => ?_
  rw [hA0, hA1, hB0, hB1, hn, mul_zero, add_zero, div_one, div_one, abs_lt, abs_lt]
  exact ⟨one_pos, ⟨by linarith, by linarith⟩, ⟨by linarith, by linarith⟩⟩

/-- **C109**: `BDF2` is stable for every step size. -/
theorem C109_BDF2 (lib : Lib ℝ) (zo : ZeroOpts ℝ) (he : 0 < zo.secantEps) (ht : 0 ≤ zo.tol) (hr : 0 ≤ zo.rtol) (b : Bound ℝ) (s : ℝ) :
    DecaysBelow (fun rhs => ⟨implicitMultistep lib zo BDF2, rhs, b⟩) s := by
  have hA0 : (BDF2 : MultistepCoef ℝ 1).A 0 = 1 / 3 := by simp [BDF2, q]
  have hA1 : (BDF2 : MultistepCoef ℝ 1).A 1 = -(4 / 3) := by simp [BDF2, q]
  have hB0 : (BDF2 : MultistepCoef ℝ 1).B 0 = 0 := by simp [BDF2]
  have hB1 : (BDF2 : MultistepCoef ℝ 1).B 1 = 0 := by simp [BDF2]
  have hn : (BDF2 : MultistepCoef ℝ 1).Bn = 2 / 3 := by simp [BDF2, q]
  refine decays_of (solves2_implicit lib zo he ht hr _ b) fun x h0 _ => ?_
  rw [hA0, hA1, hB0, hB1, hn]
  have hp : 0 < 1 + x * (2 / 3) := by linarith
  refine ⟨hp, ?_, ?_⟩
  · rw [abs_div, abs_of_pos hp, div_lt_one hp, abs_lt]
    constructor <;> linarith
  · rw [abs_div, abs_of_pos hp, div_lt_iff₀ hp, add_mul, div_mul_cancel₀ _ hp.ne', abs_lt]
    constructor <;> linarith

/-- **C109**: `AdamsMoulton3` is stable if `h lam < 6`; if `h lam > 6`, almost all differences grow. -/
theorem C109_AdamsMoulton3 (lib : Lib ℝ) (zo : ZeroOpts ℝ) (he : 0 < zo.secantEps) (ht : 0 ≤ zo.tol) (hr : 0 ≤ zo.rtol) (b : Bound ℝ) :
    DecaysBelow (fun rhs => ⟨implicitMultistep lib zo AdamsMoulton3, rhs, b⟩) 6 ∧
    GrowsAbove (fun rhs => ⟨implicitMultistep lib zo AdamsMoulton3, rhs, b⟩) 6 := by
  have hA0 : (AdamsMoulton3 : MultistepCoef ℝ 1).A 0 = 0 := by simp [AdamsMoulton3, adamsA]
  have hA1 : (AdamsMoulton3 : MultistepCoef ℝ 1).A 1 = -1 := by simp [AdamsMoulton3, adamsA]
  have hB0 : (AdamsMoulton3 : MultistepCoef ℝ 1).B 0 = -(1 / 12) := by simp [AdamsMoulton3, q]
  have hB1 : (AdamsMoulton3 : MultistepCoef ℝ 1).B 1 = 2 / 3 := by simp [AdamsMoulton3, q]
  have hn : (AdamsMoulton3 : MultistepCoef ℝ 1).Bn = 5 / 12 := by simp [AdamsMoulton3, q]
  have hc := solves2_implicit lib zo he ht hr AdamsMoulton3 b
  refine ⟨decays_of hc fun x h0 hs => ?_, fun x hs => ?_⟩
  · rw [hA0, hA1, hB0, hB1, hn]
    have hp : 0 < 1 + x * (5 / 12) := by linarith
    refine ⟨hp, ?_, ?_⟩
    · rw [abs_div, abs_of_pos hp, div_lt_one hp, abs_lt]
      constructor <;> linarith
    · rw [abs_div, abs_of_pos hp, div_lt_iff₀ hp, add_mul, div_mul_cancel₀ _ hp.ne', abs_lt]
      constructor <;> linarith
  · have hp : 0 < 1 + x * (5 / 12) := by linarith
    set P := 1 + x * (5 / 12) with hP
    set D := (1 - 2 * x / 3) ^ 2 + P * x / 3 with hD
    have D0 : 0 ≤ D := by positivity
    have hsq := Real.sq_sqrt D0
    set R := Real.sqrt D with hR
    have R0 : 0 ≤ R := Real.sqrt_nonneg _
    -- the roots are `(1 - 2 x / 3 ∓ R) / (2 P)`
    have R1 : 3 + x / 6 < R := by
      apply lt_of_pow_lt_pow_left₀ 2 R0
      rw [hsq, hD, hP]
      nlinarith
    have R2 : R < 1 + 3 * x / 2 := by
      apply lt_of_pow_lt_pow_left₀ 2 (by linarith)
      rw [hsq, hD, hP]
      nlinarith
    have hr1 : 1 < (2 * x / 3 - 1 + R) / (2 * P) := by
      rw [one_lt_div (by positivity), hP]; linarith
    refine ⟨(1 - 2 * x / 3 + R) / (2 * P), (2 * x / 3 - 1 + R) / (2 * P), ?_, hr1, fun lam g t₀ h u v hx hu hv N => ?_⟩
    · rw [abs_div, abs_of_pos (show 0 < 2 * P by positivity), div_lt_one (by positivity), abs_lt, hP]
      constructor <;> linarith
    · subst hx
      have hrec := gaps_rec hc (by rw [hn]; exact hp.ne') hu hv
      rw [hA0, hA1, hB0, hB1, hn] at hrec
      have := rec_grows (r := -((2 * (h * lam) / 3 - 1 + R) / (2 * P))) (μ := (1 - 2 * (h * lam) / 3 + R) / (2 * P)) (y := gaps u v) (by
        rw [abs_div, abs_of_pos (show 0 < 2 * P by positivity), div_lt_one (by positivity), abs_lt, hP]
        constructor <;> linarith) (fun j => by
          rw [hrec j, ← hP]
          have e1 : -(-1 + h * lam * (2 / 3)) / P = -((2 * (h * lam) / 3 - 1 + R) / (2 * P)) + (1 - 2 * (h * lam) / 3 + R) / (2 * P) := by
            field_simp; ring
          have e2 : (0 + h * lam * -(1 / 12)) / P = -((2 * (h * lam) / 3 - 1 + R) / (2 * P)) * ((1 - 2 * (h * lam) / 3 + R) / (2 * P)) := by
            have : (0 + h * lam * -(1 / 12)) * (4 * P) = -((2 * (h * lam) / 3 - 1 + R) * (1 - 2 * (h * lam) / 3 + R)) := by
              have : (2 * (h * lam) / 3 - 1 + R) * (1 - 2 * (h * lam) / 3 + R) = R ^ 2 - (1 - 2 * (h * lam) / 3) ^ 2 := by ring
              rw [this, hsq, hD]
              ring
            field_simp
            linarith
          rw [e1, e2]) (N + 1)
      rw [abs_neg, abs_of_pos (by linarith)] at this
      refine le_trans ?_ (show _ ≤ |gap u v N| + |gap u v (N + 1)| from this)
      show _ ≤ _ * |gap u v 0 - _ * gapBefore u v|
      refine mul_le_mul_of_nonneg_right ?_ (abs_nonneg _)
      exact pow_le_pow_right₀ hr1.le (Nat.le_succ N)

/-! ### Cases -/

namespace Demo

/-- A solver at time 0 that has recorded the value `w` there and before, on `y' = -lam y + g(t)` with step size `h`. -/
noncomputable def resting (lam : ℝ) (g : ℝ → ℝ) (h w : ℝ) : St ℝ 1 (histExtra 1) Unit :=
  ⟨⟨fun i => ((i : ℕ) - (histExtra 1 + 1 : ℕ) : ℝ) * h, fun _ _ => w,
    fun i => decaying lam g (((i : ℕ) - (histExtra 1 + 1 : ℕ) : ℝ) * h) fun _ => w⟩, h, ()⟩

theorem resting_steps (cls : Rhs ℝ 1 → Solver ℝ 1 (histExtra 1) Unit) {lam : ℝ} {g : ℝ → ℝ} {h : ℝ}
    (ht : ∀ st, st.h = h → ∃ st', st'.h = h ∧ Takes (cls (pureRhs (decaying lam g))) st st') (w : ℝ) :
    ∃ u, u 0 = resting lam g h w ∧ TwoSteps cls lam g 0 h u := by
  choose! F hF1 hF2 using ht
  have hh : ∀ j, (F^[j] (resting lam g h w)).h = h := by
    intro j
    induction j with
    | zero => rfl
    | succ j ih => rw [Function.iterate_succ_apply']; exact hF1 _ ih
  refine ⟨fun j => F^[j] (resting lam g h w), rfl, rfl, ?_, ?_, ?_, fun j => ?_⟩
  · show ((histExtra 1 + 1 - 0 : ℕ) - (histExtra 1 + 1 : ℕ) : ℝ) * h = 0
    simp
  · show ((histExtra 1 + 1 - 1 : ℕ) - (histExtra 1 + 1 : ℕ) : ℝ) * h = 0 - h
    push_cast [Nat.add_sub_cancel]
    ring
  · intro i _
    rfl
  · show Takes _ _ (F^[j + 1] _)
    rw [Function.iterate_succ_apply']
    exact hF2 _ (hh j)

theorem explicit_total (c : MultistepCoef ℝ 1) (hc : c.Bn = 0) (b : Bound ℝ) (lam : ℝ) (g : ℝ → ℝ) (h : ℝ) (st : St ℝ 1 (histExtra 1) Unit) (hh : st.h = h) :
    ∃ st', st'.h = h ∧ Takes (⟨explicitMultistep c, pureRhs (decaying lam g), b⟩ : Solver ℝ 1 (histExtra 1) Unit) st st' :=
  ⟨⟨st.cache.push (st.t + st.h) (multistepK c st.cache st.h) (decaying lam g (st.t + st.h) (multistepK c st.cache st.h)), st.h, ()⟩, hh,
    (explicit_takes_iff c hc _ b st _).mpr ⟨_, _, by
      rw [residual_eq, hc]; funext d; simp [scale], rfl, rfl⟩⟩

theorem implicit_total (lib : Lib ℝ) (zo : ZeroOpts ℝ) (he : 0 < zo.secantEps) (ht : 0 ≤ zo.tol) (hr : 0 ≤ zo.rtol)
    (c : MultistepCoef ℝ 1) (b : Bound ℝ) (lam : ℝ) (g : ℝ → ℝ) (h : ℝ) (hreg : 1 + h * lam * c.Bn ≠ 0) (st : St ℝ 1 (histExtra 1) Unit) (hh : st.h = h) :
    ∃ st', st'.h = h ∧ Takes (⟨implicitMultistep lib zo c, pureRhs (decaying lam g), b⟩ : Solver ℝ 1 (histExtra 1) Unit) st st' := by
  obtain ⟨y', f', -, h2, -⟩ := linear_exact lib zo he ht hr c (-lam) g b st (by
    intro e; apply hreg; rw [← e, hh]; ring)
  exact ⟨⟨st.cache.push (st.t + st.h) y' f', st.h, ()⟩, hh, h2⟩

theorem resting_gap {lam : ℝ} {g : ℝ → ℝ} {h w z : ℝ} {u v : ℕ → St ℝ 1 (histExtra 1) Unit} (hu : u 0 = resting lam g h w) (hv : v 0 = resting lam g h z) :
    gap u v 0 = w - z ∧ gapBefore u v = w - z := by
  unfold gap gapBefore
  rw [hu, hv]
  exact ⟨rfl, rfl⟩

end Demo

open Demo

/-- **C109 refuted** as stated: `AdamsBashforth2` does not keep the documented limit 1. -/
theorem C109_refuted (b : Bound ℝ) : ¬ DecaysBelow (fun rhs => ⟨explicitMultistep AdamsBashforth2, rhs, b⟩) 1 := by
  intro h
  obtain ⟨K, ρ, r0, r1, h1⟩ := h (3 / 4) (by norm_num) (by norm_num)
  obtain ⟨K', ρ', k0, k1, h2⟩ := (C109_AdamsBashforth2_partial b).2 (3 / 4) (by norm_num)
  obtain ⟨u, u0, hu⟩ := resting_steps (fun rhs => ⟨explicitMultistep AdamsBashforth2, rhs, b⟩) (explicit_total AdamsBashforth2 rfl b (3 / 4) (fun _ => 0) 1) 1
  obtain ⟨v, v0, hv⟩ := resting_steps (fun rhs => ⟨explicitMultistep AdamsBashforth2, rhs, b⟩) (explicit_total AdamsBashforth2 rfl b (3 / 4) (fun _ => 0) 1) 0
  have h1' := h1 (3 / 4) (fun _ => 0) 0 1 u v (by norm_num) hu hv
  have h2' := h2 (3 / 4) (fun _ => 0) 0 1 u v (by norm_num) hu hv
  obtain ⟨g0, g1⟩ := resting_gap u0 v0
  rw [g0, g1] at h1' h2'
  norm_num at h1' h2'
  have key : ∀ N, K' ≤ K * (1 + ρ) * ρ ^ N := by
    intro N
    have e1 := h1' N
    have e2 := h1' (N + 1)
    have e3 := h2' N
    have e4 : K' ≤ K' * ρ' ^ N := le_mul_of_one_le_right k0.le (one_le_pow₀ k1.le)
    rw [pow_succ] at e2
    nlinarith
  have lim : Filter.Tendsto (fun N : ℕ => K * (1 + ρ) * ρ ^ N) Filter.atTop (nhds (K * (1 + ρ) * 0)) :=
    (tendsto_pow_atTop_nhds_zero_of_lt_one r0.le r1).const_mul _
  rw [mul_zero] at lim
  exact absurd (ge_of_tendsto' lim key) (not_le.mpr k0)

-- C109: on `y' = -y + sin t` two runs of `AdamsBashforth2` with `h = 1/2` come together, two with `h = 3/4` move apart.
example (b : Bound ℝ) : (∃ K ρ u v, ρ < 1 ∧
      TwoSteps (fun rhs => ⟨explicitMultistep AdamsBashforth2, rhs, b⟩) 1 Real.sin 0 (1 / 2) u ∧
      TwoSteps (fun rhs => ⟨explicitMultistep AdamsBashforth2, rhs, b⟩) 1 Real.sin 0 (1 / 2) v ∧
      gap u v 0 = 5 ∧ ∀ N, |gap u v N| ≤ K * ρ ^ N * 10) ∧
    ∃ K ρ u v, 0 < K ∧ 1 < ρ ∧
      TwoSteps (fun rhs => ⟨explicitMultistep AdamsBashforth2, rhs, b⟩) 1 Real.sin 0 (3 / 4) u ∧
      TwoSteps (fun rhs => ⟨explicitMultistep AdamsBashforth2, rhs, b⟩) 1 Real.sin 0 (3 / 4) v ∧
      ∀ N, K * ρ ^ N * 10 ≤ |gap u v N| + |gap u v (N + 1)| := by
  constructor
  · obtain ⟨K, ρ, -, r1, h1⟩ := (C109_AdamsBashforth2_partial b).1 (1 / 2) (by norm_num) (by norm_num)
    obtain ⟨u, u0, hu⟩ := resting_steps (fun rhs => ⟨explicitMultistep AdamsBashforth2, rhs, b⟩) (explicit_total AdamsBashforth2 rfl b 1 Real.sin (1 / 2)) 5
    obtain ⟨v, v0, hv⟩ := resting_steps (fun rhs => ⟨explicitMultistep AdamsBashforth2, rhs, b⟩) (explicit_total AdamsBashforth2 rfl b 1 Real.sin (1 / 2)) 0
    obtain ⟨g0, g1⟩ := resting_gap u0 v0
    refine ⟨K, ρ, u, v, r1, hu, hv, by rw [g0]; norm_num, fun N => ?_⟩
    refine (h1 1 Real.sin 0 (1 / 2) u v (by norm_num) hu hv N).trans (le_of_eq ?_)
    rw [g0, g1]; norm_num
  · obtain ⟨K, ρ, k0, r1, h1⟩ := (C109_AdamsBashforth2_partial b).2 (3 / 4) (by norm_num)
    obtain ⟨u, u0, hu⟩ := resting_steps (fun rhs => ⟨explicitMultistep AdamsBashforth2, rhs, b⟩) (explicit_total AdamsBashforth2 rfl b 1 Real.sin (3 / 4)) 5
    obtain ⟨v, v0, hv⟩ := resting_steps (fun rhs => ⟨explicitMultistep AdamsBashforth2, rhs, b⟩) (explicit_total AdamsBashforth2 rfl b 1 Real.sin (3 / 4)) 0
    obtain ⟨g0, g1⟩ := resting_gap u0 v0
    refine ⟨K, ρ, u, v, k0, r1, hu, hv, fun N => ?_⟩
    refine le_trans (le_of_eq ?_) (h1 1 Real.sin 0 (3 / 4) u v (by norm_num) hu hv N)
    rw [g0, g1]; norm_num

-- C109: the implicit classes with steps of 5 and 10 times the time scale of the problem.
example (b : Bound ℝ) : (∃ K ρ u v, ρ < 1 ∧ gap u v 0 = 5 ∧
      TwoSteps (fun rhs => ⟨implicitMultistep realLib realZeros BDF2, rhs, b⟩) 1 Real.sin 0 10 u ∧
      TwoSteps (fun rhs => ⟨implicitMultistep realLib realZeros BDF2, rhs, b⟩) 1 Real.sin 0 10 v ∧ ∀ N, |gap u v N| ≤ K * ρ ^ N * 10) ∧
    (∃ K ρ u v, ρ < 1 ∧ gap u v 0 = 5 ∧
      TwoSteps (fun rhs => ⟨implicitMultistep realLib realZeros AdamsMoulton3, rhs, b⟩) 1 Real.sin 0 5 u ∧
      TwoSteps (fun rhs => ⟨implicitMultistep realLib realZeros AdamsMoulton3, rhs, b⟩) 1 Real.sin 0 5 v ∧ ∀ N, |gap u v N| ≤ K * ρ ^ N * 10) ∧
    ∃ δ ρ u v, 0 < δ ∧ 1 < ρ ∧
      TwoSteps (fun rhs => ⟨implicitMultistep realLib realZeros AdamsMoulton3, rhs, b⟩) 1 Real.sin 0 10 u ∧
      TwoSteps (fun rhs => ⟨implicitMultistep realLib realZeros AdamsMoulton3, rhs, b⟩) 1 Real.sin 0 10 v ∧
      ∀ N, ρ ^ N * δ ≤ |gap u v N| + |gap u v (N + 1)| := by
  have z1 : 0 < realZeros.secantEps := by norm_num [realZeros]
  have z2 : 0 ≤ realZeros.tol := by norm_num [realZeros]
  have z3 : 0 ≤ realZeros.rtol := by norm_num [realZeros]
  refine ⟨?_, ?_, ?_⟩
  · obtain ⟨K, ρ, -, r1, h1⟩ := C109_BDF2 realLib realZeros z1 z2 z3 b 20 10 (by norm_num) (by norm_num)
    have ht := implicit_total realLib realZeros z1 z2 z3 BDF2 b 1 Real.sin 10 (by norm_num [BDF2, q])
    obtain ⟨u, u0, hu⟩ := resting_steps (fun rhs => ⟨implicitMultistep realLib realZeros BDF2, rhs, b⟩) ht 5
    obtain ⟨v, v0, hv⟩ := resting_steps (fun rhs => ⟨implicitMultistep realLib realZeros BDF2, rhs, b⟩) ht 0
    obtain ⟨g0, g1⟩ := resting_gap u0 v0
    refine ⟨K, ρ, u, v, r1, by rw [g0]; norm_num, hu, hv, fun N => ?_⟩
    refine (h1 1 Real.sin 0 10 u v (by norm_num) hu hv N).trans (le_of_eq ?_)
    rw [g0, g1]; norm_num
  · obtain ⟨K, ρ, -, r1, h1⟩ := (C109_AdamsMoulton3 realLib realZeros z1 z2 z3 b).1 5 (by norm_num) (by norm_num)
    have ht := implicit_total realLib realZeros z1 z2 z3 AdamsMoulton3 b 1 Real.sin 5 (by norm_num [AdamsMoulton3, q])
    obtain ⟨u, u0, hu⟩ := resting_steps (fun rhs => ⟨implicitMultistep realLib realZeros AdamsMoulton3, rhs, b⟩) ht 5
    obtain ⟨v, v0, hv⟩ := resting_steps (fun rhs => ⟨implicitMultistep realLib realZeros AdamsMoulton3, rhs, b⟩) ht 0
    obtain ⟨g0, g1⟩ := resting_gap u0 v0
    refine ⟨K, ρ, u, v, r1, by rw [g0]; norm_num, hu, hv, fun N => ?_⟩
    refine (h1 1 Real.sin 0 5 u v (by norm_num) hu hv N).trans (le_of_eq ?_)
    rw [g0, g1]; norm_num
  · obtain ⟨μ, ρ, m1, r1, h1⟩ := (C109_AdamsMoulton3 realLib realZeros z1 z2 z3 b).2 10 (by norm_num)
    have ht := implicit_total realLib realZeros z1 z2 z3 AdamsMoulton3 b 1 Real.sin 10 (by norm_num [AdamsMoulton3, q])
    obtain ⟨u, u0, hu⟩ := resting_steps (fun rhs => ⟨implicitMultistep realLib realZeros AdamsMoulton3, rhs, b⟩) ht 5
    obtain ⟨v, v0, hv⟩ := resting_steps (fun rhs => ⟨implicitMultistep realLib realZeros AdamsMoulton3, rhs, b⟩) ht 0
    obtain ⟨g0, g1⟩ := resting_gap u0 v0
    refine ⟨_, ρ, u, v, ?_, r1, hu, hv, h1 1 Real.sin 0 10 u v (by norm_num) hu hv⟩
    rw [g0, g1, abs_pos]
    have := (abs_lt.mp m1).2
    intro e
    linarith

end Nbkode
