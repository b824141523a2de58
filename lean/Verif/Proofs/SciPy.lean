import Verif.Spec.SciPy
import Verif.Props.Adaptive
import Verif.Props.RealLib

/-! The attempts of a variable step, compared with SciPy's. -/

set_option autoImplicit false
set_option linter.unusedSectionVars false

namespace Nbkode
open Py Spec Solver Demo

variable {n s : Nat}

theorem clip_fits {b : Bound ℝ} {t h : ℝ} (hb : b.exceededBy (t + h) = false) : SciPy.clip b t h = h := by
  cases b with
  | inf => rfl
  | fin T =>
    have : ¬ T < t + h := by simpa [Bound.exceededBy] using hb
    simp [SciPy.clip, this]

theorem fits_smaller {b : Bound ℝ} {t h h' : ℝ} (hb : b.exceededBy (t + h) = false) (hh : h' ≤ h) : b.exceededBy (t + h') = false := by
  cases b with
  | inf => rfl
  | fin T =>
    have : ¬ T < t + h := by simpa [Bound.exceededBy] using hb
    simp only [Bound.exceededBy, decide_eq_false_iff_not]
    intro h2
    exact this (by linarith)

/-- The size kept for the next step by SciPy, given the one kept by nbkode. -/
noncomputable def nextOf (rejected : Bool) (h size h' : ℝ) : ℝ := if rejected = false ∧ size = h then h' else min size h'

theorem factor_eq (order : ℕ) {en : ℝ} (he : 0 ≤ en) : SciPy.factor order en = 9 / 10 / en ^ (1 / ((order : ℝ) + 1)) := by
  unfold SciPy.factor
  rw [neg_div, Real.rpow_neg he, div_eq_mul_inv (9 / 10 : ℝ)]

theorem scipy_accept_factor {o : VarOptions ℝ} (h1 : o.minFactor = 1 / 5) (h2 : o.maxFactor = 10) (h3 : o.safetyFactor = 9 / 10) (order : ℕ) {en q : ℝ}
    (he : 0 ≤ en) (hlt : en < 1) :
    StepFactor realLib o (1 / ((order : ℝ) + 1)) en q ↔ q = (if en = 0 then 10 else min 10 (SciPy.factor order en)) := by
  have hex : 0 ≤ 1 / ((order : ℝ) + 1) := by positivity
  unfold StepFactor
  rw [h1, h2, h3]
  by_cases h0 : en = 0
  · simp [h0]
  · have hp : 0 < en := lt_of_le_of_ne he (Ne.symm h0)
    have hpow : 0 < en ^ (1 / ((order : ℝ) + 1)) := Real.rpow_pos_of_pos hp _
    have hle : en ^ (1 / ((order : ℝ) + 1)) ≤ 1 := Real.rpow_le_one he hlt.le hex
    have hge : (1 / 5 : ℝ) ≤ 9 / 10 / en ^ (1 / ((order : ℝ) + 1)) := by
      rw [le_div_iff₀ hpow]; linarith
    rw [if_neg h0, factor_eq order he]
    show (en = 0 ∧ _) ∨ (en ≠ 0 ∧ en ^ (1 / ((order : ℝ) + 1)) ≠ 0 ∧ q = min 10 (max (1 / 5) (9 / 10 / en ^ (1 / ((order : ℝ) + 1))))) ↔ _
    rw [max_eq_right hge]
    constructor
    · rintro (⟨h, -⟩ | ⟨-, -, h⟩)
      · exact absurd h h0
      · exact h
    · exact fun h => Or.inr ⟨h0, hpow.ne', h⟩

theorem scipy_reject_factor {o : VarOptions ℝ} (h1 : o.minFactor = 1 / 5) (h2 : o.maxFactor = 10) (h3 : o.safetyFactor = 9 / 10) (order : ℕ) {en q : ℝ}
    (hge : 1 ≤ en) :
    (StepFactor realLib o (1 / ((order : ℝ) + 1)) en q ↔ q = max (1 / 5) (SciPy.factor order en)) ∧
      0 < max (1 / 5) (SciPy.factor order en) ∧ max (1 / 5) (SciPy.factor order en) < 1 := by
  have hex : 0 ≤ 1 / ((order : ℝ) + 1) := by positivity
  have hp : 0 < en := by linarith
  have hpow : 1 ≤ en ^ (1 / ((order : ℝ) + 1)) := Real.one_le_rpow hge hex
  have hle : 9 / 10 / en ^ (1 / ((order : ℝ) + 1)) ≤ 9 / 10 := by
    rw [div_le_iff₀ (by linarith)]; linarith
  rw [factor_eq order hp.le]
  refine ⟨?_, lt_max_of_lt_left (by norm_num), max_lt (by norm_num) (by linarith)⟩
  unfold StepFactor
  rw [h1, h2, h3]
  show (en = 0 ∧ _) ∨ (en ≠ 0 ∧ en ^ (1 / ((order : ℝ) + 1)) ≠ 0 ∧ q = min 10 (max (1 / 5) (9 / 10 / en ^ (1 / ((order : ℝ) + 1))))) ↔ _
  rw [min_eq_right (a := (10 : ℝ)) (max_le (by norm_num) (by linarith))]
  constructor
  · rintro (⟨h, -⟩ | ⟨-, -, h⟩)
    · exact absurd h hp.ne'
    · exact h
  · exact fun h => Or.inr ⟨hp.ne', by positivity, h⟩

theorem next_accept {rejected : Bool} {h q : ℝ} (hh : 0 < h) : (h * if rejected then min 1 q else q) = nextOf rejected h h (h * q) := by
  cases rejected
  · simp [nextOf]
  · simp only [nextOf, if_true, Bool.true_eq_false, false_and, if_false]
    rw [mul_min_of_nonneg _ _ hh.le, mul_one]

variable {o : VarOptions ℝ} (h1 : o.minFactor = 1 / 5) (h2 : o.maxFactor = 10) (h3 : o.safetyFactor = 9 / 10) {T : Tableau ℝ s}
  {norm : ErrNorm ℝ n s} {nrm : SciPy.Norm n s} {order : ℕ} {f : Rhs ℝ n} {b : Bound ℝ} {t : ℝ} {y : Vec ℝ n}

include h1 h2 h3

theorem trail_step (hN : ∀ h K yN y en, norm h K yN y = .ok en → en = nrm h K yN y ∧ 0 ≤ en) {h h' : ℝ} {l : List (Tried ℝ)}
    {K : Fin (s + 2) → Vec ℝ n} (hT : Trail realLib o (1 / ((order : ℝ) + 1)) T norm f t y h l h' K) (hh : 0 < h)
    (hb : b.exceededBy (t + h) = false) (rejected : Bool) :
    ∃ last, l.getLast? = some last ∧ SciPy.Step T nrm order f b t y rejected h last.size K (nextOf rejected h last.size h') ∧ last.size ≤ h := by
  induction hT generalizing rejected with
  | @accept h en q K hK hn ha hq =>
    obtain ⟨e1, e2⟩ := hN _ _ _ _ _ hn
    have hlt : en < 1 := by
      rcases ha with rfl | ha
      · exact one_pos
      · exact ha
    refine ⟨⟨h, en⟩, rfl, ?_, le_rfl⟩
    rw [← next_accept hh]
    exact .accept (clip_fits hb).symm hK e1 hlt ((scipy_accept_factor h1 h2 h3 order e2 hlt).1 hq)
  | @reject h en q h' K K' l hK hn ha hq hT ih =>
    obtain ⟨e1, -⟩ := hN _ _ _ _ _ hn
    obtain ⟨g1, g2, g3⟩ := scipy_reject_factor h1 h2 h3 order (q := q) ha.2
    rw [g1.1 hq] at ih
    have hlt : h * max (1 / 5) (SciPy.factor order en) < h := by nlinarith
    obtain ⟨last, k1, k2, k3⟩ := ih (mul_pos hh g2) (fits_smaller hb hlt.le) true
    refine ⟨last, ?_, ?_, k3.trans hlt.le⟩
    · cases l with
      | nil => cases k1
      | cons a l => rw [List.getLast?_cons_cons]; exact k1
    · have : nextOf rejected h last.size h' = nextOf true (h * max (1 / 5) (SciPy.factor order en)) last.size h' := by
        have : last.size ≠ h := fun e => by linarith
        simp [nextOf, this]
      rw [this]
      exact .reject (clip_fits hb).symm hK e1 (by linarith [ha.2]) k2

theorem step_trail (hN : ∀ h K yN y, norm h K yN y = .ok (nrm h K yN y) ∧ 0 ≤ nrm h K yN y) {rejected : Bool} {h size next : ℝ}
    {K : Fin (s + 2) → Vec ℝ n} (hS : SciPy.Step T nrm order f b t y rejected h size K next) (hh : 0 < h) (hb : b.exceededBy (t + h) = false) :
    ∃ l h' en, Trail realLib o (1 / ((order : ℝ) + 1)) T norm f t y h l h' K ∧ l.getLast? = some ⟨size, en⟩ ∧
      next = nextOf rejected h size h' ∧ size ≤ h := by
  induction hS with
  | @accept rejected h size en q K hs hK he hlt hq =>
    rw [clip_fits hb] at hs
    subst hs
    obtain ⟨e1, e2⟩ := hN size K (proposal T size y K) y
    rw [← he] at e1 e2
    exact ⟨_, _, en, .accept hK e1 (Or.inr hlt) ((scipy_accept_factor h1 h2 h3 order e2 hlt).2 hq), rfl, next_accept hh, le_rfl⟩
  | @reject rejected h size en size' next K K' hs hK he hge hS ih =>
    rw [clip_fits hb] at hs
    subst hs
    obtain ⟨e1, e2⟩ := hN size K (proposal T size y K) y
    rw [← he] at e1 e2
    have hge : 1 ≤ en := not_lt.1 hge
    obtain ⟨g1, g2, g3⟩ := scipy_reject_factor h1 h2 h3 order (q := max (1 / 5) (SciPy.factor order en)) hge
    have hlt : size * max (1 / 5) (SciPy.factor order en) < size := by nlinarith
    obtain ⟨l, h', en', k1, k2, k3, k4⟩ := ih (mul_pos hh g2) (fits_smaller hb hlt.le)
    refine ⟨_, h', en', .reject hK e1 ⟨by linarith, hge⟩ (g1.2 rfl) k1, ?_, ?_, k4.trans hlt.le⟩
    · cases l with
      | nil => cases k2
      | cons a l => rw [List.getLast?_cons_cons]; exact k2
    · have : size' ≠ size := fun e => by linarith
      rw [k3]
      simp [nextOf, this]

omit h1 h2 h3

theorem rms_scipy (o : VarOptions ℝ) (y yNew err : Vec ℝ n) :
    rmsError realLib o y yNew err = SciPy.norm fun d => err d / SciPy.scale o.rtol o.atol y yNew d := by
  unfold rmsError SciPy.norm SciPy.scale
  show Real.sqrt _ = _
  rw [Real.sqrt_div (Finset.sum_nonneg fun i _ => sq_nonneg _), ← Real.sqrt_eq_rpow]
  congr 3
  funext i
  rw [max_comm |yNew i|, mul_comm o.rtol]

theorem norm_nonneg' (x : Vec ℝ n) : 0 ≤ SciPy.norm x := div_nonneg (Real.sqrt_nonneg _) (Real.rpow_nonneg (Nat.cast_nonneg _) _)

theorem fsal_norm (o : VarOptions ℝ) (E : Fin (s + 2) → ℝ) (h : ℝ) (K : Fin (s + 2) → Vec ℝ n) (yN y : Vec ℝ n) :
    rkNorm realLib o E h K yN y = .ok (SciPy.errorNorm o.rtol o.atol E h K yN y) ∧ 0 ≤ SciPy.errorNorm o.rtol o.atol E h K yN y := by
  refine ⟨?_, norm_nonneg' _⟩
  simp only [rkNorm, rms_scipy, SciPy.errorNorm, Except.ok.injEq]
  congr 1
  funext d
  congr 1
  rw [mul_comm h]
  congr 1
  exact Finset.sum_congr rfl fun j _ => mul_comm _ _

theorem norm_sq (h : ℝ) (g : Vec ℝ n) (sc : Vec ℝ n) :
    (SciPy.norm fun d => h * g d / sc d) ^ 2 = h ^ 2 * (∑ d, (g d / sc d) ^ 2) / n := by
  unfold SciPy.norm
  rw [div_pow, Real.sq_sqrt (Finset.sum_nonneg fun i _ => sq_nonneg _), ← Real.sqrt_eq_rpow, Real.sq_sqrt (Nat.cast_nonneg _), Finset.mul_sum]
  congr 1
  exact Finset.sum_congr rfl fun d _ => by rw [mul_div_assoc, mul_pow]

theorem dop_norm (o : VarOptions ℝ) (E3 E5 : Fin (s + 2) → ℝ) (h : ℝ) (K : Fin (s + 2) → Vec ℝ n) (yN y : Vec ℝ n) (en : ℝ)
    (he : dopNorm realLib o E3 E5 h K yN y = .ok en) : en = SciPy.errorNorm853 o.rtol o.atol E3 E5 h K yN y ∧ 0 ≤ en := by
  unfold dopNorm at he
  simp only [rms_scipy] at he
  split at he
  · cases he
  next hne =>
    obtain ⟨h5, hroot⟩ := not_or.1 hne
    have he := (Except.ok.inj he).symm
    have hen : 0 ≤ en := by
      rw [he]
      exact div_nonneg (norm_nonneg' _) (Real.sqrt_nonneg _)
    refine ⟨?_, hen⟩
    have q5 := norm_sq h (fun d => ∑ j, E5 j * K j d) (SciPy.scale o.rtol o.atol y yN)
    have q3 := norm_sq h (fun d => ∑ j, E3 j * K j d) (SciPy.scale o.rtol o.atol y yN)
    have c : ∀ E : Fin (s + 2) → ℝ, (fun d => ∑ j, E j * K j d) = fun d => ∑ j, K j d * E j := by
      intro E; funext d; exact Finset.sum_congr rfl fun j _ => mul_comm _ _
    have n5 := norm_nonneg' fun d => h * (∑ j, E5 j * K j d) / SciPy.scale o.rtol o.atol y yN d
    have n3 := norm_nonneg' fun d => h * (∑ j, E3 j * K j d) / SciPy.scale o.rtol o.atol y yN d
    have p5 : 0 ≤ ∑ d, ((fun d => ∑ j, E5 j * K j d) d / SciPy.scale o.rtol o.atol y yN d) ^ 2 := Finset.sum_nonneg fun i _ => sq_nonneg _
    have p3 : 0 ≤ ∑ d, ((fun d => ∑ j, E3 j * K j d) d / SciPy.scale o.rtol o.atol y yN d) ^ 2 := Finset.sum_nonneg fun i _ => sq_nonneg _
    have target : SciPy.errorNorm853 o.rtol o.atol E3 E5 h K yN y =
        let e5 := ∑ d, ((fun d => ∑ j, E5 j * K j d) d / SciPy.scale o.rtol o.atol y yN d) ^ 2
        let e3 := ∑ d, ((fun d => ∑ j, E3 j * K j d) d / SciPy.scale o.rtol o.atol y yN d) ^ 2
        if e5 = 0 ∧ e3 = 0 then 0 else |h| * e5 / Real.sqrt ((e5 + 1 / 100 * e3) * n) := by
      rw [c E5, c E3]; rfl
    rw [target]
    simp only at q5 q3 p5 p3 ⊢
    generalize (SciPy.norm fun d => h * (∑ j, E5 j * K j d) / SciPy.scale o.rtol o.atol y yN d) = N5 at *
    generalize (SciPy.norm fun d => h * (∑ j, E3 j * K j d) / SciPy.scale o.rtol o.atol y yN d) = N3 at *
    generalize (∑ d, ((∑ j, E5 j * K j d) / SciPy.scale o.rtol o.atol y yN d) ^ 2) = S5 at *
    generalize (∑ d, ((∑ j, E3 j * K j d) / SciPy.scale o.rtol o.atol y yN d) ^ 2) = S3 at *
    have hN5 : N5 ^ 2 ≠ 0 := pow_ne_zero 2 h5
    have hS5 : S5 ≠ 0 := by rintro rfl; simp [q5] at hN5
    have hh : h ≠ 0 := by rintro rfl; simp [q5] at hN5
    have hn : (n : ℝ) ≠ 0 := by intro e; simp [q5, e] at hN5
    have hn0 : 0 < (n : ℝ) := lt_of_le_of_ne (Nat.cast_nonneg _) (Ne.symm hn)
    have hS : 0 < S5 + 1 / 100 * S3 := by
      have := lt_of_le_of_ne p5 (Ne.symm hS5)
      linarith
    rw [if_neg fun h => hS5 h.1]
    have hr : 0 ≤ |h| * S5 / Real.sqrt ((S5 + 1 / 100 * S3) * n) := by positivity
    rw [← sq_eq_sq₀ hen hr, he]
    show (N5 / Real.sqrt (1 + (N3 / (10 * N5)) ^ 2)) ^ 2 = _
    rw [div_pow, Real.sq_sqrt (by positivity), div_pow (|h| * S5), Real.sq_sqrt (by positivity), mul_pow, sq_abs, div_pow, mul_pow, q5, q3]
    field_simp
    ring

end Nbkode
