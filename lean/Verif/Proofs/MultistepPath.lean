import Verif.Proofs.ZeroStability
import Verif.Proofs.Truncation
import Verif.Proofs.Convergence
import Verif.Proofs.MethodShape

/-! # Convergence of stable multistep formulas -/

set_option autoImplicit false
set_option linter.unusedSectionVars false

namespace Nbkode
open Spec

variable {n p : ℕ}

/-! ### The points visited, as one sequence -/

theorem ago_shiftIn_zero {A : Type} {k : ℕ} (a : Fin (k + 2) → A) (x : A) : ago (shiftIn a x) 0 = x := by
  simp [ago, shiftIn]

theorem ago_shiftIn_succ {A : Type} {k : ℕ} (a : Fin (k + 2) → A) (x : A) (i : ℕ) (hi : i + 1 ≤ k + 1) :
    ago (shiftIn a x) (i + 1) = ago a i := by
  unfold ago shiftIn
  rw [dif_pos (by simp only; omega)]
  congr 2
  simp only
  omega

/-- One step whose formula is satisfied within `ε`. -/
def StepWithin (c : MultistepCoef ℝ p) (f : ℝ → Vec ℝ n → Vec ℝ n) (ε : ℝ) (s s' : St ℝ n (histExtra p) Unit) : Prop :=
  ∃ y', s' = ⟨s.cache.push (s.t + s.h) y' (f (s.t + s.h) y'), s.h, ()⟩ ∧
    ∀ d, |defect c s.cache s.h y' (f (s.t + s.h) y') d| ≤ ε

theorem path_points {c : MultistepCoef ℝ p} {f : ℝ → Vec ℝ n → Vec ℝ n} {ε : ℝ} {S : Solver ℝ n (histExtra p) Unit}
    {lim : Bound ℝ} {h : ℝ} (hS : ∀ u v : St ℝ n (histExtra p) Unit, u.h = h → Takes S u v → StepWithin c f ε u v)
    {s s' : St ℝ n (histExtra p) Unit} {l : List (St ℝ n (histExtra p) Unit)} (hl : Path S lim s l s') (hh : s.h = h)
    (hd : ∀ i ≤ p, ago s.cache.fs i = f (s.t - i * s.h) (ago s.cache.ys i)) :
    ∃ X : ℕ → Fin n → ℝ, (∀ i ≤ p, ago s.cache.ys i = X (p - i)) ∧ ∀ (m : ℕ) (hm : m < l.length),
      l[m].y = X (p + m + 1) ∧ l[m].t = s.t + ((m : ℝ) + 1) * s.h ∧
      ∀ d, |X (p + m + 1) d + ∑ i : Fin (p + 1), c.A i.rev * X (p + m - i) d -
        s.h * (c.Bn * f (s.t + ((m : ℝ) + 1) * s.h) (X (p + m + 1)) d +
          ∑ i : Fin (p + 1), c.B i.rev * f (s.t + ((m : ℝ) - (i : ℕ)) * s.h) (X (p + m - i)) d)| ≤ ε := by
  induction hl with
  | nil s => exact ⟨fun j => ago s.cache.ys (p - j), fun i hi => by simp only [Nat.sub_sub_self hi], by simp⟩
  | @cons s s1 s2 l hfit ht hrest ih =>
    obtain ⟨y', rfl, hy⟩ := hS s s1 hh ht
    set s1 : St ℝ n (histExtra p) Unit := ⟨s.cache.push (s.t + s.h) y' (f (s.t + s.h) y'), s.h, ()⟩ with hs1
    have e1 : s1.t = s.t + s.h := push_t _ _ _ _
    have e2 : s1.h = s.h := rfl
    obtain ⟨X', h1, h2⟩ := ih hh (by
      intro i hi
      cases i with
      | zero =>
        rw [show ago s1.cache.fs 0 = _ from ago_shiftIn_zero _ _, show ago s1.cache.ys 0 = _ from ago_shiftIn_zero _ _, e1]
        simp
      | succ i =>
        have hk : i + 1 ≤ histExtra p + 1 := by unfold histExtra; omega
        rw [show ago s1.cache.fs (i + 1) = _ from ago_shiftIn_succ _ _ i hk,
          show ago s1.cache.ys (i + 1) = _ from ago_shiftIn_succ _ _ i hk, hd i (by omega), e1, e2]
        congr 1
        push_cast; ring)
    have hX0 : X' p = y' := by
      have := h1 0 (by omega)
      rw [show ago s1.cache.ys 0 = _ from ago_shiftIn_zero _ _] at this
      exact this.symm
    have hXs : ∀ i < p, X' (p - 1 - i) = ago s.cache.ys i := by
      intro i hi
      have := h1 (i + 1) (by omega)
      rw [show ago s1.cache.ys (i + 1) = _ from ago_shiftIn_succ _ _ i (by unfold histExtra; omega)] at this
      rw [this]; congr 1; omega
    let X : ℕ → Fin n → ℝ := fun j => match j with | 0 => ago s.cache.ys p | j + 1 => X' j
    have hold : ∀ i ≤ p, ago s.cache.ys i = X (p - i) := by
      intro i hi
      rcases hi.lt_or_eq with hlt | rfl
      · obtain ⟨r, hr⟩ : ∃ r, p - i = r + 1 := ⟨p - i - 1, by omega⟩
        rw [hr]
        show _ = X' r
        rw [← hXs i hlt]; congr 1; omega
      · rw [Nat.sub_self]
    refine ⟨X, hold, fun m hm => ?_⟩
    cases m with
    | zero =>
      have e3 : X (p + 0 + 1) = y' := hX0
      refine ⟨?_, ?_, fun d => ?_⟩
      · rw [e3]; exact push_y _ _ _ _
      · show s1.t = _
        rw [e1]; simp
      · have h3 := hy d
        rw [e3]
        refine le_trans (le_of_eq ?_) h3
        simp only [defect]
        congr 2
        · congr 1
          exact Finset.sum_congr rfl fun i _ => by
            rw [hold i (by have := i.isLt; omega)]; rfl
        · congr 2
          · simp
          · refine Finset.sum_congr rfl fun i _ => ?_
            rw [hd i (by have := i.isLt; omega), hold i (by have := i.isLt; omega)]
            have e8 : s.t + (((0 : ℕ) : ℝ) - (i : ℕ)) * s.h = s.t - (i : ℕ) * s.h := by push_cast; ring
            rw [e8]
            rfl
    | succ m =>
      obtain ⟨g1, g2, g3⟩ := h2 m (by simpa using hm)
      refine ⟨g1, ?_, fun d => ?_⟩
      · show (l[m]'(by simpa using hm)).t = _
        rw [g2, e1, e2]; push_cast; ring
      · refine le_trans (le_of_eq ?_) (g3 d)
        have e4 : ∀ i : Fin (p + 1), X (p + (m + 1) - i) = X' (p + m - i) := by
          intro i
          have hi := i.isLt
          obtain ⟨r, hr⟩ : ∃ r, p + (m + 1) - i.val = r + 1 := ⟨p + m - i, by omega⟩
          rw [hr]
          show X' r = _
          congr 1; omega
        have e5 : X (p + (m + 1) + 1) = X' (p + m + 1) := rfl
        have e6 : s.t + (((m + 1 : ℕ) : ℝ) + 1) * s.h = s1.t + ((m : ℝ) + 1) * s1.h := by rw [e1, e2]; push_cast; ring
        have e7 : ∀ i : Fin (p + 1), s.t + (((m + 1 : ℕ) : ℝ) - (i : ℕ)) * s.h = s1.t + ((m : ℝ) - (i : ℕ)) * s1.h := by
          intro i; rw [e1, e2]; push_cast; ring
        simp only [e4, e5, e6, e7, e2]

/-! ### The error of the sequence -/

theorem dahlquist {q : ℕ} {c : MultistepCoef ℝ p} (hst : ZeroStable c) (hx : ExactOnPolynomials c q)
    {f : ℝ → Vec ℝ n → Vec ℝ n} {y : ℝ → Vec ℝ n} {a b t₀ T : ℝ} (hf : ContDiff ℝ q (joint f)) (ha : a < t₀) (hb : T < b)
    (hy : ∀ t ∈ Set.Ioo a b, SolvesAt f y t) {L : ℝ} (hL : 0 ≤ L) :
    ∃ C δ, 0 ≤ C ∧ 0 < δ ∧ ∀ (ε E h tp : ℝ) (X : ℕ → Fin n → ℝ) (m : ℕ), 0 ≤ ε → 0 ≤ E → 0 < h → h ≤ δ → t₀ ≤ tp - p * h →
      tp + ((m : ℝ) + 1) * h ≤ T → (∀ j ≤ p, ‖X j - y (tp + ((j : ℝ) - p) * h)‖ ≤ E) →
      (∀ j ≤ m, ∀ d, |X (p + j + 1) d + ∑ i : Fin (p + 1), c.A i.rev * X (p + j - i) d -
        h * (c.Bn * f (tp + ((j : ℝ) + 1) * h) (X (p + j + 1)) d +
          ∑ i : Fin (p + 1), c.B i.rev * f (tp + ((j : ℝ) - (i : ℕ)) * h) (X (p + j - i)) d)| ≤ ε) →
      (∀ j ≤ p + m + 1, (c.Bn = 0 → j ≤ p + m) → ∀ d, |f (tp + ((j : ℝ) - p) * h) (X j) d -
        f (tp + ((j : ℝ) - p) * h) (y (tp + ((j : ℝ) - p) * h)) d| ≤ L * ‖X j - y (tp + ((j : ℝ) - p) * h)‖) →
      ‖X (p + m + 1) - y (tp + ((m : ℝ) + 1) * h)‖ ≤ C * (E + h ^ q + ε / h) := by
  obtain ⟨S, hS0, hS⟩ := stable_bound (n := n) hst
  obtain ⟨D, hD0, hD⟩ := truncation hx hf ha hb hy
  set β := |c.Bn| + ∑ i, |c.B i| with hβ
  have hβ0 : 0 ≤ β := add_nonneg (abs_nonneg _) (Finset.sum_nonneg fun _ _ => abs_nonneg _)
  set α := 1 + ∑ i, |c.A i| with hα
  have hα0 : 0 ≤ α := add_nonneg zero_le_one (Finset.sum_nonneg fun _ _ => abs_nonneg _)
  set Q := S * L * β with hQ
  have hQ0 : 0 ≤ Q := by positivity
  set R := max (T - t₀) 0 with hR
  have hR0 : 0 ≤ R := le_max_right _ _
  refine ⟨2 * S * (((p : ℝ) + 1) * α + R * (1 + D)) * Real.exp (2 * Q * R), 1 / (2 * Q + 1), by positivity, by positivity,
    fun ε E h tp X m hε hE hh hδ ht0 htT hstart hres hlip => ?_⟩
  set t : ℕ → ℝ := fun j => tp + ((j : ℝ) - p) * h with htdef
  set e : ℕ → Fin n → ℝ := fun j => X j - y (t j) with he
  have hQh : 2 * (S * (h * L) * β) ≤ 1 := by
    have h1 : h * (2 * Q + 1) ≤ 1 := by
      have := mul_le_mul_of_nonneg_right hδ (by positivity : 0 ≤ 2 * Q + 1)
      rwa [one_div, inv_mul_cancel₀ (by positivity)] at this
    have : S * (h * L) * β = h * Q := by rw [hQ]; ring
    rw [this]; nlinarith
  have hrec : ∀ j, p + j + 1 ≤ p + m + 1 → ∀ d, |e (p + j + 1) d + ∑ i : Fin (p + 1), c.A i.rev * e (p + j - i) d| ≤
      (ε + D * h ^ (q + 1)) + h * L * (|c.Bn| * ‖e (p + j + 1)‖ + ∑ i : Fin (p + 1), |c.B i.rev| * ‖e (p + j - i)‖) := by
    intro j hj d
    have hjm : j ≤ m := by omega
    have hjR : (j : ℝ) ≤ m := by exact_mod_cast hjm
    have htr := hD (tp + j * h) h hh.le (by
        have : (0 : ℝ) ≤ j * h := by positivity
        linarith) (by nlinarith) d
    have hr := hres j hjm d
    have et1 : t (p + j + 1) = tp + ((j : ℝ) + 1) * h := by simp only [htdef]; push_cast; ring
    have et2 : ∀ i : Fin (p + 1), t (p + j - i) = tp + ((j : ℝ) - (i : ℕ)) * h := by
      intro i
      have hi := i.isLt
      simp only [htdef]
      rw [Nat.cast_sub (by omega)]
      push_cast; ring
    have et3 : tp + j * h + h = tp + ((j : ℝ) + 1) * h := by ring
    have et4 : ∀ i : Fin (p + 1), tp + j * h - (i : ℕ) * h = tp + ((j : ℝ) - (i : ℕ)) * h := by intro i; ring
    simp only [et3, et4] at htr
    have hl1 : |c.Bn * (f (t (p + j + 1)) (X (p + j + 1)) d - f (t (p + j + 1)) (y (t (p + j + 1))) d)| ≤
        |c.Bn| * (L * ‖e (p + j + 1)‖) := by
      by_cases hB : c.Bn = 0
      · rw [hB]; simp
      · rw [abs_mul]
        exact mul_le_mul_of_nonneg_left (hlip (p + j + 1) (by omega) (fun h => absurd h hB) d) (abs_nonneg _)
    have hl2 : |∑ i : Fin (p + 1), c.B i.rev * (f (t (p + j - i)) (X (p + j - i)) d - f (t (p + j - i)) (y (t (p + j - i))) d)| ≤
        ∑ i : Fin (p + 1), |c.B i.rev| * (L * ‖e (p + j - i)‖) := by
      refine (Finset.abs_sum_le_sum_abs _ _).trans (Finset.sum_le_sum fun i _ => ?_)
      rw [abs_mul]
      exact mul_le_mul_of_nonneg_left (hlip (p + j - i) (by omega) (fun _ => by omega) d) (abs_nonneg _)
    have hid : e (p + j + 1) d + ∑ i : Fin (p + 1), c.A i.rev * e (p + j - i) d =
        (X (p + j + 1) d + ∑ i : Fin (p + 1), c.A i.rev * X (p + j - i) d -
          h * (c.Bn * f (tp + ((j : ℝ) + 1) * h) (X (p + j + 1)) d +
            ∑ i : Fin (p + 1), c.B i.rev * f (tp + ((j : ℝ) - (i : ℕ)) * h) (X (p + j - i)) d)) -
        (y (tp + ((j : ℝ) + 1) * h) d + ∑ i : Fin (p + 1), c.A i.rev * y (tp + ((j : ℝ) - (i : ℕ)) * h) d -
          h * (c.Bn * f (tp + ((j : ℝ) + 1) * h) (y (tp + ((j : ℝ) + 1) * h)) d + ∑ i : Fin (p + 1), c.B i.rev *
            f (tp + ((j : ℝ) - (i : ℕ)) * h) (y (tp + ((j : ℝ) - (i : ℕ)) * h)) d)) +
        h * (c.Bn * (f (t (p + j + 1)) (X (p + j + 1)) d - f (t (p + j + 1)) (y (t (p + j + 1))) d) +
          ∑ i : Fin (p + 1), c.B i.rev * (f (t (p + j - i)) (X (p + j - i)) d - f (t (p + j - i)) (y (t (p + j - i))) d)) := by
      simp only [he, Pi.sub_apply, mul_sub, Finset.sum_sub_distrib, et1, et2]
      ring
    rw [hid]
    refine (abs_add_le _ _).trans (add_le_add ((abs_sub _ _).trans (add_le_add hr htr)) ?_)
    rw [abs_mul, abs_of_pos hh, mul_assoc]
    refine mul_le_mul_of_nonneg_left ((abs_add_le _ _).trans ((add_le_add hl1 hl2).trans (le_of_eq ?_))) hh.le
    rw [mul_add, Finset.mul_sum]
    congr 1
    · ring
    · exact Finset.sum_congr rfl fun i _ => by ring
  have hmain := hS e E (ε + D * h ^ (q + 1)) (h * L) (p + m + 1) hE (by positivity) (by positivity) hQh
    (fun j hj => hstart j hj) hrec (p + m + 1) le_rfl
  have et : t (p + m + 1) = tp + ((m : ℝ) + 1) * h := by simp only [htdef]; push_cast; ring
  have hee : e (p + m + 1) = X (p + m + 1) - y (tp + ((m : ℝ) + 1) * h) := by simp only [he, et]
  rw [← hee]
  refine hmain.trans ?_
  have hMh : ((p + m + 1 : ℕ) : ℝ) * h ≤ R := by
    refine le_trans ?_ (le_max_left _ _)
    push_cast
    nlinarith
  have hMτ : ((p + m + 1 : ℕ) : ℝ) * (ε + D * h ^ (q + 1)) ≤ R * (1 + D) * (h ^ q + ε / h) := by
    have h1 : ε + D * h ^ (q + 1) = h * (ε / h + D * h ^ q) := by
      rw [pow_succ]; field_simp
    rw [h1, ← mul_assoc]
    have h2 : ε / h + D * h ^ q ≤ (1 + D) * (h ^ q + ε / h) := by
      have : 0 ≤ ε / h := by positivity
      have : 0 ≤ h ^ q := by positivity
      nlinarith [mul_nonneg hD0 (by positivity : 0 ≤ ε / h)]
    calc _ ≤ R * (ε / h + D * h ^ q) := mul_le_mul_of_nonneg_right hMh (by positivity)
      _ ≤ R * ((1 + D) * (h ^ q + ε / h)) := mul_le_mul_of_nonneg_left h2 hR0
      _ = _ := by ring
  have hexp : Real.exp (2 * S * (h * L) * (|c.Bn| + ∑ i, |c.B i|) * ((p + m + 1 : ℕ) : ℝ)) ≤ Real.exp (2 * Q * R) := by
    refine Real.exp_le_exp.mpr ?_
    have : 2 * S * (h * L) * (|c.Bn| + ∑ i, |c.B i|) * ((p + m + 1 : ℕ) : ℝ) = 2 * Q * (((p + m + 1 : ℕ) : ℝ) * h) := by
      rw [hQ, hβ]; ring
    rw [this]
    exact mul_le_mul_of_nonneg_left hMh (by positivity)
  have hpos : 0 ≤ ((p : ℝ) + 1) * α * E + ((p + m + 1 : ℕ) : ℝ) * (ε + D * h ^ (q + 1)) := by positivity
  calc _ ≤ 2 * S * (((p : ℝ) + 1) * α * E + ((p + m + 1 : ℕ) : ℝ) * (ε + D * h ^ (q + 1))) * Real.exp (2 * Q * R) :=
        mul_le_mul_of_nonneg_left hexp (mul_nonneg (by positivity) hpos)
    _ ≤ 2 * S * (((p : ℝ) + 1) * α * E + R * (1 + D) * (h ^ q + ε / h)) * Real.exp (2 * Q * R) := by
        refine mul_le_mul_of_nonneg_right (mul_le_mul_of_nonneg_left (add_le_add le_rfl hMτ) (by positivity)) (Real.exp_pos _).le
    _ ≤ _ := by
        have h1 : ((p : ℝ) + 1) * α * E + R * (1 + D) * (h ^ q + ε / h) ≤
            (((p : ℝ) + 1) * α + R * (1 + D)) * (E + h ^ q + ε / h) := by
          have : 0 ≤ ((p : ℝ) + 1) * α * (h ^ q + ε / h) := by positivity
          have : 0 ≤ R * (1 + D) * E := by positivity
          nlinarith
        have h2 := mul_le_mul_of_nonneg_right (mul_le_mul_of_nonneg_left h1 (by positivity : 0 ≤ 2 * S)) (Real.exp_pos (2 * Q * R)).le
        refine h2.trans (le_of_eq ?_)
        ring

/-- Near a curve, a continuously differentiable right-hand side is Lipschitz in the state. -/
theorem tube_lipschitz {f : ℝ → Vec ℝ n → Vec ℝ n} (hf : ContDiff ℝ 1 (joint f)) {y : ℝ → (Fin n → ℝ)}
    {t₀ t₁ : ℝ} (hy : ContinuousOn y (Set.Icc t₀ t₁)) :
    ∃ L, 0 ≤ L ∧ ∀ t ∈ Set.Icc t₀ t₁, ∀ v : Fin n → ℝ, ‖v - y t‖ ≤ 1 → ∀ d, |f t v d - f t (y t) d| ≤ L * ‖v - y t‖ := by
  obtain ⟨L, h1, h2⟩ := incr_lipschitz (T := (⟨fun _ _ => 0, fun _ => 1, fun _ => 0⟩ : Tableau ℝ 0)) hf hy
  refine ⟨L, h1, fun t ht v hv d => ?_⟩
  have e : ∀ v : Fin n → ℝ, incr (⟨fun _ _ => 0, fun _ => 1, fun _ => 0⟩ : Tableau ℝ 0) f (t, 0, v) = f t v := by
    intro v
    unfold incr
    rw [Fin.sum_univ_one, stageFn]
    simp only [zero_smul, add_zero, mul_zero, one_smul]
  have h3 := h2 t ht 0 ⟨le_rfl, zero_le_one⟩ v hv
  rw [e, e] at h3
  exact (norm_le_pi_norm (f t v - f t (y t) : Fin n → ℝ) d).trans h3

/-- Stable explicit formulas converge with their order. -/
theorem explicit_converges {q : ℕ} (hq : 1 ≤ q) {c : MultistepCoef ℝ p} (hBn : c.Bn = 0) (hst : ZeroStable c)
    (hx : ExactOnPolynomials c q) (cls : Rhs ℝ n → Solver ℝ n (histExtra p) Unit)
    (hcls : ∀ (f : ℝ → Vec ℝ n → Vec ℝ n) (u v : St ℝ n (histExtra p) Unit), Takes (cls (pureRhs f)) u v → StepWithin c f 0 u v) :
    MultistepConverges cls q := by
  intro f y a b t₀ T hf ha hb hy
  have hyc : ContinuousOn (fun t => (y t : Fin n → ℝ)) (Set.Icc t₀ T) := fun t ht =>
    (hy t ⟨ha.trans_le ht.1, ht.2.trans_lt hb⟩).continuousAt.continuousWithinAt
  obtain ⟨L, hL0, hL⟩ := tube_lipschitz (hf.of_le (by exact_mod_cast hq)) hyc
  obtain ⟨C, δ, hC, hδ, hmain⟩ := dahlquist hst hx hf ha hb hy hL0
  refine ⟨C, min δ (1 / (2 * C + 1)), lt_min hδ (by positivity), fun E s s' l lim hh hδ1 hE1 ht0 hfo hl u hu hut d => ?_⟩
  have hE : 0 ≤ E := (abs_nonneg _).trans (hfo.states 0 (Nat.zero_le _) d)
  obtain ⟨X, hX, hstep⟩ := path_points (h := s.h) (fun u v _ => hcls f u v) hl rfl hfo.derivs
  obtain ⟨m, hm, rfl⟩ := List.getElem_of_mem hu
  have hsmall : C * (E + s.h ^ q + 0 / s.h) ≤ 1 := by
    have h1 : s.h ≤ 1 / (2 * C + 1) := hδ1.trans (min_le_right _ _)
    have h2 : E ≤ 1 / (2 * C + 1) := hE1.trans (min_le_right _ _)
    have h3 : (1 : ℝ) / (2 * C + 1) ≤ 1 := by rw [div_le_one (by positivity)]; linarith
    have h4 : s.h ^ q ≤ s.h := by
      calc s.h ^ q ≤ s.h ^ 1 := pow_le_pow_of_le_one hh.le (h1.trans h3) hq
        _ = s.h := pow_one _
    have h5 : E + s.h ^ q ≤ 2 * (1 / (2 * C + 1)) := by linarith
    rw [zero_div, add_zero]
    calc C * (E + s.h ^ q) ≤ C * (2 * (1 / (2 * C + 1))) := mul_le_mul_of_nonneg_left h5 hC
      _ = (2 * C) / (2 * C + 1) := by ring
      _ ≤ 1 := by rw [div_le_one (by positivity)]; linarith
  have hE1' : E ≤ 1 := by
    refine (hE1.trans (min_le_right _ _)).trans ?_
    rw [div_le_one (by positivity)]; linarith
  have hstart : ∀ j ≤ p, ‖X j - y (s.t + ((j : ℝ) - p) * s.h)‖ ≤ E := by
    intro j hj
    refine (pi_norm_le_iff_of_nonneg hE).mpr fun d => ?_
    have h1 := hfo.states (p - j) (by omega) d
    rw [hX (p - j) (by omega), Nat.sub_sub_self hj, Nat.cast_sub hj] at h1
    have e : s.t - ((p : ℝ) - j) * s.h = s.t + ((j : ℝ) - p) * s.h := by ring
    rwa [e] at h1
  have hTm : s.t + ((m : ℝ) + 1) * s.h ≤ T := by rw [← (hstep m hm).2.1]; exact hut
  have key : ∀ k ≤ m, ‖X (p + k + 1) - y (s.t + ((k : ℝ) + 1) * s.h)‖ ≤ C * (E + s.h ^ q + 0 / s.h) := by
    intro k
    induction k using Nat.strong_induction_on with
    | _ k ih =>
      intro hk
      have hkm : (k : ℝ) ≤ m := by exact_mod_cast hk
      refine hmain 0 E s.h s.t X k le_rfl hE hh (hδ1.trans (min_le_left _ _)) ht0 (by nlinarith) hstart
        (fun j hj d => (hstep j (by omega)).2.2 d) fun j _ hj d => ?_
      have hj := hj hBn
      have hjr : (j : ℝ) ≤ p + k := by exact_mod_cast hj
      refine hL _ ⟨?_, ?_⟩ _ ?_ d
      · have : 0 ≤ (j : ℝ) * s.h := by positivity
        nlinarith
      · nlinarith
      · rcases Nat.lt_or_ge p j with h | h
        · obtain ⟨r, rfl⟩ : ∃ r, j = p + r + 1 := ⟨j - p - 1, by omega⟩
          have e : s.t + (((p + r + 1 : ℕ) : ℝ) - p) * s.h = s.t + ((r : ℝ) + 1) * s.h := by push_cast; ring
          rw [e]
          exact (ih r (by omega) (by omega)).trans hsmall
        · exact (hstart j h).trans hE1'
  have hfin := (norm_le_pi_norm _ d).trans (key m le_rfl)
  rw [zero_div, add_zero] at hfin
  rw [(hstep m hm).1, (hstep m hm).2.1]
  exact hfin

/-- Stable implicit formulas converge with their order, up to the error made in solving the equations. -/
theorem implicit_converges {q : ℕ} {c : MultistepCoef ℝ p} (hst : ZeroStable c) (hx : ExactOnPolynomials c q)
    (cls : ZeroOpts ℝ → Rhs ℝ n → Solver ℝ n (histExtra p) Unit)
    (hcls : ∀ (f : ℝ → Vec ℝ n → Vec ℝ n) (L : ℝ), 0 ≤ L →
      (∀ t u v, (∀ d, |f t u d - f t v d| ≤ L * ‖(u - v : Fin n → ℝ)‖)) → ∃ δ, 0 < δ ∧
      ∀ zo, RootOpts zo → ∀ u v : St ℝ n (histExtra p) Unit, 0 < u.h → u.h ≤ δ → Takes (cls zo (pureRhs f)) u v →
        StepWithin c f (3 * zo.tol) u v) :
    ConvergesWithin cls q := by
  intro f y a b t₀ T L hf ha hb hy hLip
  have hLip' : ∀ t u v, (∀ d, |f t u d - f t v d| ≤ max L 0 * ‖(u - v : Fin n → ℝ)‖) := fun t u v d =>
    (hLip t u v d).trans (mul_le_mul_of_nonneg_right (le_max_left _ _) (norm_nonneg _))
  obtain ⟨δ₁, hδ₁, hcl⟩ := hcls f (max L 0) (le_max_right _ _) hLip'
  obtain ⟨C, δ, hC, hδ, hmain⟩ := dahlquist hst hx hf ha hb hy (le_max_right L 0)
  refine ⟨3 * |C|, min δ δ₁, lt_min hδ hδ₁, fun zo hzo E s s' l lim hh hδ1 ht0 hfo hl u hu hut d => ?_⟩
  have ht : 0 ≤ 3 * zo.tol := by linarith [hzo.2.1]
  have hE : 0 ≤ E := (abs_nonneg _).trans (hfo.states 0 (Nat.zero_le _) d)
  obtain ⟨X, hX, hstep⟩ := path_points (h := s.h)
    (fun u v hu => hcl zo hzo u v (by rw [hu]; exact hh) (by rw [hu]; exact hδ1.trans (min_le_right _ _))) hl rfl hfo.derivs
  obtain ⟨m, hm, rfl⟩ := List.getElem_of_mem hu
  have hstart : ∀ j ≤ p, ‖X j - y (s.t + ((j : ℝ) - p) * s.h)‖ ≤ E := by
    intro j hj
    refine (pi_norm_le_iff_of_nonneg hE).mpr fun d => ?_
    have h1 := hfo.states (p - j) (by omega) d
    rw [hX (p - j) (by omega), Nat.sub_sub_self hj, Nat.cast_sub hj] at h1
    have e : s.t - ((p : ℝ) - j) * s.h = s.t + ((j : ℝ) - p) * s.h := by ring
    rwa [e] at h1
  have hTm : s.t + ((m : ℝ) + 1) * s.h ≤ T := by rw [← (hstep m hm).2.1]; exact hut
  have key := hmain (3 * zo.tol) E s.h s.t X m ht hE hh (hδ1.trans (min_le_left _ _)) ht0 hTm hstart
    (fun j hj d => (hstep j (by omega)).2.2 d) fun j _ _ d => hLip' _ _ _ d
  rw [(hstep m hm).1, (hstep m hm).2.1]
  refine ((norm_le_pi_norm _ d).trans key).trans ?_
  have h1 : 0 ≤ s.h ^ q := by positivity
  have h2 : 0 ≤ zo.tol / s.h := div_nonneg hzo.2.1 hh.le
  have h3 : E + s.h ^ q + 3 * zo.tol / s.h ≤ 3 * (E + s.h ^ q + zo.tol / s.h) := by rw [mul_div_assoc]; linarith
  calc C * (E + s.h ^ q + 3 * zo.tol / s.h) ≤ |C| * (E + s.h ^ q + 3 * zo.tol / s.h) :=
        mul_le_mul_of_nonneg_right (le_abs_self C) (by rw [mul_div_assoc]; linarith)
    _ ≤ |C| * (3 * (E + s.h ^ q + zo.tol / s.h)) := mul_le_mul_of_nonneg_left h3 (abs_nonneg _)
    _ = _ := by ring

end Nbkode
