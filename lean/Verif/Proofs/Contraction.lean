import Verif.Props.Zeros
import Mathlib.Analysis.SpecialFunctions.Pow.Real

/-!
# The root finders converge on functions close to the identity
-/

set_option autoImplicit false
set_option linter.unusedSectionVars false

namespace Nbkode
open Spec

section scalar
variable {α : Type} [Field α] [LinearOrder α] [IsStrictOrderedRing α] [BEq α] [LawfulBEq α]

theorem secantLoop_next (fn : α → Except Err α) (tol rtol : α) (left itr : Nat) (p0 p1 q0 q1 : α) (pp : Option α) (fc : Nat)
    (hq : q1 ≠ q0) : ∃ p, SecantPoint p0 q0 p1 q1 p ∧
      secantLoop fn tol rtol (left + 1) itr p0 p1 q0 q1 pp fc =
        if |p - p1| ≤ tol + rtol * |p1| then .ok ⟨p, fc, itr + 1, true, .ok⟩
        else match fn p with
          | .error e => .error e
          | .ok q => secantLoop fn tol rtol left (itr + 1) p1 p q1 q (some p) (fc + 1) := by
  rw [secantLoop.eq_3]
  have hb : (q1 == q0) = false := by simpa using hq
  rw [hb]
  simp only [Bool.false_eq_true, if_false, pyAbs_eq]
  have key : ∀ (u v qu qv : α), qu ≠ qv → qu ≠ 0 → 1 - qv / qu ≠ 0 ∧
      ((-qv / qu * u + v) / (1 - qv / qu)) * (qu - qv) = v * qu - u * qv := by
    intro u v qu qv h1 h2
    have h3 : 1 - qv / qu ≠ 0 := by
      intro h4
      exact h1 ((div_eq_one_iff_eq h2).mp (sub_eq_zero.mp h4).symm).symm
    refine ⟨h3, ?_⟩
    have h5 : 1 - qv / qu = (qu - qv) / qu := by field_simp
    rw [h5]
    have h6 : qu - qv ≠ 0 := sub_ne_zero.mpr h1
    field_simp
    ring
  have fin : ∀ p, (do
      if isclose p p1 tol rtol = true then
        return (⟨p, fc, itr + 1, true, .ok⟩ : NewtonResult α)
      let q ← fn p
      secantLoop fn tol rtol left (itr + 1) p1 p q1 q (some p) (fc + 1) : Except Err _) =
      if |p - p1| ≤ tol + rtol * |p1| then .ok ⟨p, fc, itr + 1, true, .ok⟩
        else match fn p with
          | .error e => .error e
          | .ok q => secantLoop fn tol rtol left (itr + 1) p1 p q1 q (some p) (fc + 1) := by
    intro p
    by_cases hc : isclose p p1 tol rtol = true
    · rw [if_pos hc, if_pos ((isclose_iff _ _ _ _).mp hc)]; rfl
    · rw [if_neg hc, if_neg fun h => hc ((isclose_iff _ _ _ _).mpr h)]
      cases fn p <;> rfl
  by_cases hlt : |q0| < |q1|
  · rw [if_pos hlt]
    have hq1 : q1 ≠ 0 := by
      rintro rfl; rw [abs_zero] at hlt; exact absurd hlt (not_lt.mpr (abs_nonneg _))
    obtain ⟨k1, k2⟩ := key p1 p0 q1 q0 hq hq1
    refine ⟨_, ⟨hq, k2⟩, ?_⟩
    simp only [pyDiv_of_ne hq1, bind, Except.bind]
    rw [pyDiv_of_ne k1]
    exact fin _
  · rw [if_neg hlt]
    have hq0 : q0 ≠ 0 := by
      rintro rfl
      rw [abs_zero, not_lt] at hlt
      exact hq (abs_eq_zero.mp (le_antisymm hlt (abs_nonneg _)))
    obtain ⟨k1, k2⟩ := key p0 p1 q0 q1 (Ne.symm hq) hq0
    refine ⟨(-q1 / q0 * p0 + p1) / (1 - q1 / q0), ⟨hq, by linear_combination -k2⟩, ?_⟩
    simp only [pyDiv_of_ne hq0, bind, Except.bind]
    rw [pyDiv_of_ne k1]
    exact fin _

/-- A secant step on a function with slopes in `[1 - ε, 1 + ε]`, `ε ≤ 1/9`: its length and the new value, at most
`ρ` times the old one for `ρ ≥ 9/4 ε`. -/
theorem secant_contracts {F : α → α} {ε ρ : α} (h0 : 0 ≤ ε) (h9 : 9 * ε ≤ 4 * ρ) (hρ : 4 * ρ ≤ 1) (hc : ∀ u v, |F u - F v - (u - v)| ≤ ε * |u - v|)
    {p0 p1 p : α} (hne : p0 ≠ p1) (hp : SecantPoint p0 (F p0) p1 (F p1) p) :
    |p - p1| ≤ 2 * |F p1| ∧ |F p| ≤ ρ * |F p1| := by
  have hd : 0 < |p1 - p0| := abs_pos.mpr (sub_ne_zero.mpr (Ne.symm hne))
  set s := p - p1 with hs
  set d := p1 - p0 with hdd
  set e1 := F p - F p1 - s with he1
  set e2 := F p1 - F p0 - d with he2
  have b1 : |e1| ≤ ε * |s| := hc p p1
  have b2 : |e2| ≤ ε * |d| := hc p1 p0
  have i1 : F p1 * d = -(s * (d + e2)) := by
    have := hp.2
    rw [he2, hs, hdd]; linear_combination this
  have i2 : F p * d = e1 * d - s * e2 := by
    have : F p = s + e1 + F p1 := by rw [he1]; ring
    rw [this]; linear_combination i1
  have hs1 : |s| * (1 - ε) ≤ |F p1| := by
    refine le_of_mul_le_mul_right ?_ hd
    have h1 : |F p1| * |d| = |s| * |d + e2| := by rw [← abs_mul, i1, abs_neg, abs_mul]
    have h2 : |d| - |e2| ≤ |d + e2| := by
      have := abs_sub_abs_le_abs_sub d (-e2)
      rwa [abs_neg, sub_neg_eq_add] at this
    rw [h1, mul_assoc]
    refine mul_le_mul_of_nonneg_left ?_ (abs_nonneg _)
    linarith
  have hs2 : |F p| ≤ 2 * ε * |s| := by
    refine le_of_mul_le_mul_right ?_ hd
    have h1 : |F p| * |d| = |e1 * d - s * e2| := by rw [← abs_mul, i2]
    rw [h1]
    refine (abs_sub _ _).trans ?_
    rw [abs_mul, abs_mul]
    have h2 : |e1| * |d| ≤ ε * |s| * |d| := mul_le_mul_of_nonneg_right b1 (abs_nonneg _)
    have h3 : |s| * |e2| ≤ |s| * (ε * |d|) := mul_le_mul_of_nonneg_left b2 (abs_nonneg _)
    linarith
  have hsn := abs_nonneg s
  have h4 : ε * |s| ≤ |s| / 9 := by
    rw [le_div_iff₀ (by norm_num)]; nlinarith
  have h5 : |s| * (8 / 9) ≤ |F p1| := by linarith
  constructor
  · linarith
  · have h6 : 9 * ε * |s| ≤ 4 * ρ * |s| := mul_le_mul_of_nonneg_right h9 hsn
    have h7 : ρ * (|s| * (8 / 9)) ≤ ρ * |F p1| := mul_le_mul_of_nonneg_left h5 (by linarith)
    linarith

/-- The secant search succeeds on such functions if the first value is not too large. -/
theorem secantLoop_converges {fn : α → Except Err α} {F : α → α} (hF : ∀ x, fn x = .ok (F x)) {ε ρ : α} (h0 : 0 ≤ ε)
    (h9 : 9 * ε ≤ 4 * ρ) (hρ : 4 * ρ ≤ 1) (hc : ∀ u v, |F u - F v - (u - v)| ≤ ε * |u - v|) {tol rtol : α} (ht : 0 ≤ tol) (hr : 0 ≤ rtol) (m : Nat) :
    ∀ (itr : Nat) (p0 p1 : α) (pp : Option α) (fc : Nat), p0 ≠ p1 → 2 * (ρ ^ m * |F p1|) ≤ tol →
      ∃ r, secantLoop fn tol rtol (m + 1) itr p0 p1 (F p0) (F p1) pp fc = .ok r ∧ r.flag = .ok := by
  induction m with
  | zero =>
    intro itr p0 p1 pp fc hne hs
    have hq : F p1 ≠ F p0 := by
      intro he
      have := hc p1 p0
      rw [he, sub_self, zero_sub, abs_neg] at this
      have hd : 0 < |p1 - p0| := abs_pos.mpr (sub_ne_zero.mpr (Ne.symm hne))
      nlinarith
    obtain ⟨p, hp, he⟩ := secantLoop_next fn tol rtol 0 itr p0 p1 _ _ pp fc hq
    obtain ⟨h1, -⟩ := secant_contracts h0 h9 hρ hc hne hp
    rw [pow_zero, one_mul] at hs
    have : 0 ≤ rtol * |p1| := mul_nonneg hr (abs_nonneg _)
    rw [he, if_pos (by linarith)]
    exact ⟨_, rfl, rfl⟩
  | succ m ih =>
    intro itr p0 p1 pp fc hne hs
    have hq : F p1 ≠ F p0 := by
      intro he
      have := hc p1 p0
      rw [he, sub_self, zero_sub, abs_neg] at this
      have hd : 0 < |p1 - p0| := abs_pos.mpr (sub_ne_zero.mpr (Ne.symm hne))
      nlinarith
    obtain ⟨p, hp, he⟩ := secantLoop_next fn tol rtol (m + 1) itr p0 p1 _ _ pp fc hq
    obtain ⟨-, h2⟩ := secant_contracts h0 h9 hρ hc hne hp
    rw [he]
    split
    · exact ⟨_, rfl, rfl⟩
    · rename_i hfar
      rw [hF]
      refine ih _ p1 p _ _ ?_ ?_
      · rintro rfl
        apply hfar
        rw [sub_self, abs_zero]
        have : 0 ≤ rtol * |p1| := mul_nonneg hr (abs_nonneg _)
        linarith
      · rw [pow_succ] at hs
        have h3 := mul_le_mul_of_nonneg_left h2 (pow_nonneg (show 0 ≤ ρ by linarith) m)
        linarith

/-- The second start point of the search does not matter, since the first new point is as good as the better one promises. -/
theorem secantLoop_converges_first {fn : α → Except Err α} {F : α → α} (hF : ∀ x, fn x = .ok (F x)) {ε ρ : α} (h0 : 0 ≤ ε)
    (h9 : 9 * ε ≤ 4 * ρ) (hρ : 4 * ρ ≤ 1) (hc : ∀ u v, |F u - F v - (u - v)| ≤ ε * |u - v|) {tol rtol : α} (ht : 0 ≤ tol) (hr : 0 ≤ rtol) (m : Nat)
    (itr : Nat) (p0 p1 : α) (pp : Option α) (fc : Nat) (hne : p0 ≠ p1)
    (hs : 2 * (ρ ^ (m + 1) * |F p0|) ≤ tol ∨ 2 * (ρ ^ (m + 1) * |F p1|) ≤ tol) :
    ∃ r, secantLoop fn tol rtol (m + 2) itr p0 p1 (F p0) (F p1) pp fc = .ok r ∧ r.flag = .ok := by
  rcases hs with hs | hs
  · have hq : F p1 ≠ F p0 := by
      intro he
      have := hc p1 p0
      rw [he, sub_self, zero_sub, abs_neg] at this
      have hd : 0 < |p1 - p0| := abs_pos.mpr (sub_ne_zero.mpr (Ne.symm hne))
      nlinarith
    obtain ⟨p, hp, he⟩ := secantLoop_next fn tol rtol (m + 1) itr p0 p1 _ _ pp fc hq
    have hp' : SecantPoint p1 (F p1) p0 (F p0) p := ⟨Ne.symm hp.1, by linear_combination -hp.2⟩
    obtain ⟨-, h2⟩ := secant_contracts h0 h9 hρ hc (Ne.symm hne) hp'
    rw [he]
    split
    · exact ⟨_, rfl, rfl⟩
    · rename_i hfar
      rw [hF]
      refine secantLoop_converges hF h0 h9 hρ hc ht hr m _ p1 p _ _ ?_ ?_
      · rintro rfl
        apply hfar
        rw [sub_self, abs_zero]
        have : 0 ≤ rtol * |p1| := mul_nonneg hr (abs_nonneg _)
        linarith
      · rw [pow_succ] at hs
        have h3 := mul_le_mul_of_nonneg_left h2 (pow_nonneg (show 0 ≤ ρ by linarith) m)
        linarith
  · exact secantLoop_converges hF h0 h9 hρ hc ht hr (m + 1) itr p0 p1 pp fc hne hs

theorem jNewton_converges {eps : α} (heps : 0 < eps) {fn : α → Except Err α} {F : α → α} (hF : ∀ x, fn x = .ok (F x)) {ε ρ : α}
    (h0 : 0 ≤ ε) (h9 : 9 * ε ≤ 4 * ρ) (hρ : 4 * ρ ≤ 1) (hc : ∀ u v, |F u - F v - (u - v)| ≤ ε * |u - v|) {tol rtol : α} (ht : 0 ≤ tol)
    (hr : 0 ≤ rtol) (m : Nat) (x0 : α) (hx : 2 * (ρ ^ (m + 1) * |F x0|) ≤ tol) (fprime2 : Option (α → Except Err α)) :
    ∃ x, jNewton eps fn x0 none tol (m + 2) fprime2 none rtol = .ok x := by
  have hne := secantStart_ne eps x0 heps
  obtain ⟨r, h1, h2⟩ : ∃ r, newtonImpl eps fn x0 none tol (m + 2) fprime2 none rtol = .ok r ∧ r.flag = .ok := by
    unfold newtonImpl
    simp only [one_mul, hF, bind, Except.bind, pure, Except.pure, pyAbs_eq]
    split
    · exact secantLoop_converges_first hF h0 h9 hρ hc ht hr m _ _ _ _ _ hne (Or.inr hx)
    · exact secantLoop_converges_first hF h0 h9 hρ hc ht hr m _ _ _ _ _ (Ne.symm hne) (Or.inl hx)
  exact ⟨r.p, by rw [C56_jNewton, h1]; simp [h2]⟩

end scalar

section systems
variable {n : Nat}

theorem abs_sum_mul_le {N d : Fin n → ℝ} {ε : ℝ} (h : ∀ i, |N i| ≤ ε) : |∑ i, N i * d i| ≤ n * ε * ‖d‖ := by
  refine (Finset.abs_sum_le_sum_abs _ _).trans ?_
  calc ∑ i, |N i * d i| ≤ ∑ _i : Fin n, ε * ‖d‖ := Finset.sum_le_sum fun i _ => by
        rw [abs_mul]
        exact mul_le_mul (h i) (norm_le_pi_norm d i) (abs_nonneg _) ((abs_nonneg _).trans (h i))
    _ = _ := by rw [Finset.sum_const, Finset.card_univ, Fintype.card_fin, nsmul_eq_mul]; ring

/-- The difference quotients of a function close to the identity are close to the identity matrix. -/
theorem centralDiff_near {eps : ℝ} (he : eps ≠ 0) {F : (Fin n → ℝ) → (Fin n → ℝ)} {ε : ℝ}
    (hc : ∀ u v d, |F u d - F v d - (u d - v d)| ≤ ε * ‖u - v‖) (x : Fin n → ℝ) :
    ∃ J, CentralDiff eps (fun y : Vec ℝ n => .ok (F y)) x J ∧ ∀ r i, |J r i - if i = r then 1 else 0| ≤ ε := by
  refine ⟨fun r i => (F (Function.update x i (x i + eps)) r - F (Function.update x i (x i - eps)) r) / (2 * eps),
    fun i => ⟨_, _, rfl, rfl, fun r => rfl⟩, fun r i => ?_⟩
  have h1 := hc (Function.update x i (x i + eps)) (Function.update x i (x i - eps)) r
  have e1 : Function.update x i (x i + eps) - Function.update x i (x i - eps) = Pi.single i (2 * eps) := by
    funext k
    by_cases hk : k = i
    · subst hk; simp; ring
    · simp [hk]
  have e2 : Function.update x i (x i + eps) r - Function.update x i (x i - eps) r = if i = r then 2 * eps else 0 := by
    have := congrFun e1 r
    rw [Pi.sub_apply] at this
    rw [this]
    by_cases hk : r = i
    · subst hk; simp
    · simp [hk, Ne.symm hk]
  rw [e2, e1, Pi.norm_single, Real.norm_eq_abs] at h1
  have h2 : (0 : ℝ) < |2 * eps| := abs_pos.mpr (mul_ne_zero two_ne_zero he)
  refine le_of_mul_le_mul_right ?_ h2
  rw [← abs_mul]
  refine le_trans (le_of_eq ?_) h1
  congr 1
  rw [sub_mul, div_mul_cancel₀ _ (mul_ne_zero two_ne_zero he)]
  split <;> simp

theorem newtonHdLoop_converges {lib : Lib ℝ} (hlib : ∀ x, lib.sqrt x = Real.sqrt x) (hs : ExactSolve lib) {eps : ℝ}
    (he : eps ≠ 0) {F : (Fin n → ℝ) → (Fin n → ℝ)} {ε ρ : ℝ} (h0 : 0 ≤ ε) (h5 : 5 * ((n + 1) * ε) ≤ 4 * ρ) (hρ : 4 * ρ ≤ 1)
    (hc : ∀ u v d, |F u d - F v d - (u d - v d)| ≤ ε * ‖u - v‖) {tol rtol : ℝ} (m : Nat) :
    ∀ y : Fin n → ℝ, n * (ρ ^ m * ‖F y‖) ≤ tol →
      ∃ y', newtonHdLoop lib eps (fun y : Vec ℝ n => .ok (F y)) tol rtol m y (F y) = .ok (y', .ok) := by
  have hclose : ∀ v : Fin n → ℝ, n * ‖v‖ ≤ tol → isclose (norm2 lib (v : Vec ℝ n)) 0 tol rtol = true := by
    intro v hv
    rw [isclose_iff, norm2_eq]
    have h1 : euclid lib (v : Vec ℝ n) ≤ n * ‖v‖ := by
      unfold euclid
      rw [hlib]
      refine Real.sqrt_le_iff.mpr ⟨by positivity, ?_⟩
      calc ∑ i, v i ^ 2 ≤ ∑ _i : Fin n, ‖v‖ ^ 2 := Finset.sum_le_sum fun i _ => by
            rw [← sq_abs (v i)]
            exact pow_le_pow_left₀ (abs_nonneg _) (norm_le_pi_norm v i) 2
        _ = n * ‖v‖ ^ 2 := by rw [Finset.sum_const, Finset.card_univ, Fintype.card_fin, nsmul_eq_mul]
        _ ≤ (n * ‖v‖) ^ 2 := by
            rw [mul_pow]
            refine mul_le_mul_of_nonneg_right ?_ (sq_nonneg _)
            rcases Nat.eq_zero_or_pos n with rfl | hn
            · simp
            · have : (1 : ℝ) ≤ n := by exact_mod_cast hn
              nlinarith
    have h2 : 0 ≤ euclid lib (v : Vec ℝ n) := by unfold euclid; rw [hlib]; exact Real.sqrt_nonneg _
    rw [sub_zero, abs_of_nonneg h2, abs_zero, mul_zero, add_zero]
    exact h1.trans hv
  induction m with
  | zero =>
    intro y hy
    rw [pow_zero, one_mul] at hy
    rw [newtonHdLoop.eq_1, if_pos (hclose _ hy)]
    exact ⟨y, rfl⟩
  | succ m ih =>
    intro y hy
    rw [newtonHdLoop.eq_1]
    split
    · exact ⟨y, rfl⟩
    obtain ⟨J, hJ, hN⟩ := centralDiff_near he hc y
    rw [jacobian_of hJ]
    have hn5 : n * ε ≤ 1 / 5 := by nlinarith
    have hJd : ∀ (d : Fin n → ℝ) r, ∑ i, J r i * d i = d r + ∑ i, (J r i - if i = r then 1 else 0) * d i := by
      intro d r
      simp only [sub_mul, Finset.sum_sub_distrib]
      simp
    have hreg : ∀ x : Vec ℝ n, (∀ i, ∑ j, J i j * x j = 0) → x = 0 := by
      intro x hx
      have h1 : ‖(x : Fin n → ℝ)‖ ≤ n * ε * ‖(x : Fin n → ℝ)‖ := by
        refine (pi_norm_le_iff_of_nonneg (by positivity)).mpr fun r => ?_
        have h2 := hx r
        rw [hJd] at h2
        rw [Real.norm_eq_abs, show x r = -∑ i, (J r i - if i = r then 1 else 0) * x i by linarith, abs_neg]
        exact abs_sum_mul_le (hN r)
      have h3 : ‖(x : Fin n → ℝ)‖ ≤ 0 := by
        have := norm_nonneg (x : Fin n → ℝ)
        nlinarith
      exact norm_le_zero_iff.mp h3
    obtain ⟨d, hd⟩ := hs.complete J (-(F y)) hreg
    have hsol := hs.sound _ _ _ hd
    simp only [bind, Except.bind, hd]
    refine ih (y + d) ?_
    have hdb : ∀ r, d r + ∑ i, (J r i - if i = r then 1 else 0) * d i = -F y r := fun r => by
      rw [← hJd]; exact hsol r
    set D := ‖(d : Fin n → ℝ)‖ with hD
    have hD0 : 0 ≤ D := norm_nonneg _
    have h1 : D ≤ ‖F y‖ + n * ε * D := by
      refine (pi_norm_le_iff_of_nonneg (by positivity)).mpr fun r => ?_
      have h2 : d r = -F y r - ∑ i, (J r i - if i = r then 1 else 0) * d i := by linarith [hdb r]
      rw [Real.norm_eq_abs, h2]
      refine (abs_sub _ _).trans (add_le_add ?_ (abs_sum_mul_le (hN r)))
      rw [abs_neg]
      exact norm_le_pi_norm (F y) r
    have h2 : ‖F (y + d)‖ ≤ (n * ε + ε) * D := by
      refine (pi_norm_le_iff_of_nonneg (by positivity)).mpr fun r => ?_
      have h3 := hc (y + d) y r
      rw [add_sub_cancel_left, Pi.add_apply, add_sub_cancel_left] at h3
      have h4 : F (y + d) r = (F (y + d) r - F y r - d r) - ∑ i, (J r i - if i = r then 1 else 0) * d i := by linarith [hdb r]
      rw [Real.norm_eq_abs, h4]
      refine (abs_sub _ _).trans ?_
      have := abs_sum_mul_le (d := d) (hN r)
      linarith
    have hρ0 : 0 ≤ ρ := by
      have : 0 ≤ 5 * (((n : ℝ) + 1) * ε) := by positivity
      linarith
    have hD1 : 4 / 5 * D ≤ ‖F y‖ := by
      have := mul_le_mul_of_nonneg_right hn5 hD0
      linarith
    have h3 : ‖F (y + d)‖ ≤ ρ * ‖F y‖ := by
      have k1 : 5 * ((n + 1) * ε) * D ≤ 4 * ρ * D := mul_le_mul_of_nonneg_right h5 hD0
      have k2 : ρ * (4 / 5 * D) ≤ ρ * ‖F y‖ := mul_le_mul_of_nonneg_left hD1 hρ0
      linarith
    have h4 : ρ ^ m * ‖F (y + d)‖ ≤ ρ ^ m * (ρ * ‖F y‖) := mul_le_mul_of_nonneg_left h3 (pow_nonneg hρ0 m)
    have h5 := mul_le_mul_of_nonneg_left h4 (Nat.cast_nonneg (α := ℝ) n)
    rw [pow_succ, mul_assoc (ρ ^ m)] at hy
    exact h5.trans hy

theorem newtonHd_converges {lib : Lib ℝ} (hlib : ∀ x, lib.sqrt x = Real.sqrt x) (hs : ExactSolve lib) {eps : ℝ}
    (he : eps ≠ 0) {F : (Fin n → ℝ) → (Fin n → ℝ)} {ε ρ : ℝ} (h0 : 0 ≤ ε) (h5 : 5 * ((n + 1) * ε) ≤ 4 * ρ) (hρ : 4 * ρ ≤ 1)
    (hc : ∀ u v d, |F u d - F v d - (u d - v d)| ≤ ε * ‖u - v‖) {tol rtol : ℝ} (m : Nat) (y : Fin n → ℝ)
    (hy : n * (ρ ^ m * ‖F y‖) ≤ tol) :
    ∃ y', newtonHd lib eps (fun y : Vec ℝ n => .ok (F y)) y tol rtol m = .ok y' := by
  obtain ⟨y', h⟩ := newtonHdLoop_converges hlib hs he h0 h5 hρ hc (rtol := rtol) m y hy
  refine ⟨y', ?_⟩
  unfold newtonHd newtonHdImpl
  simp only [bind, Except.bind]
  rw [h]
  rfl

end systems

end Nbkode
