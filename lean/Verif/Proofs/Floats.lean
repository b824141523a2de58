import Verif.Spec.Rounded
import Mathlib.Tactic.Linarith
import Mathlib.Tactic.Ring
import Mathlib.Tactic.Positivity
import Mathlib.Tactic.FieldSimp
import Mathlib.Tactic.NormNum

/-! Binary floating-point numbers with rounding to nearest are machine numbers. -/

set_option autoImplicit false
set_option linter.unusedSectionVars false

namespace Nbkode
open Spec

theorem halfEven_near (x : ℝ) : |(halfEven x : ℝ) - x| ≤ 1 / 2 := by
  have h0 := Int.fract_nonneg x
  have h1 := Int.fract_lt_one x
  have h2 : x = ⌊x⌋ + Int.fract x := (Int.floor_add_fract x).symm
  unfold halfEven
  split
  · rename_i h
    rw [abs_le]
    have : Int.fract x ≤ 1 / 2 := by rcases h with h | h <;> linarith
    constructor <;> linarith
  · rename_i h
    push Not at h
    rw [abs_le]
    push_cast
    constructor <;> linarith [h.1]

theorem halfEven_best (x : ℝ) (m : ℤ) : |(halfEven x : ℝ) - x| ≤ |(m : ℝ) - x| := by
  by_cases hm : m = halfEven x
  · rw [hm]
  · have h1 := halfEven_near x
    have h2 : (1 : ℝ) ≤ |((m - halfEven x : ℤ) : ℝ)| := by
      rw [← Int.cast_abs]
      exact_mod_cast Int.one_le_abs (sub_ne_zero.mpr hm)
    have h3 : |((m - halfEven x : ℤ) : ℝ)| ≤ |(m : ℝ) - x| + |(halfEven x : ℝ) - x| := by
      push_cast
      have : (m : ℝ) - halfEven x = (m - x) - (halfEven x - x) := by ring
      rw [this]
      exact abs_sub _ _
    linarith

theorem halfEven_abs_le (x : ℝ) (m : ℤ) (h : |x| ≤ m) : |halfEven x| ≤ m := by
  have h1 := halfEven_near x
  have h2 : (|halfEven x| : ℝ) < m + 1 := by
    calc (|halfEven x| : ℝ) = |((halfEven x : ℝ) - x) + x| := by ring_nf
      _ ≤ |(halfEven x : ℝ) - x| + |x| := abs_add_le _ _
      _ < m + 1 := by linarith
  rw [← Int.cast_abs] at h2
  have : |halfEven x| < m + 1 := by exact_mod_cast h2
  omega

section
variable {p : ℕ} {e : Option ℤ}

theorem lastDigit_ge (x : ℝ) : Int.log 2 |x| - p + 1 ≤ lastDigit p e x := by
  unfold lastDigit
  cases e with
  | none => exact le_rfl
  | some e => exact le_max_left _ _

theorem lastDigit_floor (x : ℝ) : ∀ j, e = some j → j ≤ lastDigit p e x := by
  rintro j rfl
  exact le_max_right _ _

theorem lastDigit_cases (x : ℝ) : lastDigit p e x = Int.log 2 |x| - p + 1 ∨ e = some (lastDigit p e x) := by
  unfold lastDigit
  cases e with
  | none => exact Or.inl rfl
  | some e =>
    rcases le_total (Int.log 2 |x| - p + 1) e with h | h
    · right; simp only [max_eq_right h]
    · left; exact max_eq_left h

theorem pow_pos' (i : ℤ) : (0 : ℝ) < 2 ^ i := zpow_pos (by norm_num) i

theorem log_le (x : ℝ) (hx : x ≠ 0) : (2 : ℝ) ^ Int.log 2 |x| ≤ |x| := by
  have := Int.zpow_log_le_self (b := 2) (r := |x|) (by norm_num) (abs_pos.mpr hx)
  exact_mod_cast this

theorem lt_log (x : ℝ) : |x| < (2 : ℝ) ^ (Int.log 2 |x| + 1) := by
  have := Int.lt_zpow_succ_log_self (b := 2) (by norm_num) |x|
  exact_mod_cast this

theorem roundFloat_mem (x : ℝ) : roundFloat p e x ∈ floats p e := by
  refine ⟨halfEven (x / 2 ^ lastDigit p e x), lastDigit p e x, ?_, lastDigit_floor x, rfl⟩
  have hE := pow_pos' (lastDigit p e x)
  refine (halfEven_abs_le _ (2 ^ p) ?_)
  rw [abs_div, abs_of_pos hE, div_le_iff₀ hE]
  push_cast
  refine (lt_log x).le.trans ?_
  rw [← zpow_natCast (2 : ℝ) p, ← zpow_add₀ (by norm_num)]
  refine zpow_le_zpow_right₀ (by norm_num) ?_
  have := lastDigit_ge (p := p) (e := e) x
  omega

theorem grid_best (x : ℝ) (m : ℤ) :
    |roundFloat p e x - x| ≤ |m * (2 : ℝ) ^ lastDigit p e x - x| := by
  have hE := pow_pos' (lastDigit p e x)
  unfold roundFloat
  set E := (2 : ℝ) ^ lastDigit p e x
  have h := halfEven_best (x / E) m
  have e1 : ∀ z : ℝ, z * E - x = (z - x / E) * E := fun z => by field_simp
  rw [e1, e1, abs_mul, abs_mul]
  exact mul_le_mul_of_nonneg_right h (abs_nonneg _)

theorem pow_mul_int {i j : ℤ} (h : i ≤ j) (m : ℤ) : ∃ m' : ℤ, (m : ℝ) * 2 ^ j = m' * (2 : ℝ) ^ i := by
  refine ⟨m * 2 ^ (j - i).toNat, ?_⟩
  push_cast
  rw [mul_assoc, ← zpow_natCast, ← zpow_add₀ (by norm_num)]
  congr 2
  omega

theorem roundFloat_best (hp : 1 ≤ p) (x z : ℝ) (hz : z ∈ floats p e) : |roundFloat p e x - x| ≤ |z - x| := by
  obtain ⟨m, i, h1, h2, rfl⟩ := hz
  by_cases hi : lastDigit p e x ≤ i
  · obtain ⟨m', h⟩ := pow_mul_int hi m
    rw [h]
    exact grid_best x m'
  · push Not at hi
    by_cases hx : x = 0
    · subst hx
      have : roundFloat p e 0 = 0 := by
        unfold roundFloat
        rw [zero_div]
        unfold halfEven
        simp
      rw [this, sub_self, abs_zero]
      exact abs_nonneg _
    · have hd : lastDigit p e x = Int.log 2 |x| - p + 1 := by
        rcases lastDigit_cases (p := p) (e := e) x with h | h
        · exact h
        · exact absurd (h2 _ h) (by omega)
      have hz : |(m : ℝ) * 2 ^ i| ≤ (2 : ℝ) ^ Int.log 2 |x| := by
        rw [abs_mul, abs_of_pos (pow_pos' i)]
        have h3 : |(m : ℝ)| ≤ 2 ^ p := by exact_mod_cast h1
        calc |(m : ℝ)| * 2 ^ i ≤ 2 ^ p * 2 ^ i := mul_le_mul_of_nonneg_right h3 (pow_pos' i).le
          _ = (2 : ℝ) ^ ((p : ℤ) + i) := by rw [← zpow_natCast, ← zpow_add₀ (by norm_num)]
          _ ≤ _ := zpow_le_zpow_right₀ (by norm_num) (by omega)
      have hle := log_le x hx
      obtain ⟨m', h⟩ := pow_mul_int (i := lastDigit p e x) (j := Int.log 2 |x|) (by omega) (if 0 ≤ x then 1 else -1)
      refine (grid_best x m').trans ?_
      rw [← h]
      have h4 : |x| - |(m : ℝ) * 2 ^ i| ≤ |(m : ℝ) * 2 ^ i - x| := by
        rw [abs_sub_comm]; exact abs_sub_abs_le_abs_sub _ _
      refine le_trans ?_ ((sub_le_sub_left hz |x|).trans h4)
      split
      · rename_i h0
        rw [abs_of_nonneg h0] at hle ⊢
        rw [abs_le]
        push_cast
        constructor <;> linarith
      · rename_i h0
        push Not at h0
        rw [abs_of_neg h0] at hle ⊢
        rw [abs_le]
        push_cast
        constructor <;> linarith

/-- Rounding to a nearest number keeps the order, whatever is done with ties. -/
theorem nearest_monotone {F : Set ℝ} {r : ℝ → ℝ} (hm : ∀ x, r x ∈ F) (hn : ∀ x, ∀ z ∈ F, |r x - x| ≤ |z - x|) : Monotone r := by
  intro x y hxy
  rcases eq_or_lt_of_le hxy with rfl | hlt
  · exact le_rfl
  · by_contra hc
    push Not at hc
    have h1 := hn x (r y) (hm y)
    have h2 := hn y (r x) (hm x)
    have h3 : (r x - x) ^ 2 ≤ (r y - x) ^ 2 := by rw [← sq_abs (r x - x), ← sq_abs (r y - x)]; gcongr
    have h4 : (r y - y) ^ 2 ≤ (r x - y) ^ 2 := by rw [← sq_abs (r y - y), ← sq_abs (r x - y)]; gcongr
    nlinarith

theorem roundFloat_self (hp : 1 ≤ p) (x : ℝ) (hx : x ∈ floats p e) : roundFloat p e x = x := by
  have := roundFloat_best hp x x hx
  rw [sub_self, abs_zero] at this
  exact sub_eq_zero.mp (abs_eq_zero.mp (le_antisymm this (abs_nonneg _)))

end

namespace Spec

/-- Binary floating-point numbers with `p` digits and, if given, no exponent below `e`, rounded to nearest, ties to even. -/
noncomputable def binary (p : ℕ) (hp : 1 ≤ p) (e : Option ℤ) (he : ∀ j, e = some j → j ≤ 0) : Rounding where
  numbers := floats p e
  round := roundFloat p e
  round_mem := roundFloat_mem
  round_self := roundFloat_self hp
  monotone := nearest_monotone roundFloat_mem fun x z => roundFloat_best hp x z
  zero_mem := ⟨0, 0, by simp, he, by simp⟩
  one_mem := ⟨1, 0, by simp; exact_mod_cast Nat.one_le_two_pow, he, by simp⟩
  neg_mem := by
    rintro x ⟨m, i, h1, h2, rfl⟩
    exact ⟨-m, i, by rwa [abs_neg], h2, by push_cast; ring⟩
  double_mem := by
    rintro x ⟨m, i, h1, h2, rfl⟩
    exact ⟨m, i + 1, h1, fun j hj => by have := h2 j hj; omega, by rw [zpow_add_one₀ (by norm_num)]; ring⟩

theorem binary_noUnderflow (p : ℕ) (hp : 1 ≤ p) (he : ∀ j, (none : Option ℤ) = some j → j ≤ 0) : (binary p hp none he).NoUnderflow := by
  intro x hx
  have h1 : (2 : ℝ) ^ Int.log 2 |x| ∈ floats p none :=
    ⟨1, Int.log 2 |x|, by simp; exact_mod_cast Nat.one_le_two_pow, by simp, by simp⟩
  have h2 := (binary p hp none he).monotone (log_le x hx.ne')
  rw [abs_of_pos hx] at h2
  rw [abs_of_pos hx] at h1
  rw [(binary p hp none he).round_self _ h1] at h2
  exact lt_of_lt_of_le (pow_pos' _) h2

theorem roundFloat_error {p : ℕ} {e : Option ℤ} (x : ℝ) : |roundFloat p e x - x| ≤ 2 ^ lastDigit p e x / 2 := by
  have hE := pow_pos' (lastDigit p e x)
  unfold roundFloat
  set E := (2 : ℝ) ^ lastDigit p e x
  have h := halfEven_near (x / E)
  have e1 : ∀ z : ℝ, z * E - x = (z - x / E) * E := fun z => by field_simp
  rw [e1, abs_mul, abs_of_pos hE]
  nlinarith

theorem log_part (p : ℕ) (x : ℝ) (hx : x ≠ 0) : (2 : ℝ) ^ (Int.log 2 |x| - p + 1) / 2 ≤ (2⁻¹) ^ p * |x| := by
  rw [zpow_add₀ (by norm_num), zpow_sub₀ (by norm_num), zpow_one, zpow_natCast, inv_pow]
  have := log_le x hx
  have h2 : (0 : ℝ) < 2 ^ p := by positivity
  have : (2 : ℝ) ^ Int.log 2 |x| / 2 ^ p ≤ |x| / 2 ^ p := div_le_div_of_nonneg_right this h2.le
  calc _ = (2 : ℝ) ^ Int.log 2 |x| / 2 ^ p := by ring
    _ ≤ _ := this
    _ = _ := by ring

theorem roundFloat_zero {p : ℕ} {e : Option ℤ} : roundFloat p e 0 = 0 := by
  unfold roundFloat
  rw [zero_div]
  unfold halfEven
  simp

/-- Without a smallest exponent the relative error is at most `2 ^ -p`. -/
theorem binary_accurate (p : ℕ) (hp : 1 ≤ p) (he : ∀ j, (none : Option ℤ) = some j → j ≤ 0) :
    (binary p hp none he).Accurate ((2⁻¹) ^ p) 0 where
  unit_nonneg := by positivity
  tiny_nonneg := le_rfl
  error x := by
    show |roundFloat p none x - x| ≤ _
    rw [add_zero]
    by_cases hx : x = 0
    · subst hx; simp [roundFloat_zero]
    · exact (roundFloat_error x).trans (log_part p x hx)

/-- With smallest exponent `e` an error of `2 ^ (e - 1)` is added. -/
theorem binary_accurate_gradual (p : ℕ) (hp : 1 ≤ p) (e : ℤ) (he : ∀ j, some e = some j → j ≤ 0) :
    (binary p hp (some e) he).Accurate ((2⁻¹) ^ p) (2 ^ (e - 1)) where
  unit_nonneg := by positivity
  tiny_nonneg := (pow_pos' _).le
  error x := by
    show |roundFloat p (some e) x - x| ≤ _
    by_cases hx : x = 0
    · subst hx; simp only [roundFloat_zero, sub_self, abs_zero, mul_zero, zero_add]; exact (pow_pos' _).le
    · refine (roundFloat_error x).trans ?_
      have h1 := log_part p x hx
      have h0 : (0 : ℝ) ≤ (2⁻¹) ^ p * |x| := by positivity
      have h2 : (2 : ℝ) ^ (e - 1) = 2 ^ e / 2 := by rw [zpow_sub_one₀ (by norm_num)]; ring
      have h3 : (0 : ℝ) < 2 ^ e := pow_pos' e
      rcases lastDigit_cases (p := p) (e := some e) x with h | h
      · rw [h]; linarith
      · rw [← Option.some_inj.mp h]; linarith

/-- IEEE 754 double precision, as far as it is modelled: 53 binary digits and exponents from `-1074` on. -/
noncomputable def double : Rounding := binary 53 (by norm_num) (some (-1074)) (by simp)

/-- Double precision with all exponents. -/
noncomputable def wideDouble : Rounding := binary 53 (by norm_num) none (by simp)

end Spec
end Nbkode
