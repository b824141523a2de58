import Verif.Proofs.Rounded
import Verif.Proofs.Floats
import Verif.Proofs.Hanging
import Verif.Spec.Construct
import Verif.Proofs.Construct

/-! Machine numbers: single results of rounding, `ForwardEuler`, and loops that make no progress. -/

set_option autoImplicit false
set_option linter.unusedSectionVars false

namespace Nbkode
open Py Spec Solver

section arithmetic
variable {α : Type}
variable [Add α] [Sub α] [Mul α] [Div α] [Neg α] [Zero α] [One α] [NatCast α] [BEq α]
variable [LT α] [DecidableLT α] [LE α] [DecidableLE α]
variable {n k : Nat} {X : Type}

/-- Stepping up to a time never ends while every step fits and leads to a like state. -/
theorem stepsLoop_stalls {S : Solver α n k X} {b : Bound α} (J : St α n k X → Prop)
    (hJ : ∀ s, J s → Fits b s ∧ ∃ s', Takes S s s' ∧ J s') (st : St α n k X) (hst : J st) :
    ¬ Halts (S.stepsLoop b) st := by
  rintro ⟨r, s', h⟩
  revert hst
  refine stepsLoop.fixpoint_induct S b (fun x => ∀ s r s', x.run s = some (r, s') → ¬ J s)
    (admissible_post _) ?_ st r s' h
  intro loop ih s r s' h hs
  obtain ⟨hf, s1, h1, hs1⟩ := hJ s hs
  rw [run_bind, (pstep_true (S := S) (b := b)).mpr ⟨hf, h1⟩] at h
  simp only [andThen_ok, if_true, run_bind, run_get] at h
  cases hl : loop.run s1 with
  | none => rw [hl] at h; cases h
  | some p => exact ih _ _ _ hl hs1

/-- A state of `ForwardEuler` with the same point in the whole history. -/
def eulerAt (g : α → Vec α n → Vec α n) (t0 : α) (y0 : Vec α n) (h : α) : St α n (histExtra 0) Unit :=
  ⟨⟨fun _ => t0, fun _ => y0, fun _ => g t0 y0⟩, h, ()⟩

/-- It is what the constructor makes. -/
theorem constructed_eulerAt (g : α → Vec α n → Vec α n) (t0 : α) (y0 : Vec α n) (h : α) (b : Bound α) :
    Constructed (⟨explicitMultistep ForwardEuler, pureRhs g, b⟩ : Solver α n _ _) (eulerAt g t0 y0 h) := by
  refine .explicitMultistep ForwardEuler (pureRhs g) b (eulerAt g t0 y0 h).cache ⟨t0, t0, 0⟩ (fun _ => []) .none t0 y0
    (some h) _ ?_
  unfold multistepInit solverInit
  simp only [pureRhs, bind, Except.bind, pure, Except.pure, Option.getD_some, if_true]
  have e : ∀ m, Buffer.pushN (eulerAt g t0 y0 h).cache t0 y0 (g t0 y0) m = (eulerAt g t0 y0 h).cache := by
    intro m
    induction m with
    | zero => rfl
    | succ m ih =>
      rw [Buffer.pushN, ih]
      unfold Buffer.push eulerAt shiftIn
      congr 1 <;> (funext i; simp)
  have e1 : Buffer.init (eulerAt g t0 y0 h).cache t0 y0 (g t0 y0) = (eulerAt g t0 y0 h).cache := e _
  simp only [e1]
  have e2 := e (histExtra 0 + 1)
  show some (Except.ok _) = _
  congr 2
  unfold St.t St.y St.f
  show (⟨Buffer.pushN (eulerAt g t0 y0 h).cache t0 y0 (g t0 y0) _, _, _⟩ : St α n (histExtra 0) Unit) = _
  rw [e2]; rfl

/-- Steps of `ForwardEuler` go from `t` to `t + h`. -/
theorem euler_takes_time (g : α → Vec α n → Vec α n) (b : Bound α) (s : St α n (histExtra 0) Unit) :
    ∃ s', Takes (⟨explicitMultistep ForwardEuler, pureRhs g, b⟩ : Solver α n _ _) s s' ∧ s'.t = s.t + s.h ∧ s'.h = s.h ∧
      s'.cache.ts (Buffer.iOld _) = s.t := by
  unfold Takes
  change ∃ s', (explicitMultistepBody ForwardEuler (pureRhs g)).run _ = _ ∧ _
  rw [explicitMultistepBody_run]
  refine ⟨_, rfl, ?_, rfl, rfl⟩
  unfold St.t Buffer.t Buffer.push
  exact shiftIn_last s.cache.ts _

end arithmetic

namespace Spec

theorem lastDigit_eq {p : ℕ} {e : Option ℤ} {x : ℝ} {j : ℤ} (h1 : (2 : ℝ) ^ (j + p - 1) ≤ |x|) (h2 : |x| < 2 ^ (j + p))
    (he : ∀ i, e = some i → i ≤ j) : lastDigit p e x = j := by
  have hx : 0 < |x| := (pow_pos' _).trans_le h1
  have a : j + p - 1 ≤ Int.log 2 |x| := (Int.zpow_le_iff_le_log (by norm_num) hx).mp (by exact_mod_cast h1)
  have b : Int.log 2 |x| < j + p := (Int.lt_zpow_iff_log_lt (by norm_num) hx).mp (by exact_mod_cast h2)
  unfold lastDigit
  cases e with
  | none => simp only; omega
  | some i =>
    have := he i rfl
    simp only
    omega

theorem halfEven_eq {x : ℝ} {m : ℤ} (h : |x - m| < 1 / 2) : halfEven x = m := by
  have h1 := halfEven_near x
  have h2 : |(halfEven x : ℝ) - m| < 1 := by
    have := abs_add_le ((halfEven x : ℝ) - x) (x - m)
    rw [show (halfEven x : ℝ) - x + (x - m) = halfEven x - m by ring] at this
    linarith
  have h3 : |halfEven x - m| < 1 := by exact_mod_cast h2
  have := Int.abs_lt_one_iff.mp h3
  omega

theorem halfEven_tie {m : ℤ} (h : Even m) : halfEven (m + 1 / 2) = m := by
  have hf : ⌊(m : ℝ) + 1 / 2⌋ = m := by
    rw [Int.floor_eq_iff]; norm_num
  have hr : Int.fract ((m : ℝ) + 1 / 2) = 1 / 2 := by
    rw [Int.fract, hf]; ring
  unfold halfEven
  rw [hf, if_pos (Or.inr ⟨hr, h⟩)]

theorem halfEven_tie_up {m : ℤ} (h : ¬ Even m) : halfEven (m + 1 / 2) = m + 1 := by
  have hf : ⌊(m : ℝ) + 1 / 2⌋ = m := by
    rw [Int.floor_eq_iff]; norm_num
  have hr : Int.fract ((m : ℝ) + 1 / 2) = 1 / 2 := by
    rw [Int.fract, hf]; ring
  unfold halfEven
  rw [hf, if_neg]
  rintro (h1 | ⟨-, h1⟩)
  · rw [hr] at h1; exact lt_irrefl _ h1
  · exact h h1

/-- Rounding, from the position of the last digit and the nearest multiple. -/
theorem roundFloat_eq {p : ℕ} {e : Option ℤ} {x : ℝ} (j m : ℤ) (h1 : (2 : ℝ) ^ (j + p - 1) ≤ |x|) (h2 : |x| < 2 ^ (j + p))
    (he : ∀ i, e = some i → i ≤ j) (hm : halfEven (x / 2 ^ j) = m) : roundFloat p e x = m * 2 ^ j := by
  unfold roundFloat
  rw [lastDigit_eq h1 h2 he, hm]

/-- In double precision `2^53 + 1` is rounded to `2^53`. -/
theorem double_big : double.round (2 ^ 53 + 1) = 2 ^ 53 := by
  show roundFloat 53 (some (-1074)) _ = _
  rw [roundFloat_eq 1 (2 ^ 52)]
  · norm_num
  · rw [abs_of_pos (by positivity)]; norm_num
  · rw [abs_of_pos (by positivity)]; norm_num
  · simp
  · have := halfEven_tie (m := 2 ^ 52) (by decide)
    rw [← this]; norm_num

/-- The double nearest to `1 / 10`. -/
theorem double_tenth : double.round (1 / 10) = 3602879701896397 / 2 ^ 55 := by
  show roundFloat 53 (some (-1074)) _ = _
  rw [roundFloat_eq (-56) 7205759403792794]
  · norm_num
  · rw [abs_of_pos (by positivity)]; norm_num
  · rw [abs_of_pos (by positivity)]; norm_num
  · intro i hi; cases hi; norm_num
  · apply halfEven_eq; norm_num [abs_lt]

/-- The double nearest to `3 / 10`. -/
theorem double_three_tenths : double.round (3 / 10) = 5404319552844595 / 2 ^ 54 := by
  show roundFloat 53 (some (-1074)) _ = _
  rw [roundFloat_eq (-54) 5404319552844595]
  · norm_num
  · rw [abs_of_pos (by positivity)]; norm_num
  · rw [abs_of_pos (by positivity)]; norm_num
  · intro i hi; cases hi; norm_num
  · apply halfEven_eq; norm_num [abs_lt]

/-- `0.1 + 0.1`. -/
theorem double_sum2 : double.round (3602879701896397 / 2 ^ 55 + 3602879701896397 / 2 ^ 55) = 3602879701896397 / 2 ^ 54 := by
  show roundFloat 53 (some (-1074)) _ = _
  rw [roundFloat_eq (-55) 7205759403792794]
  · norm_num
  · rw [abs_of_pos (by positivity)]; norm_num
  · rw [abs_of_pos (by positivity)]; norm_num
  · intro i hi; cases hi; norm_num
  · apply halfEven_eq; norm_num [abs_lt]

/-- `0.1 + 0.1 + 0.1` is the double after the one nearest to `0.3`. -/
theorem double_sum3 : double.round (3602879701896397 / 2 ^ 54 + 3602879701896397 / 2 ^ 55) = 5404319552844596 / 2 ^ 54 := by
  show roundFloat 53 (some (-1074)) _ = _
  rw [roundFloat_eq (-54) 5404319552844596]
  · norm_num
  · rw [abs_of_pos (by positivity)]; norm_num
  · rw [abs_of_pos (by positivity)]; norm_num
  · intro i hi; cases hi; norm_num
  · have := halfEven_tie_up (m := 5404319552844595) (by decide)
    rw [show (5404319552844596 : ℤ) = 5404319552844595 + 1 by norm_num, ← this]; norm_num

end Spec
end Nbkode
