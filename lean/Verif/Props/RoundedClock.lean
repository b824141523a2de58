import Verif.Proofs.FloatDemo
import Verif.Proofs.Halting
import Verif.Props.Rounded
import Verif.Props.Stepping

/-!
# C85: machine numbers, how far the clock is off

Fixed-step solvers reach the time `t + m h` by adding `h` again and again. With machine numbers accurate up to `u` and `η`
(`Accurate`), each addition at times up to `M` is off by at most `u (M + h) + η`.
-/

set_option autoImplicit false
set_option linter.unusedSectionVars false

namespace Nbkode
open Py Spec Solver

variable {φ : Rounding} {n k : Nat} {X : Type} {u η : ℝ}

theorem num_add_error (hA : φ.Accurate u η) {a b t h : Num φ} (hh : 0 ≤ h) (h1 : a ≤ t) (h2 : t ≤ b) :
    |(t + h).val - (t.val + h.val)| ≤ clockError u η a b h := by
  have e := hA.error (t.val + h.val)
  have ht : |t.val| ≤ max |a.val| |b.val| := abs_le_max_abs_abs (Num.le_iff.mp h1) (Num.le_iff.mp h2)
  have hp : (0:ℝ) ≤ h.val := by simpa [Num.val_zero] using Num.le_iff.mp hh
  have : |t.val + h.val| ≤ max |a.val| |b.val| + h.val := by
    have := abs_add_le t.val h.val
    rw [abs_of_nonneg hp] at this
    linarith
  rw [Num.val_add]
  refine e.trans ?_
  unfold clockError
  have := mul_le_mul_of_nonneg_left this hA.unit_nonneg
  linarith

theorem clockError_mono (hA : φ.Accurate u η) {a b a' b' h : Num φ} (ha : a ≤ a') (hab : a' ≤ b') (hb : b' ≤ b) :
    clockError u η a' b' h ≤ clockError u η a b h := by
  unfold clockError
  have h1 : |a'.val| ≤ max |a.val| |b.val| := abs_le_max_abs_abs (Num.le_iff.mp ha) (Num.le_iff.mp (hab.trans hb))
  have h2 : |b'.val| ≤ max |a.val| |b.val| := abs_le_max_abs_abs (Num.le_iff.mp (ha.trans hab)) (Num.le_iff.mp hb)
  have := mul_le_mul_of_nonneg_left (add_le_add_left (max_le h1 h2) h.val) hA.unit_nonneg
  linarith

theorem num_path_drift {S : Solver (Num φ) n k X} (hM : IsFixed S.method) (hA : φ.Accurate u η) {b : Bound (Num φ)}
    {s s' : St (Num φ) n k X} {l : List (St (Num φ) n k X)} (hh : 0 < s.h) (hp : Path S b s l s') :
    s.t ≤ s'.t ∧ s'.h = s.h ∧
      |s'.t.val - (s.t.val + l.length * s.h.val)| ≤ l.length * clockError u η s.t s'.t s.h := by
  induction hp with
  | nil => simp
  | @cons s s1 s2 l hf ht hp ih =>
    have e1 : s1.t = s.t + s.h := hM.shaped.body_fixed _ _ _ ht
    have e2 : s1.h = s.h := hM.shaped.body_h _ _ _ _ ht
    obtain ⟨h1, h2, h3⟩ := ih (by rw [e2]; exact hh)
    have h0 : s.t ≤ s1.t := by rw [e1]; exact Num.le_add _ hh.le
    refine ⟨h0.trans h1, h2.trans e2, ?_⟩
    have a1 := num_add_error hA hh.le (le_refl s.t) (h0.trans h1)
    have a2 := clockError_mono hA (h := s.h) h0 h1 (le_refl s2.t)
    rw [← e1] at a1
    rw [e2] at h3
    push_cast [List.length_cons]
    have a3 : (l.length : ℝ) * clockError u η s1.t s2.t s.h ≤ l.length * clockError u η s.t s2.t s.h :=
      mul_le_mul_of_nonneg_left a2 (Nat.cast_nonneg _)
    have a4 := abs_add_le (s2.t.val - (s1.t.val + l.length * s.h.val)) (s1.t.val - (s.t.val + s.h.val))
    rw [show s2.t.val - (s1.t.val + l.length * s.h.val) + (s1.t.val - (s.t.val + s.h.val)) =
      s2.t.val - (s.t.val + (l.length + 1) * s.h.val) by ring] at a4
    linarith

theorem path_getElem {S : Solver (Num φ) n k X} {b : Bound (Num φ)} {s s' : St (Num φ) n k X} {l : List (St (Num φ) n k X)}
    (hp : Path S b s l s') (i : Nat) (hi : i < l.length) : ∃ l1, l1.length = i + 1 ∧ Path S b s l1 l[i] := by
  induction hp generalizing i with
  | nil => simp at hi
  | @cons s s1 s2 l hf ht hp ih =>
    cases i with
    | zero => exact ⟨[s1], rfl, .cons hf ht (.nil _)⟩
    | succ i =>
      obtain ⟨l1, h1, h2⟩ := ih i (by simpa using hi)
      exact ⟨s1 :: l1, by simp [h1], .cons hf ht h2⟩

theorem path_fixed_le {S : Solver (Num φ) n k X} (hM : IsFixed S.method) {U : Num φ} {s s' : St (Num φ) n k X}
    {l : List (St (Num φ) n k X)} (hU : s.t ≤ U) (hp : Path S (.fin U) s l s') : s'.t ≤ U := by
  induction hp with
  | nil => exact hU
  | @cons s s1 s2 l hf ht hp ih =>
    refine ih ?_
    have e1 : s1.t = s.t + s.h := hM.shaped.body_fixed _ _ _ ht
    rw [e1]
    unfold Fits NotBeyond at hf
    simpa using hf

/-- **C85**, the times returned: the `i`-th time is `t + i h` up to `i` roundings. -/
theorem C85_times (S : Solver (Num φ) n k X) (hM : IsFixed S.method) (hA : φ.Accurate u η) (m : Option Nat)
    (up : Option (Bound (Num φ))) (s s' : St (Num φ) n k X) (hh : 0 < s.h) (out : List (Num φ × Vec (Num φ) n))
    (h : (S.step (m.map Int.ofNat) up).run s = some (.ok (.arrays out), s')) (i : Nat) (hi : i < out.length) :
    |out[i].1.val - (s.t.val + (i + 1) * s.h.val)| ≤ (i + 1) * clockError u η s.t out[i].1 s.h := by
  rcases step_arrays S m up s s' out h with rfl | ⟨b, l, s1, hp, rfl⟩
  · simp at hi
  · rw [List.length_map] at hi
    obtain ⟨l1, hl, h1⟩ := path_getElem hp i hi
    obtain ⟨-, -, h3⟩ := num_path_drift hM hA hh h1
    rw [hl] at h3
    push_cast at h3
    simpa [record] using h3

/-- **C85**, sessions: whatever calls were made, also failing ones, the time is `t + m h` up to `m` roundings, for the number
`m` of steps made. -/
theorem C85_session (S : Solver (Num φ) n k X) (hM : IsFixed S.method) (hA : φ.Accurate u η)
    (bo : BisectOpts (Num φ)) (argsort : List (Num φ) → List Nat) (s s' : St (Num φ) n k X) (hh : 0 < s.h)
    (h : Session S bo argsort s s') :
    ∃ m : ℕ, |s'.t.val - (s.t.val + m * s.h.val)| ≤ m * clockError u η s.t s'.t s.h := by
  refine (session_invariant (fun x => x.h = s.h ∧ s.t ≤ x.t ∧
    ∃ m : ℕ, |x.t.val - (s.t.val + m * s.h.val)| ≤ m * clockError u η s.t x.t s.h) ?_ h ⟨rfl, le_refl _, 0, by simp⟩).2.2
  intro x x' hp ⟨hx, hle, m, hm⟩
  cases hp with
  | @body r b hb hf h =>
    have e2 : x'.h = x.h := hM.shaped.body_h _ _ _ _ h
    cases r with
    | error e =>
      refine ⟨e2.trans hx, ?_⟩
      unfold St.t at *
      rw [hM.shaped.body_err _ _ _ _ h]; exact ⟨hle, m, hm⟩
    | ok _ =>
      have e1 : x'.t = x.t + x.h := hM.shaped.body_fixed _ _ _ h
      rw [hx] at e1
      have h0 : x.t ≤ x'.t := by rw [e1]; exact Num.le_add _ hh.le
      refine ⟨e2.trans hx, hle.trans h0, m + 1, ?_⟩
      have a1 := num_add_error hA hh.le hle h0
      have a2 := clockError_mono hA (h := s.h) (le_refl s.t) hle h0
      rw [← e1] at a1
      have a3 := mul_le_mul_of_nonneg_left a2 (Nat.cast_nonneg (α := ℝ) m)
      have a4 := abs_add_le (x.t.val - (s.t.val + m * s.h.val)) (x'.t.val - (x.t.val + s.h.val))
      rw [show x.t.val - (s.t.val + m * s.h.val) + (x'.t.val - (x.t.val + s.h.val)) =
        x'.t.val - (s.t.val + (m + 1) * s.h.val) by ring] at a4
      push_cast
      linarith
  | interp t h =>
    obtain ⟨h1, h2⟩ := hM.shaped.interp _ _ _ _ _ h
    unfold St.t at *
    rw [h1, h2]; exact ⟨hx, hle, m, hm⟩

/-- **C85**, number of steps: `step(upto_t=U)` makes `m` steps where `m (h - ε) ≤ U - t < (m + 1) (h + ε)`. In exact arithmetic `ε`
is `0` and this is `m = ⌊(U - t) / h⌋`. -/
theorem C85_count_partial (S : Solver (Num φ) n k X) (hM : IsFixed S.method) (hA : φ.Accurate u η) (U : Num φ)
    (s s' : St (Num φ) n k X) (hh : 0 < s.h) (hU : s.t ≤ U) (out : List (Num φ × Vec (Num φ) n))
    (h : (S.step none (some (.fin U))).run s = some (.ok (.arrays out), s')) :
    out.length * (s.h.val - clockError u η s.t U s.h) ≤ U.val - s.t.val ∧
      U.val - s.t.val < (out.length + 1) * (s.h.val + clockError u η s.t U s.h) := by
  obtain ⟨l, hp, rfl, hn⟩ := C04_step_upto S (.fin U) s s' out (by simpa [Past] using hU) h
  obtain ⟨h1, h2, h3⟩ := num_path_drift hM hA hh hp
  have h4 : s'.t ≤ U := path_fixed_le hM hU hp
  have h5 : U < s'.t + s'.h := by
    unfold Fits NotBeyond at hn; simpa using hn
  rw [h2] at h5
  rw [List.length_map]
  have a1 := num_add_error hA hh.le h1 h4
  have a2 := clockError_mono hA (h := s.h) (le_refl s.t) h1 h4
  have a3 := mul_le_mul_of_nonneg_left a2 (Nat.cast_nonneg (α := ℝ) l.length)
  have h6 := Num.lt_iff.mp h5
  have h7 := Num.le_iff.mp h4
  rw [abs_le] at h3 a1
  constructor <;> nlinarith

/-- **C85**, calls return: every call up to a finite time comes back if a single step at the times asked for is off by less than
its size. -/
theorem C85_returns_partial (S : Solver (Num φ) n k X) (hM : IsFixed S.method) (hA : φ.Accurate u η) (bo : BisectOpts (Num φ))
    (argsort : List (Num φ) → List Nat) (c : Call (Num φ) n) (hc : Finite c) (s : St (Num φ) n k X) (hh : 0 < s.h)
    (hU : ∀ U, c.Asks U → s.t ≤ U → clockError u η s.t U s.h < s.h.val) : Halts (c.exec S bo argsort) s := by
  have P : Ranked S (fun x => x.h = s.h ∧ s.t ≤ x.t) (fun U => s.t ≤ U → clockError u η s.t U s.h < s.h.val) := by
    refine ⟨?_, ?_, ?_, ?_, ?_, ?_⟩
    · rintro x ⟨hx, -⟩; rw [hx]; exact Num.le_add _ hh.le
    · rintro x -; exact hM.body_returns S.rhs x
    · rintro x x' ⟨hx, hle⟩ ht
      have e1 : x'.t = x.t + x.h := hM.shaped.body_fixed _ _ _ ht
      refine ⟨(hM.shaped.body_h _ _ _ _ ht).trans hx, hle.trans ?_⟩
      rw [e1, hx]; exact Num.le_add _ hh.le
    · rintro x x' ⟨hx, hle⟩ ht
      have e1 : x'.t = x.t + x.h := hM.shaped.body_fixed _ _ _ ht
      rw [e1, hx]; exact Num.le_add _ hh.le
    · intro U hU
      by_cases hsU : s.t ≤ U
      · have hδ := sub_pos.mpr (hU hsU)
        set δ := s.h.val - clockError u η s.t U s.h
        refine ⟨fun t => ⌊(U.val - t.val) / δ + 1⌋₊, ?_, ?_⟩
        · intro a b hab
          refine Nat.floor_mono ?_
          have := Num.le_iff.mp hab
          gcongr
        · rintro x x' ⟨hx, hle⟩ ht hxU
          have e1 : x'.t = x.t + x.h := hM.shaped.body_fixed _ _ _ ht
          rw [hx] at e1
          have a1 := num_add_error hA hh.le hle hxU
          rw [← e1, abs_le] at a1
          have a2 : x.t.val + δ ≤ x'.t.val := by linarith
          have a3 : (U.val - x'.t.val) / δ + 1 ≤ (U.val - x.t.val) / δ := by
            rw [div_add_one hδ.ne', div_le_div_iff_of_pos_right hδ]; linarith
          have a4 : 0 ≤ (U.val - x.t.val) / δ := div_nonneg (sub_nonneg.mpr (Num.le_iff.mp hxU)) hδ.le
          refine (Nat.floor_mono a3).trans_lt ?_
          show _ < ⌊(U.val - x.t.val) / δ + 1⌋₊
          rw [Nat.floor_add_one a4]
          exact Nat.lt_succ_self _
      · refine ⟨fun _ => 0, fun _ _ _ => le_refl _, ?_⟩
        rintro x x' ⟨-, hle⟩ - hxU
        exact absurd (hle.trans hxU) hsU
    · rintro x x' ⟨hx, hle⟩ h1 h2
      unfold St.t at *
      rw [h1, h2]; exact ⟨hx, hle⟩
  exact P.call_returns (Or.inl hM) bo argsort c hc hU ⟨rfl, le_refl _⟩

/-! ### Double precision -/

open Demo in
/-- Steps need not advance: at `t = 2^53` a step of size 1 of `ForwardEuler` leaves the time where it is, and
`step(upto_t=2^54)` never returns. -/
theorem C85_refuted_stall : ∃ (s0 s1 : St (Num double) 1 (histExtra 0) Unit) (U : Num double),
    Constructed doubleEuler s0 ∧ 0 < s0.h ∧ s0.t < U ∧ Takes doubleEuler s0 s1 ∧ s1.t = s0.t ∧
      ¬ Halts (doubleEuler.step none (some (.fin U))) s0 := by
  set t0 := Num.of double (2 ^ 53) with ht0
  have e0 : t0.val = 2 ^ 53 := double_pow 53
  have hstay : t0 + 1 = t0 := by
    apply Num.ext
    rw [Num.val_add, Num.val_one, e0]
    exact double_big
  set U := Num.of double (2 ^ 54) with hU
  have eU : U.val = 2 ^ 54 := double_pow 54
  have hlt : t0 < U := by rw [Num.lt_iff, e0, eU]; norm_num
  obtain ⟨s1, h1, h2, h3, -⟩ := euler_takes_time (fun _ (y : Vec (Num double) 1) => y) .inf (doubleStart t0 1)
  refine ⟨doubleStart t0 1, s1, U, constructed_eulerAt _ _ _ _ _, ?_, hlt, h1, h2.trans hstay, ?_⟩
  · show (0 : Num double) < 1
    rw [Num.lt_iff, Num.val_zero, Num.val_one]; norm_num
  · rintro ⟨r, s', h⟩
    rw [step_upto_run _ _ _ (show ¬ Past (.fin U) (doubleStart t0 1) from not_lt.mpr hlt.le) (by simp [Beyond, doubleEuler])] at h
    refine stepsLoop_stalls (S := doubleEuler) (b := .fin U) (fun s => s.t = t0 ∧ s.h = 1) ?_ (doubleStart t0 1) ⟨rfl, rfl⟩ ?_
    · rintro s ⟨g1, g2⟩
      constructor
      · unfold Fits NotBeyond
        rw [g1, g2, hstay]
        simpa using hlt.le
      · obtain ⟨s2, a1, a2, a3, -⟩ := euler_takes_time (fun _ (y : Vec (Num double) 1) => y) .inf s
        exact ⟨s2, a1, by rw [a2, g1, g2, hstay], by rw [a3, g2]⟩
    · unfold Halts
      cases hl : (doubleEuler.stepsLoop (.fin U)).run (doubleStart t0 1) with
      | none => rw [hl] at h; cases h
      | some p => exact ⟨_, _, rfl⟩

open Demo in
/-- `step(upto_t=U)` need not make `⌊(U - t0) / h⌋` steps: with `t0 = 0` and `h = 0.1`, `step(upto_t=0.3)` makes two steps. -/
theorem C85_refuted_count : ∃ (out : List (Num double × Vec (Num double) 1)) (s' : St (Num double) 1 (histExtra 0) Unit),
    Constructed doubleEuler (doubleStart 0 (Num.of double (1 / 10))) ∧
    (doubleEuler.step none (some (.fin (Num.of double (3 / 10))))).run (doubleStart 0 (Num.of double (1 / 10))) =
      some (.ok (.arrays out), s') ∧ out.length = 2 := by
  set h := Num.of double (1 / 10) with hh
  have eh : h.val = 3602879701896397 / 2 ^ 55 := double_tenth
  set U := Num.of double (3 / 10) with hU
  have eU : U.val = 5404319552844595 / 2 ^ 54 := double_three_tenths
  set s0 := doubleStart 0 h with hs0
  obtain ⟨s1, h1, h2, h3, -⟩ := euler_takes_time (fun _ (y : Vec (Num double) 1) => y) .inf s0
  obtain ⟨s2, g1, g2, g3, -⟩ := euler_takes_time (fun _ (y : Vec (Num double) 1) => y) .inf s1
  have hs0h : s0.h = h := rfl
  have t0 : s0.t.val = 0 := Num.val_zero
  rw [hs0h] at h3
  rw [h3] at g3
  have e1 : (s0.t + s0.h).val = 3602879701896397 / 2 ^ 55 := by
    rw [Num.val_add, t0, zero_add, hs0h, ← eh]
    exact double.round_self _ (Num.val_mem h)
  have e2 : (s1.t + s1.h).val = 3602879701896397 / 2 ^ 54 := by
    rw [Num.val_add, h2, e1, h3, eh]
    exact double_sum2
  have e3 : (s2.t + s2.h).val = 5404319552844596 / 2 ^ 54 := by
    rw [Num.val_add, g2, e2, g3, eh]
    exact double_sum3
  refine ⟨[record s1, record s2], s2, constructed_eulerAt _ _ _ _ _, ?_, rfl⟩
  rw [step_upto_run _ _ _ ?_ (by simp [Beyond, doubleEuler])]
  · rw [stepsLoop_ok (S := doubleEuler) |>.mpr ⟨[s1, s2], .cons ?_ h1 (.cons ?_ g1 (.nil _)), rfl, ?_⟩]
    · rfl
    · unfold Fits NotBeyond; simp only [not_lt, Num.le_iff, e1, eU]; norm_num
    · unfold Fits NotBeyond; simp only [not_lt, Num.le_iff, e2, eU]; norm_num
    · unfold Fits NotBeyond; simp only [not_lt, not_le, Num.lt_iff, e3, eU]; norm_num
  · unfold Past; simp only [not_lt, Num.le_iff, t0, eU]; positivity

open Demo in
/-- Non-vacuity of `C85_returns_partial`, `C85_count_partial` and `C85_times`: in double precision with step `0.1`, calls up to
the time 1000 return. -/
example (bo : BisectOpts (Num double)) (argsort : List (Num double) → List Nat) :
    Halts ((Call.step none (some (.fin (Num.of double 1000)))).exec doubleEuler bo argsort)
      (doubleStart 0 (Num.of double (1 / 10))) := by
  refine C85_returns_partial doubleEuler (.explicitMultistep _) double_accurate bo argsort _ (by simp [Spec.Finite]) _ tenth_pos ?_
  rintro U hU -
  have e : U = Num.of double 1000 := by
    simp only [Call.Asks, Option.some.injEq, Bound.fin.injEq] at hU
    exact hU.symm
  have e0 : (doubleStart 0 (Num.of double (1 / 10))).t.val = 0 := Num.val_zero
  have e1 : (Num.of double 1000).val = 1000 := by
    refine double.round_self _ ⟨1000, 0, by norm_num, ?_, by simp⟩
    intro j hj
    cases hj
    norm_num
  unfold clockError
  rw [e, e0, e1]
  show _ * (_ + (Num.of double (1 / 10)).val) + _ < (Num.of double (1 / 10)).val
  rw [val_tenth]
  have : (2 : ℝ) ^ ((-1074 : ℤ) - 1) ≤ 2 ^ (-53 : ℤ) := zpow_le_zpow_right₀ (by norm_num) (by norm_num)
  have h2 : (2 : ℝ) ^ (-53 : ℤ) = (2⁻¹) ^ 53 := by norm_num
  rw [h2] at this
  refine (add_le_add_right this _).trans_lt ?_
  norm_num

-- `C85_times`, `C85_count_partial`, `C85_session`: the call of `C85_refuted_count` meets the hypotheses.
open Demo in
example (bo : BisectOpts (Num double)) (argsort : List (Num double) → List Nat) :
    ∃ out s', out.length = 2 ∧ ∃ h : (doubleEuler.step none (some (.fin (Num.of double (3 / 10))))).run
      (doubleStart 0 (Num.of double (1 / 10))) = some (.ok (.arrays out), s'),
    ∃ hU : (0 : Num double) ≤ Num.of double (3 / 10),
    ∃ hs : Session doubleEuler bo argsort (doubleStart 0 (Num.of double (1 / 10))) s',
    type_of% (C85_times doubleEuler (.explicitMultistep _) double_accurate none _ _ s' tenth_pos out h) ∧
    type_of% (C85_count_partial doubleEuler (.explicitMultistep _) double_accurate _ _ s' tenth_pos hU out h) ∧
    type_of% (C85_session doubleEuler (.explicitMultistep _) double_accurate bo argsort _ s' tenth_pos hs) := by
  obtain ⟨out, s', -, h, e⟩ := C85_refuted_count
  have hU : (0 : Num double) ≤ Num.of double (3 / 10) := by
    rw [Num.le_iff, Num.val_zero, show (Num.of double (3 / 10)).val = _ from double_three_tenths]
    positivity
  have hs : Session doubleEuler bo argsort (doubleStart 0 (Num.of double (1 / 10))) s' := by
    refine .call (.step none (some (.fin (Num.of double (3 / 10))))) (.ok ()) (.start _) ?_
    simp only [Call.exec, run_bind, h, andThen_ok, run_pure]
  exact ⟨out, s', e, h, hU, hs, C85_times doubleEuler (.explicitMultistep _) double_accurate none _ _ s' tenth_pos out h,
    C85_count_partial doubleEuler (.explicitMultistep _) double_accurate _ _ s' tenth_pos hU out h,
    C85_session doubleEuler (.explicitMultistep _) double_accurate bo argsort _ s' tenth_pos hs⟩

end Nbkode
