import Verif.Proofs.RunStates
import Verif.Props.RunStates
import Mathlib.Algebra.Polynomial.Derivative
import Mathlib.Algebra.Polynomial.Eval.Degree
import Mathlib.Algebra.Polynomial.Degree.Lemmas
import Mathlib.Tactic.FieldSimp
import Mathlib.Tactic.LinearCombination

/-!
# Interpolation inside the recorded history: C22, C23
-/

set_option autoImplicit false
set_option linter.unusedSectionVars false

namespace Nbkode
open Py Spec Solver Polynomial

section field
variable {α : Type} [Field α] [LinearOrder α] [IsStrictOrderedRing α] [BEq α] [LawfulBEq α]
variable {n k : Nat} {X : Type}

/-- **C22**, where it succeeds: with a right-hand side that does not raise, `interpolate(t)` returns exactly for the `t` within
the recorded history (and raises `ValueError` otherwise, C10). -/
theorem C22_succeeds_iff (S : Solver α n k X) (hM : IsLibrary S.method) (hf : ∀ t y, ∃ f, S.rhs t y = .ok f)
    (t : α) (s : St α n k X) :
    (∃ r s', (S.interpolate t).run s = some (.ok r, s')) ↔ s.cache.ts (Buffer.iOld k) ≤ t ∧ t ≤ s.t := by
  constructor
  · rintro ⟨r, s', h⟩
    by_contra hc
    rw [C10_interpolate_outside S t s hc] at h
    simp at h
  · rintro ⟨h1, h2⟩
    rw [interpolate_inside h1 h2]
    exact interp_total hM hf h1 h2

theorem pyDiv_ne {a b : α} (hb : b ≠ 0) : pyDiv a b = .ok (a / b) := by
  unfold pyDiv; rw [if_neg (by simpa using hb)]

/-- The value of the default interpolation. -/
theorem hermite_value {t : α} {s : St α n k X} (hlt : s.cache.ts (Buffer.iOld k) < s.t) :
    ∃ r, (hermiteInterp t : Py (St α n k X) _).run s = some (.ok r, s) ∧ ∀ i,
      r.deref s.cache i = s.cache.ys (Buffer.iOld k) i +
        (t - s.cache.ts (Buffer.iOld k)) / (s.t - s.cache.ts (Buffer.iOld k)) * (s.y i - s.cache.ys (Buffer.iOld k) i) +
        (t - s.cache.ts (Buffer.iOld k)) / (s.t - s.cache.ts (Buffer.iOld k)) *
          ((t - s.cache.ts (Buffer.iOld k)) / (s.t - s.cache.ts (Buffer.iOld k)) - 1) *
          ((1 - 2 * ((t - s.cache.ts (Buffer.iOld k)) / (s.t - s.cache.ts (Buffer.iOld k)))) *
              (s.y i - s.cache.ys (Buffer.iOld k) i) +
            (s.t - s.cache.ts (Buffer.iOld k)) *
              (((t - s.cache.ts (Buffer.iOld k)) / (s.t - s.cache.ts (Buffer.iOld k)) - 1) * s.cache.fs (Buffer.iOld k) i +
                (t - s.cache.ts (Buffer.iOld k)) / (s.t - s.cache.ts (Buffer.iOld k)) * s.f i)) := by
  rw [hermiteInterp_run]
  split
  · rename_i h
    simp only [beq_iff_eq] at h
    refine ⟨_, rfl, fun i => ?_⟩
    subst h
    simp [Ref.deref]
  · rw [pyDiv_ne (show s.cache.t - s.cache.ts (Buffer.iOld k) ≠ 0 from (sub_pos.mpr hlt).ne')]
    refine ⟨_, rfl, fun i => ?_⟩
    simp only [Ref.deref, Pi.add_apply, Pi.sub_apply, scale, Nat.cast_ofNat]
    rfl

/-- **C22**, at the ends: the oldest and the newest recorded time are answered with the recorded state, by every class. -/
theorem C22_ends (S : Solver α n k X) (hM : IsLibrary S.method) (s : St α n k X)
    (hlt : s.cache.ts (Buffer.iOld k) < s.t) :
    (∃ r s', (S.interpolate (s.cache.ts (Buffer.iOld k))).run s = some (.ok r, s') ∧
      r.deref s.cache = s.cache.ys (Buffer.iOld k)) ∧
    (∃ r s', (S.interpolate s.t).run s = some (.ok r, s') ∧ r.deref s.cache = s.y) := by
  rw [interpolate_inside (le_refl _) hlt.le, interpolate_inside hlt.le (le_refl _)]
  have hermite : (∃ r s', (hermiteInterp (s.cache.ts (Buffer.iOld k)) : Py (St α n k X) _).run s = some (.ok r, s') ∧
      r.deref s.cache = s.cache.ys (Buffer.iOld k)) ∧
    (∃ r s', (hermiteInterp s.t : Py (St α n k X) _).run s = some (.ok r, s') ∧ r.deref s.cache = s.y) := by
    obtain ⟨r1, h1, v1⟩ := hermite_value (t := s.cache.ts (Buffer.iOld k)) hlt
    obtain ⟨r2, h2, v2⟩ := hermite_value (t := s.t) hlt
    refine ⟨⟨r1, s, h1, funext fun i => ?_⟩, ⟨r2, s, h2, funext fun i => ?_⟩⟩
    · rw [v1]; simp
    · rw [v2, div_self (sub_pos.mpr hlt).ne']; ring
  obtain ⟨M, rhs, b⟩ := S
  rcases hM with hM | ⟨lib, o, ex, hM⟩
  · cases hM with
    | explicitMultistep c => exact hermite
    | implicitMultistep lib zo c => exact hermite
    | erk T => exact hermite
  · have hne : ¬ (s.cache.ts (Buffer.iOld k) == s.cache.ts (Buffer.iLast k)) = true := by
      simpa [St.t, Buffer.t] using hlt.ne
    cases hM with
    | fsal c =>
      constructor
      · show ∃ r s', (rkInterp c.P (s.cache.ts (Buffer.iOld 0))).run s = _ ∧ _
        rw [rkInterp_run, if_neg hne, if_pos (by simp [Buffer.iOld, Buffer.iPrev])]
        exact ⟨_, _, rfl, rfl⟩
      · show ∃ r s', (rkInterp c.P s.t).run s = _ ∧ _
        rw [rkInterp_run, if_pos (by simp [St.t, Buffer.t])]
        exact ⟨_, _, rfl, rfl⟩
    | dop853 c =>
      constructor
      · show ∃ r s', (dopInterp c.toDopDense rhs (s.cache.ts (Buffer.iOld 0))).run s = _ ∧ _
        rw [dopInterp_run, if_neg hne, if_pos (by simp [Buffer.iOld, Buffer.iPrev])]
        exact ⟨_, _, rfl, rfl⟩
      · show ∃ r s', (dopInterp c.toDopDense rhs s.t).run s = _ ∧ _
        rw [dopInterp_run, if_pos (by simp [St.t, Buffer.t])]
        exact ⟨_, _, rfl, rfl⟩

/-- **C22** for the classes whose history has two points (all Runge-Kutta classes, and the multistep classes of order at most
two): every recorded time is answered with the recorded state. Missing: longer histories, see `C22_refuted`. -/
theorem C22_recorded_partial (S : Solver α n 0 X) (hM : IsLibrary S.method) (s : St α n 0 X)
    (hlt : s.cache.ts (Buffer.iOld 0) < s.t) (j : Fin 2) :
    ∃ r s', (S.interpolate (s.cache.ts j)).run s = some (.ok r, s') ∧ r.deref s.cache = s.cache.ys j := by
  obtain ⟨h1, h2⟩ := C22_ends S hM s hlt
  have : j = Buffer.iOld 0 ∨ j = Buffer.iLast 0 := by
    rcases j with ⟨_ | _ | j, hj⟩
    · exact Or.inl rfl
    · exact Or.inr rfl
    · omega
  rcases this with rfl | rfl
  · exact h1
  · exact h2

/-! ## C23 -/

theorem fixed_interp {S : Solver α n k X} (hM : IsFixed S.method) (t : α) : S.interpAt t = hermiteInterp t := by
  obtain ⟨M, rhs, b⟩ := S
  cases hM <;> rfl

/-- **C23**, reproduction: if the oldest and the newest recorded point lie on a cubic polynomial, with its derivative, then
`interpolate` gives the value of that polynomial at every time between, in every component. -/
theorem C23_reproduces_cubics (S : Solver α n k X) (hM : IsFixed S.method) (s : St α n k X)
    (hlt : s.cache.ts (Buffer.iOld k) < s.t) (G : Fin n → α[X]) (hG : ∀ i, (G i).natDegree ≤ 3)
    (hy0 : ∀ i, s.cache.ys (Buffer.iOld k) i = (G i).eval (s.cache.ts (Buffer.iOld k)))
    (hf0 : ∀ i, s.cache.fs (Buffer.iOld k) i = (derivative (G i)).eval (s.cache.ts (Buffer.iOld k)))
    (hy1 : ∀ i, s.y i = (G i).eval s.t) (hf1 : ∀ i, s.f i = (derivative (G i)).eval s.t)
    (t : α) (h1 : s.cache.ts (Buffer.iOld k) ≤ t) (h2 : t ≤ s.t) :
    ∃ r s', (S.interpolate t).run s = some (.ok r, s') ∧ ∀ i, r.deref s.cache i = (G i).eval t := by
  rw [interpolate_inside h1 h2, fixed_interp hM]
  obtain ⟨r, hr, hv⟩ := hermite_value (t := t) hlt
  refine ⟨r, s, hr, fun i => ?_⟩
  have hd : s.t - s.cache.ts (Buffer.iOld k) ≠ 0 := (sub_pos.mpr hlt).ne'
  have hp : ∀ x, (G i).eval x = (G i).coeff 0 + (G i).coeff 1 * x + (G i).coeff 2 * x ^ 2 + (G i).coeff 3 * x ^ 3 := by
    intro x
    rw [eval_eq_sum_range' (Nat.lt_succ_of_le (hG i))]
    simp [Finset.sum_range_succ]
  have hp' : ∀ x, (derivative (G i)).eval x = (G i).coeff 1 + 2 * (G i).coeff 2 * x + 3 * (G i).coeff 3 * x ^ 2 := by
    intro x
    rw [eval_eq_sum_range' (lt_of_le_of_lt (natDegree_derivative_le _) (show (G i).natDegree - 1 < 3 by have := hG i; omega))]
    simp only [coeff_derivative, Finset.sum_range_succ, Finset.sum_range_zero]
    norm_num
    ring
  rw [hv, hy0, hf0, hy1, hf1, hp, hp, hp', hp', hp]
  field_simp
  ring

/-- **C23**, the ends: whatever is recorded, there is in each component a cubic polynomial which `interpolate` follows over the
whole recorded history, and which has the recorded states and derivatives at both ends. -/
theorem C23_matches_ends (S : Solver α n k X) (hM : IsFixed S.method) (s : St α n k X)
    (hlt : s.cache.ts (Buffer.iOld k) < s.t) :
    ∃ G : Fin n → α[X], (∀ i, (G i).natDegree ≤ 3) ∧
      (∀ t, s.cache.ts (Buffer.iOld k) ≤ t → t ≤ s.t →
        ∃ r s', (S.interpolate t).run s = some (.ok r, s') ∧ ∀ i, r.deref s.cache i = (G i).eval t) ∧
      (∀ i, (G i).eval (s.cache.ts (Buffer.iOld k)) = s.cache.ys (Buffer.iOld k) i ∧
        (derivative (G i)).eval (s.cache.ts (Buffer.iOld k)) = s.cache.fs (Buffer.iOld k) i ∧
        (G i).eval s.t = s.y i ∧ (derivative (G i)).eval s.t = s.f i) := by
  have hd : s.t - s.cache.ts (Buffer.iOld k) ≠ 0 := (sub_pos.mpr hlt).ne'
  set a := s.cache.ts (Buffer.iOld k) with ha
  set d := s.t - a with hdd
  let T : α[X] := C (1 / d) * (Polynomial.X - C a)
  let G : Fin n → α[X] := fun i => C (s.cache.ys (Buffer.iOld k) i) + T * C (s.y i - s.cache.ys (Buffer.iOld k) i) +
    T * (T - 1) * ((1 - 2 * T) * C (s.y i - s.cache.ys (Buffer.iOld k) i) +
      C d * ((T - 1) * C (s.cache.fs (Buffer.iOld k) i) + T * C (s.f i)))
  have hT : ∀ x, T.eval x = (x - a) / d := by
    intro x
    simp only [T, eval_mul, eval_C, eval_sub, eval_X]
    ring
  have hT' : derivative T = C (1 / d) := by
    simp [T]
  have hTd : T.natDegree ≤ 1 := by
    refine natDegree_C_mul_le _ _ |>.trans ?_
    exact natDegree_X_sub_C_le _
  have hst : s.t = a + d := by rw [hdd]; ring
  refine ⟨G, fun i => ?_, fun t h1 h2 => ?_, fun i => ⟨?_, ?_, ?_, ?_⟩⟩
  · have h1 : (T - 1 : α[X]).natDegree ≤ 1 := (natDegree_sub_le _ _).trans (by simpa using hTd)
    have h2 : (1 - 2 * T : α[X]).natDegree ≤ 1 := by
      refine (natDegree_sub_le _ _).trans ?_
      have : (2 * T : α[X]).natDegree ≤ 1 := by
        rw [show (2 : α[X]) = C 2 from (C_ofNat 2).symm]
        exact (natDegree_C_mul_le _ _).trans hTd
      simpa using this
    refine natDegree_add_le_of_degree_le (natDegree_add_le_of_degree_le (by simp) ?_) ?_
    · exact ((natDegree_mul_C_le _ _).trans hTd).trans (by norm_num)
    · refine natDegree_mul_le_of_le (m := 2) (n := 1) (natDegree_mul_le_of_le (m := 1) (n := 1) hTd h1) ?_
      refine natDegree_add_le_of_degree_le ((natDegree_mul_C_le _ _).trans h2) ?_
      refine (natDegree_C_mul_le _ _).trans ?_
      exact natDegree_add_le_of_degree_le ((natDegree_mul_C_le _ _).trans h1) ((natDegree_mul_C_le _ _).trans hTd)
  · rw [interpolate_inside h1 h2, fixed_interp hM]
    obtain ⟨r, hr, hv⟩ := hermite_value (t := t) hlt
    refine ⟨r, s, hr, fun i => ?_⟩
    rw [hv]
    simp only [G, eval_add, eval_mul, eval_sub, eval_C, eval_one, eval_ofNat, hT]
    rfl
  · simp only [G, eval_add, eval_mul, eval_sub, eval_C, eval_one, eval_ofNat, hT, sub_self, zero_div]
    ring
  · simp only [G, derivative_add, derivative_mul, derivative_sub, derivative_C, derivative_one, derivative_ofNat, hT', eval_add, eval_mul, eval_sub,
      eval_C, eval_one, eval_ofNat, eval_zero, hT, sub_self, zero_div]
    field_simp
    ring
  · have : (a + d - a) / d = 1 := by rw [add_sub_cancel_left, div_self hd]
    simp only [G, hst, eval_add, eval_mul, eval_sub, eval_C, eval_one, eval_ofNat, hT, this]
    ring
  · have : (a + d - a) / d = 1 := by rw [add_sub_cancel_left, div_self hd]
    simp only [G, hst, derivative_add, derivative_mul, derivative_sub, derivative_C, derivative_one, derivative_ofNat, hT', eval_add, eval_mul,
      eval_sub, eval_C, eval_one, eval_ofNat, eval_zero, hT, this]
    field_simp
    ring

end field

/-! ### Cases -/

namespace Demo

/-- `AdamsBashforth3` on `y' = t (t - 1) / 2`. -/
def ab3 : Solver ℚ 1 (histExtra 2) Unit :=
  ⟨explicitMultistep AdamsBashforth3, pureRhs fun t _ _ => t * (t - 1) / 2, .inf⟩

/-- Just constructed with `t0 = 0`, `y0 = 0`, `h = 1` and no starting stepper. -/
def ab3s0 : St ℚ 1 (histExtra 2) Unit := ⟨⟨fun _ => 0, fun _ _ => 0, fun _ _ => 0⟩, 1, ()⟩

/-- After one and two steps. -/
def ab3s1 : St ℚ 1 (histExtra 2) Unit := ⟨⟨![0, 0, 1], fun _ _ => 0, fun _ _ => 0⟩, 1, ()⟩
def ab3s2 : St ℚ 1 (histExtra 2) Unit := ⟨⟨![0, 1, 2], fun _ _ => 0, ![fun _ => 0, fun _ => 0, fun _ => 1]⟩, 1, ()⟩

theorem ab3_constructed : Constructed ab3 ab3s0 := by
  refine .explicitMultistep AdamsBashforth3 _ .inf ab3s0.cache ⟨1/100, 0, 50⟩ (fun _ => []) .none 0 (fun _ => 0)
    (some 1) ab3s0 ?_
  have e : ∀ m, Buffer.pushN ab3s0.cache 0 (fun _ => 0) (fun _ => 0) m = ab3s0.cache := by
    intro m
    induction m with
    | zero => rfl
    | succ m ih =>
      rw [Buffer.pushN, ih]
      unfold Buffer.push ab3s0 shiftIn
      congr 1 <;> (funext i; simp)
  have e1 : Buffer.init ab3s0.cache 0 (fun _ => 0) (fun _ => 0) = ab3s0.cache := e _
  have e3 : solverInit ab3s0.cache () ab3.rhs 0 (fun _ => 0) (some 1) = .ok ab3s0 := by
    unfold solverInit
    have : ab3.rhs 0 (fun _ => 0) = .ok (fun _ => 0) := by
      simp only [ab3, pureRhs]; norm_num
    rw [this]
    simp only [bind, Except.bind, pure, Except.pure, Option.getD_some, e1]
    rfl
  unfold multistepInit
  have e4 : solverInit ab3s0.cache () (pureRhs fun t _ _ => t * (t - 1) / 2) 0 (fun _ => 0) (some 1) = .ok ab3s0 := e3
  rw [e4]
  simp only [OfNat.ofNat_ne_zero, if_false]
  have e2 := e (histExtra 2 + 1)
  show some (Except.ok _) = _
  congr 2
  show (⟨Buffer.pushN ab3s0.cache 0 (fun _ => 0) (fun _ => 0) _, _, _⟩ : St ℚ 1 (histExtra 2) Unit) = _
  rw [e2]

theorem ab3_takes01 : Takes ab3 ab3s0 ab3s1 := by
  unfold Takes
  change (explicitMultistepBody AdamsBashforth3 ab3.rhs).run _ = _
  rw [explicitMultistepBody_run]
  have e : multistepK (AdamsBashforth3 (α := ℚ)) ab3s0.cache ab3s0.h = fun _ => 0 := by
    funext i
    simp [multistepK, vdot, lastRows, AdamsBashforth3, adamsA, ab3s0, histExtra, Fin.foldl_succ]
  rw [e]
  have e1 : ab3s0.t + ab3s0.h = 1 := by show (0 : ℚ) + 1 = 1; norm_num
  rw [e1]
  have e2 : ab3.rhs 1 (fun _ => 0) = .ok (fun _ => 0) := by simp only [ab3, pureRhs]; norm_num
  rw [e2]
  simp only [Option.some.injEq, Prod.mk.injEq, true_and]
  unfold ab3s0 ab3s1 Buffer.push
  congr 1
  congr 1 <;> (funext i; fin_cases i <;> simp [shiftIn, histExtra])

theorem ab3_takes12 : Takes ab3 ab3s1 ab3s2 := by
  unfold Takes
  change (explicitMultistepBody AdamsBashforth3 ab3.rhs).run _ = _
  rw [explicitMultistepBody_run]
  have e : multistepK (AdamsBashforth3 (α := ℚ)) ab3s1.cache ab3s1.h = fun _ => 0 := by
    funext i
    simp [multistepK, vdot, lastRows, AdamsBashforth3, adamsA, ab3s1, histExtra, Fin.foldl_succ]
  rw [e]
  have e1 : ab3s1.t + ab3s1.h = 2 := by show (1 : ℚ) + 1 = 2; norm_num
  rw [e1]
  have e2 : ab3.rhs 2 (fun _ => 0) = .ok (fun _ => 1) := by simp only [ab3, pureRhs]; norm_num
  rw [e2]
  simp only [Option.some.injEq, Prod.mk.injEq, true_and]
  unfold ab3s1 ab3s2 Buffer.push
  congr 1
  congr 1 <;> (funext i; fin_cases i <;> simp [shiftIn, histExtra])

end Demo

open Demo in
/-- **C22 refuted** for histories of three or more points: `AdamsBashforth3` two steps after its construction. At the recorded
time `1` the recorded state is `0`, and `interpolate(1)` returns `-1/4`. -/
theorem C22_refuted : ∃ (S : Solver ℚ 1 (histExtra 2) Unit) (s0 s : St ℚ 1 (histExtra 2) Unit)
    (l : List (St ℚ 1 (histExtra 2) Unit)), Constructed S s0 ∧ Path S S.tBound s0 l s ∧
    ∃ (j : Fin (histExtra 2 + 2)) (r : Ref ℚ 1 (histExtra 2)) (s' : St ℚ 1 (histExtra 2) Unit),
      (S.interpolate (s.cache.ts j)).run s = some (.ok r, s') ∧ s.cache.ys j 0 = 0 ∧
      r.deref s.cache 0 = -1/4 := by
  refine ⟨ab3, ab3s0, ab3s2, [ab3s1, ab3s2], ab3_constructed,
    .cons trivial ab3_takes01 (.cons trivial ab3_takes12 (.nil _)), ⟨1, by decide⟩, ?_⟩
  have e0 : ab3s2.cache.ts (Buffer.iOld _) = 0 := rfl
  have e1 : ab3s2.cache.ts ⟨1, by decide⟩ = 1 := rfl
  have e2 : ab3s2.t = 2 := rfl
  have hlt : ab3s2.cache.ts (Buffer.iOld _) < ab3s2.t := by rw [e0, e2]; norm_num
  obtain ⟨r, hr, hv⟩ := hermite_value (t := 1) hlt
  refine ⟨r, ab3s2, ?_, rfl, ?_⟩
  · rw [e1, interpolate_inside (by rw [e0]; norm_num) (by rw [e2]; norm_num)]
    exact hr
  · have f0 : ab3s2.cache.fs (Buffer.iOld _) 0 = 0 := rfl
    have f1 : ab3s2.f 0 = 1 := rfl
    have y0 : ab3s2.cache.ys (Buffer.iOld _) 0 = 0 := rfl
    have y1 : ab3s2.y 0 = 0 := rfl
    rw [hv, e0, e2, f0, f1, y0, y1]
    norm_num

-- C22, C23: the demo solver after one step; and the history `(0, 0), (2, 8)` of the cubic `t ^ 3`.
example : Demo.s1.cache.ts (Buffer.iOld _) < Demo.s1.t := by
  show (0 : ℚ) < 1/2
  norm_num

example : ∃ r s', ((Demo.euler .inf).interpolate 1).run (Demo.st2 0 0 0 2 8 12) = some (.ok r, s') ∧
    ∀ i, r.deref (Demo.st2 0 0 0 2 8 12).cache i = 1 := by
  obtain ⟨r, s', h, hv⟩ := C23_reproduces_cubics (Demo.euler .inf) (.explicitMultistep _) (Demo.st2 0 0 0 2 8 12)
    (by show (0 : ℚ) < 2; norm_num) (fun _ => Polynomial.X ^ 3) (fun i => by simp)
    (fun i => by show (0 : ℚ) = eval 0 _; norm_num)
    (fun i => by show (0 : ℚ) = eval 0 _; norm_num)
    (fun i => by show (8 : ℚ) = eval 2 _; norm_num)
    (fun i => by show (12 : ℚ) = eval 2 _; norm_num) 1
    (by show (0 : ℚ) ≤ 1; norm_num) (by show (1 : ℚ) ≤ 2; norm_num)
  exact ⟨r, s', h, fun i => by rw [hv]; simp⟩

end Nbkode
