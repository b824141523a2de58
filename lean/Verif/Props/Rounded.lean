import Verif.Proofs.Rounded
import Verif.Proofs.Floats
import Verif.Proofs.RunStates
import Verif.Proofs.FloatDemo
import Verif.Props.Run
import Verif.Props.RealLib

/-!
# C84: machine numbers, the clock and `run`

The solver computes with the machine numbers `Num φ` of any rounding `φ` that keeps the order, see `Spec/Rounded.lean`. For
variable-step methods products of positive step sizes and factors must not be rounded to zero (`NoUnderflow`).
-/

set_option autoImplicit false
set_option linter.unusedSectionVars false

namespace Nbkode
open Py Spec Solver

variable {φ : Rounding} {n k : Nat} {X : Type}

/-- **C84**, one step: the time does not decrease and is not beyond `t + h`, and the step size stays positive. -/
theorem C84_step (S : Solver (Num φ) n k X) (hM : WellConfigured S.method) (hU : IsFixed S.method ∨ φ.NoUnderflow)
    (s s' : St (Num φ) n k X) (hh : 0 < s.h) (h : Takes S s s') : s.t ≤ s'.t ∧ s'.t ≤ s.t + s.h ∧ 0 < s'.h := by
  obtain ⟨h1, h2⟩ := num_time hM hU _ _ _ _ h hh
  obtain ⟨q, hq, hq1, e⟩ := h2 rfl
  rw [e]
  exact ⟨Num.le_add _ hq.le, Num.add_le_add _ hq1, h1⟩

/-- **C84**, any session, also with failing calls: the step size stays positive and the time never decreases. -/
theorem C84_session (S : Solver (Num φ) n k X) (hM : WellConfigured S.method) (hU : IsFixed S.method ∨ φ.NoUnderflow)
    (bo : BisectOpts (Num φ)) (argsort : List (Num φ) → List Nat) (s s' : St (Num φ) n k X) (hh : 0 < s.h)
    (h : Session S bo argsort s s') : 0 < s'.h ∧ s.t ≤ s'.t := by
  refine session_invariant (fun x => 0 < x.h ∧ s.t ≤ x.t) ?_ h ⟨hh, le_refl _⟩
  intro x x' hp ⟨hx, hle⟩
  cases hp with
  | @body r b hb hf h =>
    cases r with
    | error e =>
      refine ⟨(num_time hM hU _ _ _ _ h hx).1, ?_⟩
      unfold St.t at *
      rw [(library_of hM).shaped.body_err _ _ _ _ h]; exact hle
    | ok u =>
      obtain ⟨h1, -, h2⟩ := C84_step S hM hU _ _ hx h
      exact ⟨h2, hle.trans h1⟩
  | interp t h =>
    obtain ⟨h1, h2⟩ := (library_of hM).shaped.interp _ _ _ _ _ h
    unfold St.t at *
    rw [h1, h2]; exact ⟨hx, hle⟩

/-- **C84**, the bound: the time is not past `t_bound` after any session if it was not before. -/
theorem C84_bound (S : Solver (Num φ) n k X) (hM : WellConfigured S.method) (hU : IsFixed S.method ∨ φ.NoUnderflow)
    (bo : BisectOpts (Num φ)) (argsort : List (Num φ) → List Nat) (s s' : St (Num φ) n k X) (hh : 0 < s.h)
    (hs : ¬ Past S.tBound s) (h : Session S bo argsort s s') : ¬ Past S.tBound s' := by
  refine (session_invariant (fun x => 0 < x.h ∧ ¬ Past S.tBound x) ?_ h ⟨hh, hs⟩).2
  intro x x' hp ⟨hx, hle⟩
  cases hp with
  | @body r b hb hf h =>
    cases r with
    | error e =>
      refine ⟨(num_time hM hU _ _ _ _ h hx).1, ?_⟩
      unfold Past St.t at *
      rw [(library_of hM).shaped.body_err _ _ _ _ h]; exact hle
    | ok u =>
      obtain ⟨-, h1, h2⟩ := C84_step S hM hU _ _ hx h
      refine ⟨h2, ?_⟩
      unfold Past Allowed Beyond Fits NotBeyond at *
      cases hT : S.tBound with
      | inf => simp
      | fin tb =>
        rw [hT] at hb
        cases b with
        | inf => simp at hb
        | fin b =>
          simp only [Bound.fin.injEq, not_lt, decide_eq_false_iff_not] at *
          rcases hb with rfl | hb
          · exact h1.trans hf
          · exact h1.trans (hf.trans hb)
  | interp t h =>
    obtain ⟨h1, h2⟩ := (library_of hM).shaped.interp _ _ _ _ _ h
    unfold Past St.t at *
    rw [h1, h2]; exact ⟨hx, hle⟩

theorem num_path_le {S : Solver (Num φ) n k X} (hM : Forward S) {b : Bound (Num φ)} {s s' : St (Num φ) n k X}
    {l : List (St (Num φ) n k X)} (hh : 0 < s.h) (hp : Path S b s l s') : List.Pairwise (· ≤ ·) (s.t :: l.map St.t) := by
  induction hp with
  | nil => simp
  | @cons s s1 s2 l hf ht _ ih =>
    obtain ⟨h1, h2⟩ := hM.step _ _ hh ht
    have ih := ih h2
    rw [List.map_cons, List.pairwise_cons]
    refine ⟨?_, ih⟩
    intro a ha
    rcases List.mem_cons.mp ha with rfl | ha
    · exact h1
    · exact h1.trans ((List.pairwise_cons.mp ih).1 a ha)

/-- **C84**, one call: the times returned by any `step` call are in order and not before the starting time. -/
theorem C84_step_times (S : Solver (Num φ) n k X) (hM : WellConfigured S.method) (hU : IsFixed S.method ∨ φ.NoUnderflow)
    (m : Option Nat) (u : Option (Bound (Num φ))) (s s' : St (Num φ) n k X) (hh : 0 < s.h) (out : List (Num φ × Vec (Num φ) n))
    (h : (S.step (m.map Int.ofNat) u).run s = some (.ok (.arrays out), s')) :
    List.Pairwise (· ≤ ·) (s.t :: out.map Prod.fst) := by
  rcases step_arrays S m u s s' out h with rfl | ⟨b, l, s1, hp, rfl⟩
  · simp
  · have := num_path_le (num_forward hM hU) hh hp
    rw [List.map_map]
    exact this

/-- **C84**, `run`: each state returned is the dense output, at the requested time, of the solver at the first step not before
that time; asked for that time alone, `run` gives the same pair. -/
theorem C84_run (S : Solver (Num φ) n k X) (hM : WellConfigured S.method) (hU : IsFixed S.method ∨ φ.NoUnderflow)
    (bo : BisectOpts (Num φ)) (argsort : List (Num φ) → List Nat) (hA : ∀ l, IsArgsort l (argsort l)) (s0 s : St (Num φ) n k X)
    (hc : Constructed S s0) (ho : Ordered s0) (hh : 0 < s0.h) (hs : CleanSession S bo argsort s0 s)
    (ts : List (Num φ)) (out : List (Num φ × Vec (Num φ) n)) (s' : St (Num φ) n k X)
    (h : (S.run bo argsort ts).run s = some (.ok out, s')) :
    out.map Prod.fst = ts.take out.length ∧
    ∀ p ∈ out, (∃ s1 r s2, Reach S S.tBound p.1 s s1 ∧
      (S.interpolate p.1).run s1 = some (.ok r, s2) ∧ r.deref s1.cache = p.2) ∧
      ∃ s1, (S.run bo argsort [p.1]).run s = some (.ok [p], s1) :=
  ⟨C16_run_times S (library_of hM) bo argsort hA ts s s' out h, fun p hp =>
    ⟨run_interpolant S (num_forward hM hU) bo argsort hA s0 s hc ho hh hs ts out s' h p hp,
      run_alone S (num_forward hM hU) bo argsort hA s0 s hc ho hh hs ts out s' h p hp⟩⟩

/-- **C84**, resuming: running to `a` and then to `b` is running to both, bit for bit. -/
theorem C84_resume (S : Solver (Num φ) n k X) (hM : WellConfigured S.method) (hU : IsFixed S.method ∨ φ.NoUnderflow)
    (bo : BisectOpts (Num φ)) (argsort : List (Num φ) → List Nat) (hA : ∀ l, IsArgsort l (argsort l)) (a b : List (Num φ))
    (hne : a ≠ []) (hneb : b ≠ []) (hs : (a ++ b).Pairwise (· ≤ ·))
    (s : St (Num φ) n k X) (ho : Ordered s) (hh : 0 < s.h) (hr : InRange S s (a ++ b)) :
    (S.run bo argsort (a ++ b)).run s =
      andThen ((S.run bo argsort a).run s) fun oa s1 =>
        andThen ((S.run bo argsort b).run s1) fun ob s2 => some (.ok (oa ++ ob), s2) :=
  run_append S (num_forward hM hU) bo argsort hA a b hne hneb hs s ho hh hr

/-! ### Double precision -/

namespace Demo

/-- `ForwardEuler` for `y' = y` in double precision. -/
noncomputable def doubleEuler : Solver (Num double) 1 (histExtra 0) Unit :=
  ⟨explicitMultistep ForwardEuler, pureRhs fun _ y => y, .inf⟩

/-- Just constructed with `t0`, `y0 = 1` and step `h`. -/
noncomputable def doubleStart (t0 h : Num double) : St (Num double) 1 (histExtra 0) Unit :=
  eulerAt (fun _ y => y) t0 (fun _ => 1) h

theorem double_pow (i : ℕ) : (Num.of double (2 ^ i)).val = 2 ^ i := by
  refine double.round_self _ ⟨1, i, by norm_num, ?_, by simp⟩
  intro j hj
  cases hj
  omega

theorem double_accurate : double.Accurate ((2⁻¹) ^ 53) (2 ^ ((-1074 : ℤ) - 1)) :=
  binary_accurate_gradual 53 (by norm_num) (-1074) (by simp)

theorem val_tenth : (Num.of double (1 / 10)).val = 3602879701896397 / 2 ^ 55 := double_tenth

theorem tenth_pos : 0 < Num.of double (1 / 10) := by
  rw [Num.lt_iff, Num.val_zero, val_tenth]; positivity

/-- `np.sqrt` and powers of machine numbers, rounded; solving linear systems is not needed here. -/
noncomputable def numLib (φ : Rounding) : Lib (Num φ) where
  sqrt := fun x => Num.of φ (Real.sqrt x.val)
  pow := fun x e => Num.of φ (x.val ^ e.val)
  solve := fun _ _ => .error .linAlgError

theorem numLib_powLaw {φ : Rounding} (h : φ.NoUnderflow) : PowLaw (numLib φ) where
  one_le := fun x e hx he => by
    rw [Num.le_iff, Num.val_one] at *
    rw [Num.val_zero] at he
    show 1 ≤ φ.round _
    rw [← φ.round_self 1 φ.one_mem]
    exact φ.monotone (Real.one_le_rpow hx he)
  pos := fun x e hx => by
    rw [Num.lt_iff, Num.val_zero] at *
    exact h _ (Real.rpow_pos_of_pos hx _)

end Demo


open Demo in
/-- Non-vacuity, fixed steps: two steps in double precision are a session, and the time is not decreased. -/
example (bo : BisectOpts (Num double)) (argsort : List (Num double) → List Nat) :
    ∃ s' out, (doubleEuler.step (some 2) none).run (doubleStart 0 (Num.of double (1 / 10))) = some (.ok (.arrays out), s') ∧
      out.length = 2 ∧ List.Pairwise (· ≤ ·) (0 :: out.map Prod.fst) ∧ 0 ≤ s'.t := by
  set s0 := doubleStart 0 (Num.of double (1 / 10)) with hs0
  obtain ⟨s1, h1, h2, h3, h4⟩ := euler_takes_time (fun _ (y : Vec (Num double) 1) => y) .inf s0
  obtain ⟨s2, g1, g2, g3, -⟩ := euler_takes_time (fun _ (y : Vec (Num double) 1) => y) .inf s1
  have hp : Path doubleEuler .inf s0 [s1, s2] s2 := .cons trivial h1 (.cons trivial g1 (.nil _))
  have hr : (doubleEuler.step (some 2) none).run s0 = some (.ok (.arrays [record s1, record s2]), s2) := by
    have := step_n_run doubleEuler 2 s0
    rw [show ((2 : ℕ) : ℤ) = 2 from rfl] at this
    have h5 := nstepsLoop_ok (S := doubleEuler) (m := 2) |>.mpr ⟨[s1, s2], hp, rfl, Or.inl ⟨rfl, rfl⟩⟩
    rw [this, show doubleEuler.tBound = .inf from rfl, h5]
    rfl
  have hM : WellConfigured doubleEuler.method := Or.inl (.explicitMultistep _)
  refine ⟨s2, _, hr, rfl, C84_step_times doubleEuler hM (Or.inl (.explicitMultistep _)) (some 2) none s0 s2 tenth_pos _ hr, ?_⟩
  exact (C84_session doubleEuler hM (Or.inl (.explicitMultistep _)) bo argsort s0 s2 tenth_pos
    (.call (.step (some 2) none) (.ok ()) (.start _) (by simp [Call.exec, hr]))).2

namespace Demo

theorem val_nat_pos {φ : Rounding} {m : ℕ} (hm : 1 ≤ m) : 1 ≤ ((m : Num φ)).val := by
  show 1 ≤ φ.round m
  rw [← φ.round_self 1 φ.one_mem]
  exact φ.monotone (by exact_mod_cast hm)

/-- The default options are sane in every arithmetic without underflow. -/
theorem numDefault_sane {φ : Rounding} (h : φ.NoUnderflow) : SaneOptions (VarOptions.default : VarOptions (Num φ)) := by
  have hq : ∀ a b : ℕ, 1 ≤ a → a ≤ b → 0 < ((a : Num φ) / (b : Num φ)) ∧ ((a : Num φ) / (b : Num φ)) ≤ 1 := by
    intro a b ha hab
    have h1 := val_nat_pos (φ := φ) ha
    have h2 : (a : Num φ).val ≤ (b : Num φ).val := φ.monotone (by exact_mod_cast hab)
    constructor
    · rw [Num.lt_iff, Num.val_zero]
      exact h _ (div_pos (by linarith) (by linarith))
    · rw [Num.le_iff, Num.val_one]
      show φ.round _ ≤ 1
      rw [← φ.round_self 1 φ.one_mem]
      refine φ.monotone ?_
      rw [div_le_one (by linarith)]
      exact h2
  have h1 : ((1 : ℕ) : Num φ) = 1 := by
    apply Num.ext
    rw [Num.val_one]
    show φ.round ((1 : ℕ) : ℝ) = 1
    rw [Nat.cast_one, φ.round_self 1 φ.one_mem]
  constructor
  · have := (hq 1 5 (by norm_num) (by norm_num)).1
    rwa [h1] at this
  · have := (hq 1 5 (by norm_num) (by norm_num)).2
    rwa [h1] at this
  · rw [Num.lt_iff, Num.val_zero]
    exact lt_of_lt_of_le one_pos (val_nat_pos (m := 10) (by norm_num))
  · exact (hq 9 10 (by norm_num) (by norm_num)).2

/-- `RungeKutta45` with the default options, rounded to 53 binary digits. -/
noncomputable def wideRK45 : Solver (Num wideDouble) 2 0 (FsalAux (Num wideDouble) 2 5 (RkItp (Num wideDouble) 2 4)) :=
  ⟨fsal (numLib wideDouble) .default RungeKutta45, pureRhs fun _ y => y, .fin 1⟩

theorem wide_noUnderflow : wideDouble.NoUnderflow := binary_noUnderflow 53 (by norm_num) (by simp)

theorem wideRK45_ok : WellConfigured wideRK45.method := by
  refine Or.inr ⟨_, _, _, .fsal _, numLib_powLaw wide_noUnderflow, numDefault_sane wide_noUnderflow, ?_⟩
  rw [Num.le_iff, Num.val_zero]
  refine (wide_noUnderflow _ (div_pos ?_ ?_)).le
  · exact lt_of_lt_of_le one_pos (val_nat_pos (m := 1) (le_refl _))
  · exact lt_of_lt_of_le one_pos (val_nat_pos (m := 5) (by norm_num))

end Demo

open Demo in
/-- Non-vacuity, variable steps: for `RungeKutta45` with the default options and 53 binary digits no session takes the time past
`t_bound` or leaves a step size that is not positive. -/
example (bo : BisectOpts (Num wideDouble)) (argsort : List (Num wideDouble) → List Nat) (s s') (hh : 0 < s.h)
    (h0 : ¬ Past (.fin 1) s) (h : Session wideRK45 bo argsort s s') : ¬ Past (.fin 1) s' ∧ 0 < s'.h :=
  ⟨C84_bound wideRK45 wideRK45_ok (Or.inr wide_noUnderflow) bo argsort s s' hh h0 h,
    (C84_session wideRK45 wideRK45_ok (Or.inr wide_noUnderflow) bo argsort s s' hh h).1⟩

namespace Demo

/-- The first step of `doubleEuler` from 0 with step `0.1`, and the dense output at its end. -/
theorem double_first : ∃ s1 r, Takes doubleEuler (doubleStart 0 (Num.of double (1 / 10))) s1 ∧ s1.t = Num.of double (1 / 10) ∧
    (doubleEuler.interpAt (Num.of double (1 / 10))).run s1 = some (.ok r, s1) ∧
    (doubleEuler.interpolate (Num.of double (1 / 10))).run s1 = some (.ok r, s1) := by
  set h := Num.of double (1 / 10) with hh
  set s0 := doubleStart 0 h with hs0
  obtain ⟨s1, h1, h2, h3, h4⟩ := euler_takes_time (fun _ (y : Vec (Num double) 1) => y) .inf s0
  have e1 : s0.t + s0.h = h := by
    apply Num.ext
    rw [Num.val_add, show s0.t.val = 0 from Num.val_zero, zero_add]
    exact double.round_self _ (Num.val_mem h)
  rw [e1] at h2
  obtain ⟨r, hi⟩ : ∃ r, (doubleEuler.interpAt h).run s1 = some (.ok r, s1) := by
    show ∃ r, (hermiteInterp h : Py _ _).run s1 = _
    unfold hermiteInterp
    have a1 : s1.cache.t = h := h2
    have a0 : s1.cache.ts (Buffer.iOld _) = 0 := h4
    have a2 : h - 0 = h := by
      apply Num.ext
      rw [Num.val_sub, Num.val_zero, sub_zero]
      exact double.round_self _ (Num.val_mem h)
    have a3 : h ≠ 0 := ne_of_gt tenth_pos
    simp only [run_bind, run_get, andThen_ok, run_ite, run_pure, run_ofExcept, a0, a1, a2, pyDiv, beq_iff_eq, a3, if_false]
    exact ⟨_, rfl⟩
  refine ⟨s1, r, h1, h2, hi, ?_⟩
  rw [interpolate_inside]
  · exact hi
  · have a0 : s1.cache.ts (Buffer.iOld _) = 0 := h4
    rw [a0]; exact tenth_pos.le
  · exact h2.ge

theorem double_inRange : InRange doubleEuler (doubleStart 0 (Num.of double (1 / 10))) [Num.of double (1 / 10)] := by
  intro x hx
  rw [List.mem_singleton] at hx
  subst hx
  exact ⟨tenth_pos.le, trivial⟩

end Demo

open Demo in
/-- Non-vacuity of `C84_run`: `run([0.1])` on the solver just constructed answers. -/
example : ∃ (bo : BisectOpts (Num double)) (argsort : List (Num double) → List Nat), (∀ l, IsArgsort l (argsort l)) ∧
    ∃ s0 s' out, Constructed doubleEuler s0 ∧ Ordered s0 ∧ 0 < s0.h ∧ CleanSession doubleEuler bo argsort s0 s0 ∧
      (doubleEuler.run bo argsort [Num.of double (1 / 10)]).run s0 = some (.ok out, s') ∧ out.length = 1 := by
  obtain ⟨f, hf⟩ := exists_argsort (α := Num double)
  obtain ⟨s1, r, h1, h2, hi, -⟩ := double_first
  set h := Num.of double (1 / 10) with hh
  set s0 := doubleStart 0 h with hs0
  have hlt : s0.t < h := tenth_pos
  refine ⟨⟨0, 0, 0⟩, f, hf, s0, s1, [(h, r.deref s1.cache)], constructed_eulerAt _ _ _ _ _, fun _ _ _ => le_refl _, tenth_pos,
    .start _, ?_, rfl⟩
  rw [run_eq (IsFixed.shaped (.explicitMultistep _)).toShaped _ hf (by simp) (show InRange doubleEuler s0 [h] from double_inRange)]
  have hs : isSorted [h] = true := by simp [isSorted_iff]
  unfold sortedTimes
  simp only [hs, if_true]
  have hf : Fits doubleEuler.tBound s0 := trivial
  rw [runEval_cons, advance_true (S := doubleEuler) |>.mpr (.step (s1 := s1) hlt hf h1 (.here (by rw [h2]; exact lt_irrefl _)))]
  simp only [andThen_ok, if_true]
  rw [hi]
  rfl

open Demo in
/-- Non-vacuity of `C84_resume`. -/
example (bo : BisectOpts (Num double)) (argsort : List (Num double) → List Nat) (hA : ∀ l, IsArgsort l (argsort l)) :
    (doubleEuler.run bo argsort ([0] ++ [Num.of double (1 / 10)])).run (doubleStart 0 1) =
      andThen ((doubleEuler.run bo argsort [0]).run (doubleStart 0 1)) fun oa s1 =>
        andThen ((doubleEuler.run bo argsort [Num.of double (1 / 10)]).run s1) fun ob s2 => some (.ok (oa ++ ob), s2) := by
  refine C84_resume doubleEuler (Or.inl (.explicitMultistep _)) (Or.inl (.explicitMultistep _)) bo argsort hA _ _ (by simp)
    (by simp) (by simpa using tenth_pos.le) _ (fun _ _ _ => le_refl _) ?_ ?_
  · show (0 : Num double) < 1
    rw [Num.lt_iff, Num.val_zero, Num.val_one]; norm_num
  · intro x hx
    refine ⟨?_, trivial⟩
    simp only [List.cons_append, List.nil_append, List.mem_cons, List.not_mem_nil, or_false] at hx
    rcases hx with rfl | rfl
    · exact le_refl _
    · exact tenth_pos.le

end Nbkode
