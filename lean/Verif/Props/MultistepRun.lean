import Verif.Proofs.MultistepRun
import Verif.Props.Failures
import Verif.Props.Grid

/-!
# Convergence of `run` with multistep methods: C81

`run` interpolates with the cubic through the oldest and the newest recorded point, up to six steps apart; the error of this cubic is
of order 4 in `h`, so `run` keeps the order of the methods up to order 4.
-/

set_option autoImplicit false
set_option linter.unusedSectionVars false

namespace Nbkode
open Py Spec Solver

variable {n p m k : ℕ} {X : Type}

/-! ### In general -/

/-- **C81**, explicit methods in general: a zero-stable formula which is exact on polynomials of degree `q`, `1 ≤ q ≤ 4`, started by a
fixed-step Runge-Kutta method of order `r ≥ q - 1`, gives a `run` which converges with order `q`. -/
theorem C81_explicit (hp : p ≠ 0) {q r : ℕ} (hr : 1 ≤ r) (hrq : r ≤ q) (hqr : q ≤ r + 1) (hq : q ≤ 4) (c : MultistepCoef ℝ p)
    (hc : c.Bn = 0) (hst : ZeroStable c) (hx : ExactOnPolynomials c q) (b : Bound ℝ) {T : Tableau ℝ m} (hT : Explicit T)
    (hR : RowSums T) (hB : OrderConditions T.A T.B r) (g : Buffer ℝ n (histExtra p)) (bo : BisectOpts ℝ)
    (argsort : List ℝ → List Nat) (gs : Buffer ℝ n 0) (K : ErkAux ℝ n m) :
    RunStartConverges (fun rhs t y h => multistepInit g bo argsort (erkStarter T gs K) rhs t y (some h))
      (fun rhs => ⟨explicitMultistep c, rhs, b⟩) q :=
  run_start_converges (hr.trans hrq) hq (fun _ => .explicitMultistep c)
    (fun rhs _ _ _ s h => .explicitMultistep c rhs b g bo argsort _ _ _ _ s h)
    (erk_starts_near hp hr hrq hqr hT hR hB g bo argsort gs K)
    (C71_explicit hp hr hrq hqr (C70_explicit (hr.trans hrq) c hc hst hx b) hT hR hB g bo argsort gs K)
    (fun f u v h => by
      obtain ⟨y', e, -⟩ := explicit_within c hc b f u v h
      exact ⟨y', e⟩)

/-- **C81**, implicit methods in general. -/
theorem C81_implicit (hp : p ≠ 0) {q r : ℕ} (hr : 1 ≤ r) (hrq : r ≤ q) (hqr : q ≤ r + 1) (hq : q ≤ 4) (c : MultistepCoef ℝ p)
    (hst : ZeroStable c) (hx : ExactOnPolynomials c q) (lib : Lib ℝ) (hlib : ∀ x, lib.sqrt x = Real.sqrt x) (b : Bound ℝ)
    {T : Tableau ℝ m} (hT : Explicit T) (hR : RowSums T) (hB : OrderConditions T.A T.B r) (g : Buffer ℝ n (histExtra p))
    (bo : BisectOpts ℝ) (argsort : List ℝ → List Nat) (gs : Buffer ℝ n 0) (K : ErkAux ℝ n m) :
    RunStartConvergesWithin (fun rhs t y h => multistepInit g bo argsort (erkStarter T gs K) rhs t y (some h))
      (fun zo rhs => ⟨implicitMultistep lib zo c, rhs, b⟩) q :=
  run_start_converges_within (hr.trans hrq) hq (fun _ _ => .implicitMultistep lib _ c)
    (fun zo rhs _ _ _ s h => .implicitMultistep lib zo c rhs b g bo argsort _ _ _ _ s h)
    (erk_starts_near hp hr hrq hqr hT hR hB g bo argsort gs K)
    (C71_implicit hp hr hrq hqr (C70_implicit c hst hx lib hlib b) hT hR hB g bo argsort gs K)
    (fun f L hL0 hL => by
      obtain ⟨δ, hδ, h⟩ := implicit_within hlib c b f L hL0 hL
      exact ⟨δ, hδ, fun zo hzo u v h0 h1 htk => by
        obtain ⟨y', e, -⟩ := h zo hzo u v h0 h1 htk
        exact ⟨y', e⟩⟩)

/-- **C81**, one-step formulas: no starter is involved. -/
theorem C81_single_implicit {q : ℕ} (hq1 : 1 ≤ q) (hq : q ≤ 4) (c : MultistepCoef ℝ 0) (hst : ZeroStable c)
    (hx : ExactOnPolynomials c q) (lib : Lib ℝ) (hlib : ∀ x, lib.sqrt x = Real.sqrt x) (b : Bound ℝ)
    (g : Buffer ℝ n (histExtra 0)) (bo : BisectOpts ℝ) (argsort : List ℝ → List Nat) (starter : Starter ℝ n) :
    RunStartConvergesWithin (p := 0) (fun rhs t y h => multistepInit g bo argsort starter rhs t y (some h))
      (fun zo rhs => ⟨implicitMultistep lib zo c, rhs, b⟩) q :=
  run_start_converges_within hq1 hq (fun _ _ => .implicitMultistep lib _ c)
    (fun zo rhs _ _ _ s h => .implicitMultistep lib zo c rhs b g bo argsort _ _ _ _ s h)
    (single_starts_near q g bo argsort starter)
    (C71_single_implicit (C70_implicit c hst hx lib hlib b) g bo argsort starter)
    (fun f L hL0 hL => by
      obtain ⟨δ, hδ, h⟩ := implicit_within hlib c b f L hL0 hL
      exact ⟨δ, hδ, fun zo hzo u v h0 h1 htk => by
        obtain ⟨y', e, -⟩ := h zo hzo u v h0 h1 htk
        exact ⟨y', e⟩⟩)

/-! ### The methods of the package -/

section named
variable (bo : BisectOpts ℝ) (argsort : List ℝ → List Nat) (lib : Lib ℝ) (hlib : ∀ x, lib.sqrt x = Real.sqrt x)
  (b : Bound ℝ) (gs : Buffer ℝ n 0) (K : ErkAux ℝ n 3)

/-- **C81**, `AdamsBashforth2` to `5` started with `RungeKutta4`: order 1. Missing: their own orders (`C70_AB_refuted`). -/
theorem C81_AB_partial (g2 : Buffer ℝ n (histExtra 1)) (g3 : Buffer ℝ n (histExtra 2)) (g4 : Buffer ℝ n (histExtra 3))
    (g5 : Buffer ℝ n (histExtra 4)) :
    RunStartConverges (fun rhs t y h => multistepInit g2 bo argsort (erkStarter RungeKutta4 gs K) rhs t y (some h))
      (fun rhs => ⟨explicitMultistep AdamsBashforth2, rhs, b⟩) 1 ∧
    RunStartConverges (fun rhs t y h => multistepInit g3 bo argsort (erkStarter RungeKutta4 gs K) rhs t y (some h))
      (fun rhs => ⟨explicitMultistep AdamsBashforth3, rhs, b⟩) 1 ∧
    RunStartConverges (fun rhs t y h => multistepInit g4 bo argsort (erkStarter RungeKutta4 gs K) rhs t y (some h))
      (fun rhs => ⟨explicitMultistep AdamsBashforth4, rhs, b⟩) 1 ∧
    RunStartConverges (fun rhs t y h => multistepInit g5 bo argsort (erkStarter RungeKutta4 gs K) rhs t y (some h))
      (fun rhs => ⟨explicitMultistep AdamsBashforth5, rhs, b⟩) 1 := by
  have hB : OrderConditions RungeKutta4.A RungeKutta4.B 1 := OrderConditions.mono RungeKutta4_tree (by norm_num)
  have ex := RungeKutta4_conditions (α := ℝ) |>.explicit
  exact ⟨C81_explicit (by norm_num) le_rfl le_rfl (by norm_num) (by norm_num) _ rfl (stable_adams _ rfl) C29_AB2_partial b ex
      RungeKutta4_rows hB _ _ _ _ _,
    C81_explicit (by norm_num) le_rfl le_rfl (by norm_num) (by norm_num) _ rfl (stable_adams _ rfl) C29_AB3_partial b ex
      RungeKutta4_rows hB _ _ _ _ _,
    C81_explicit (by norm_num) le_rfl le_rfl (by norm_num) (by norm_num) _ rfl (stable_adams _ rfl) C29_AB4_partial b ex
      RungeKutta4_rows hB _ _ _ _ _,
    C81_explicit (by norm_num) le_rfl le_rfl (by norm_num) (by norm_num) _ rfl (stable_adams _ rfl) C29_AB5_partial b ex
      RungeKutta4_rows hB _ _ _ _ _⟩

include hlib

/-- **C81**: `AdamsMoulton1` (`BackwardEuler`), `AdamsMoulton2` and `BDF1`, whatever the starter: orders 1, 2 and 1. -/
theorem C81_single (g : Buffer ℝ n (histExtra 0)) (starter : Starter ℝ n) :
    RunStartConvergesWithin (p := 0) (fun rhs t y h => multistepInit g bo argsort starter rhs t y (some h))
      (fun zo rhs => ⟨implicitMultistep lib zo AdamsMoulton1, rhs, b⟩) 1 ∧
    RunStartConvergesWithin (p := 0) (fun rhs t y h => multistepInit g bo argsort starter rhs t y (some h))
      (fun zo rhs => ⟨implicitMultistep lib zo AdamsMoulton2, rhs, b⟩) 2 ∧
    RunStartConvergesWithin (p := 0) (fun rhs t y h => multistepInit g bo argsort starter rhs t y (some h))
      (fun zo rhs => ⟨implicitMultistep lib zo BDF1, rhs, b⟩) 1 :=
  ⟨C81_single_implicit le_rfl (by norm_num) _ (stable_adams _ rfl) C30_AM1 lib hlib b g bo argsort starter,
    C81_single_implicit (by norm_num) (by norm_num) _ (stable_adams _ rfl) C30_AM2 lib hlib b g bo argsort starter,
    C81_single_implicit le_rfl (by norm_num) _ stable_BDF1 C31_BDF1 lib hlib b g bo argsort starter⟩

/-- **C81**: `AdamsMoulton3`, `BDF2`, `BDF3`, `BDF4` started with `RungeKutta4`: orders 3, 2, 3, 4. -/
theorem C81_started (g2 : Buffer ℝ n (histExtra 1)) (g3 : Buffer ℝ n (histExtra 2)) (g4 : Buffer ℝ n (histExtra 3)) :
    RunStartConvergesWithin (fun rhs t y h => multistepInit g2 bo argsort (erkStarter RungeKutta4 gs K) rhs t y (some h))
      (fun zo rhs => ⟨implicitMultistep lib zo AdamsMoulton3, rhs, b⟩) 3 ∧
    RunStartConvergesWithin (fun rhs t y h => multistepInit g2 bo argsort (erkStarter RungeKutta4 gs K) rhs t y (some h))
      (fun zo rhs => ⟨implicitMultistep lib zo BDF2, rhs, b⟩) 2 ∧
    RunStartConvergesWithin (fun rhs t y h => multistepInit g3 bo argsort (erkStarter RungeKutta4 gs K) rhs t y (some h))
      (fun zo rhs => ⟨implicitMultistep lib zo BDF3, rhs, b⟩) 3 ∧
    RunStartConvergesWithin (fun rhs t y h => multistepInit g4 bo argsort (erkStarter RungeKutta4 gs K) rhs t y (some h))
      (fun zo rhs => ⟨implicitMultistep lib zo BDF4, rhs, b⟩) 4 := by
  have hB : ∀ q ≤ 4, OrderConditions RungeKutta4.A RungeKutta4.B q := fun q hq => OrderConditions.mono RungeKutta4_tree hq
  have ex := RungeKutta4_conditions (α := ℝ) |>.explicit
  exact ⟨C81_implicit (by norm_num) (r := 3) (by norm_num) le_rfl (by norm_num) (by norm_num) _ (stable_adams _ rfl) C30_AM3 lib hlib b
      ex RungeKutta4_rows (hB 3 (by norm_num)) _ _ _ _ _,
    C81_implicit (by norm_num) (r := 2) (by norm_num) le_rfl (by norm_num) (by norm_num) _ stable_BDF2 C31_BDF2 lib hlib b
      ex RungeKutta4_rows (hB 2 (by norm_num)) _ _ _ _ _,
    C81_implicit (by norm_num) (r := 3) (by norm_num) le_rfl (by norm_num) (by norm_num) _ stable_BDF3 C31_BDF3 lib hlib b
      ex RungeKutta4_rows (hB 3 (by norm_num)) _ _ _ _ _,
    C81_implicit (by norm_num) (r := 4) (by norm_num) le_rfl (by norm_num) le_rfl _ stable_BDF4 C31_BDF4 lib hlib b
      ex RungeKutta4_rows (hB 4 le_rfl) _ _ _ _ _⟩

/-- **C81**, `AdamsMoulton4`, `5`, `BDF5` and `BDF6` started with `RungeKutta4`: orders 1, 1, 4 and 4. Missing: the orders 4 and 5 of
the first two (`C70_AM_refuted`), the orders 5 and 6 of the last two, which the interpolation does not keep (`C81_refuted`). -/
theorem C81_started_partial (g4 : Buffer ℝ n (histExtra 2)) (g5 : Buffer ℝ n (histExtra 3)) (g5' : Buffer ℝ n (histExtra 4))
    (g6 : Buffer ℝ n (histExtra 5)) :
    RunStartConvergesWithin (fun rhs t y h => multistepInit g4 bo argsort (erkStarter RungeKutta4 gs K) rhs t y (some h))
      (fun zo rhs => ⟨implicitMultistep lib zo AdamsMoulton4, rhs, b⟩) 1 ∧
    RunStartConvergesWithin (fun rhs t y h => multistepInit g5 bo argsort (erkStarter RungeKutta4 gs K) rhs t y (some h))
      (fun zo rhs => ⟨implicitMultistep lib zo AdamsMoulton5, rhs, b⟩) 1 ∧
    RunStartConvergesWithin (fun rhs t y h => multistepInit g5' bo argsort (erkStarter RungeKutta4 gs K) rhs t y (some h))
      (fun zo rhs => ⟨implicitMultistep lib zo BDF5, rhs, b⟩) 4 ∧
    RunStartConvergesWithin (fun rhs t y h => multistepInit g6 bo argsort (erkStarter RungeKutta4 gs K) rhs t y (some h))
      (fun zo rhs => ⟨implicitMultistep lib zo BDF6, rhs, b⟩) 4 := by
  have hB : ∀ q ≤ 4, OrderConditions RungeKutta4.A RungeKutta4.B q := fun q hq => OrderConditions.mono RungeKutta4_tree hq
  have ex := RungeKutta4_conditions (α := ℝ) |>.explicit
  exact ⟨C81_implicit (by norm_num) (r := 1) le_rfl le_rfl (by norm_num) (by norm_num) _ (stable_adams _ rfl) C30_AM4_partial lib hlib b
      ex RungeKutta4_rows (hB 1 (by norm_num)) _ _ _ _ _,
    C81_implicit (by norm_num) (r := 1) le_rfl le_rfl (by norm_num) (by norm_num) _ (stable_adams _ rfl) C30_AM5_partial lib hlib b
      ex RungeKutta4_rows (hB 1 (by norm_num)) _ _ _ _ _,
    C81_implicit (by norm_num) (r := 4) (by norm_num) le_rfl (by norm_num) le_rfl _ stable_BDF5
      (ExactOnPolynomials.mono C31_BDF5 (show 4 ≤ 5 by norm_num)) lib hlib b ex RungeKutta4_rows (hB 4 le_rfl) _ _ _ _ _,
    C81_implicit (by norm_num) (r := 4) (by norm_num) le_rfl (by norm_num) le_rfl _ stable_BDF6
      (ExactOnPolynomials.mono C31_BDF6 (show 4 ≤ 6 by norm_num)) lib hlib b ex RungeKutta4_rows (hB 4 le_rfl) _ _ _ _ _⟩

end named

/-! ### The interpolation does not keep order 5 -/

/-- A run over one time which is in the recorded history already. -/
theorem run_recorded {S : Solver ℝ n k X} (hb : S.tBound = .inf) (bo : BisectOpts ℝ) (argsort : List ℝ → List Nat) {t : ℝ}
    {s : St ℝ n k X} (h1 : s.cache.ts (Buffer.iOld k) ≤ t) (h2 : t ≤ s.t) {r : Ref ℝ n k}
    (hr : (S.interpolate t).run s = some (.ok r, s)) :
    (S.run bo argsort [t]).run s = some (.ok [(t, r.deref s.cache)], s) := by
  unfold Solver.run runEvents
  simp [isSorted, checkTime, hb, listMax, Bound.gt, not_lt.mpr h1, h2, interpolateAll, hr, runEval]

theorem cubic_smooth (q : ℕ) : ContDiff ℝ q (joint (n := 1) fun t _ _ => 4 * t ^ 3) :=
  contDiff_pi.mpr fun _ => contDiff_const.mul (contDiff_fst.pow 3)

theorem quartic_solves (t : ℝ) : SolvesAt (n := 1) (fun t _ _ => 4 * t ^ 3) (fun t _ => t ^ 4) t := by
  refine hasDerivAt_pi.mpr fun _ => ?_
  simpa using hasDerivAt_pow 4 t

/-- On `y' = 4 t^3`, `y = t^4`, the value in the middle of the history the constructor has made is `0` instead of `(p h / 2)^4`, up to
terms of order 5. -/
theorem run_not_fifth (hp : p ≠ 0) {cls : ZeroOpts ℝ → Rhs ℝ 1 → Solver ℝ 1 (histExtra p) Unit}
    (hM : ∀ zo rhs, IsFixed (cls zo rhs).method) (hb : ∀ zo rhs, (cls zo rhs).tBound = .inf) (g : Buffer ℝ 1 (histExtra p))
    (bo : BisectOpts ℝ) (argsort : List ℝ → List Nat) (gs : Buffer ℝ 1 0) (K : ErkAux ℝ 1 3) :
    ¬ RunStartConvergesWithin (fun rhs t y h => multistepInit g bo argsort (erkStarter RungeKutta4 gs K) rhs t y (some h)) cls 5 := by
  intro hcon
  obtain ⟨C, δ, hδ, hC⟩ := hcon (fun t _ _ => 4 * t ^ 3) (fun t _ => t ^ 4) (-1) 2 0 1 0 (cubic_smooth 5) (by norm_num)
    (by norm_num) (by norm_num) (fun t _ => quartic_solves t) (by simp)
  obtain ⟨D, δ₁, hD, hδ₁, hstart⟩ := erk_start_follows hp (RungeKutta4_conditions (α := ℝ) |>.explicit) RungeKutta4_rows (r := 4)
    (by norm_num) RungeKutta4_tree (f := fun t (_ : Vec ℝ 1) _ => 4 * t ^ 3) (y := fun t _ => t ^ 4) (cubic_smooth 4)
    (a := -1) (b := 2) (t₀ := 0) (T₁ := 1) (by norm_num) (by norm_num) (by norm_num) (fun t _ => quartic_solves t)
  have hp0 : (1 : ℝ) ≤ p := by exact_mod_cast Nat.one_le_iff_ne_zero.mpr hp
  obtain ⟨h, h0, k1, k2, k3, k4⟩ : ∃ h : ℝ, 0 < h ∧ h ≤ δ ∧ h ≤ δ₁ ∧ h ≤ 1 / p ∧ h ≤ 1 / (16 * (|C| + D + 1)) :=
    ⟨min (min δ δ₁) (min (1 / p) (1 / (16 * (|C| + D + 1)))), by positivity, (min_le_left _ _).trans (min_le_left _ _),
      (min_le_left _ _).trans (min_le_right _ _), (min_le_right _ _).trans (min_le_left _ _),
      (min_le_right _ _).trans (min_le_right _ _)⟩
  rw [le_div_iff₀ (by positivity)] at k3 k4
  obtain ⟨st, hst⟩ := C34_erk_starter_succeeds hp RungeKutta4 gs K g bo argsort (fun t (_ : Vec ℝ 1) _ => 4 * t ^ 3) 0
    (fun _ => (0 : ℝ) ^ 4) h
  obtain ⟨e1, e2, e3⟩ := hstart h g bo argsort gs K st h0 k2 hst
  obtain ⟨e4, -⟩ := follows_near hp h0 e1 e2 e3
  have hk : histExtra p + 1 = p := by unfold histExtra; omega
  have hts : st.cache.ts (Buffer.iOld _) = 0 := by
    have h2 := e3.times p le_rfl
    rw [e2, e1] at h2
    have e5 : ago st.cache.ts p = st.cache.ts (Buffer.iOld _) := by
      unfold ago
      congr 1
      exact Fin.ext (by simp only [hk, Nat.sub_self]; rfl)
    rw [← e5, h2]; ring
  have hys := e3.states p le_rfl 0
  have hfs := congrFun (e3.derivs p le_rfl) 0
  have ey : ago st.cache.ys p = st.cache.ys (Buffer.iOld _) := by
    unfold ago
    congr 1
    exact Fin.ext (by simp only [hk, Nat.sub_self]; rfl)
  have ef : ago st.cache.fs p = st.cache.fs (Buffer.iOld _) := by
    unfold ago
    congr 1
    exact Fin.ext (by simp only [hk, Nat.sub_self]; rfl)
  have hys1 := e3.states 0 (Nat.zero_le _) 0
  have hfs1 := congrFun (e3.derivs 0 (Nat.zero_le _)) 0
  rw [e2, e1] at hys hfs hys1 hfs1
  rw [ey] at hys
  rw [ef] at hfs
  rw [show ago st.cache.ys 0 = st.y from rfl] at hys1
  rw [show ago st.cache.fs 0 = st.f from rfl] at hfs1
  set W : ℝ := p * h with hW
  have hW0 : 0 < W := by positivity
  simp only [zero_add, sub_self, Nat.cast_zero, zero_mul, sub_zero] at hys hfs hys1 hfs1
  have ht : st.t = W := by rw [e2, zero_add]
  obtain ⟨rr, hr, hv⟩ := hermite_value (t := W / 2) (s := st) (by rw [hts, ht]; exact hW0)
  set zo : ZeroOpts ℝ := { Demo.realZeros with tol := 0, rtol := 0 } with hzo
  have hin : ((cls zo (pureRhs fun t _ _ => 4 * t ^ 3)).interpolate (W / 2)).run st = some (.ok rr, st) := by
    rw [interpolate_inside (by rw [hts]; positivity) (by rw [ht]; linarith), fixed_interp (hM _ _)]
    exact hr
  obtain ⟨f, hf⟩ := Demo.exists_argsort (α := ℝ)
  have key := hC zo ⟨by norm_num [hzo, Demo.realZeros], le_rfl, rfl⟩ bo f hf h st st [W / 2] _ h0 k1 hst
    (run_recorded (hb _ _) bo f (by rw [hts]; positivity) (by rw [ht]; linarith) hin) _ List.mem_cons_self
    (by simp only; rw [hW]; linarith) 0
  simp only [hzo, zero_div, add_zero] at key
  have hval := hv 0
  rw [hts, ht, hfs, hfs1] at hval
  have e6 : (W / 2 - 0) / (W - 0) = 1 / 2 := by rw [sub_zero, sub_zero]; field_simp
  rw [e6] at hval
  have hval' : rr.deref st.cache 0 = (st.cache.ys (Buffer.iOld _) 0 - 0 ^ 4) / 2 + (st.y 0 - W ^ 4) / 2 := by
    rw [hval]; ring
  rw [hval'] at key
  have b1 := abs_le.mp hys
  have b2 := abs_le.mp hys1
  have b3 := (abs_le.mp key).1
  have h5 : 0 < h ^ 4 := by positivity
  have hW4 : h ^ 4 ≤ W ^ 4 := pow_le_pow_left₀ h0.le (by rw [hW]; nlinarith) 4
  have e7 : (W / 2) ^ 4 = W ^ 4 / 16 := by ring
  have h6 : h ^ 5 = h ^ 4 * h := by ring
  rw [e7] at b3
  norm_num at b1 b2 b3
  rw [h6] at b1 b2 b3
  have h7 : C * (h ^ 4 * h) ≤ |C| * (h ^ 4 * h) := mul_le_mul_of_nonneg_right (le_abs_self _) (by positivity)
  have h8 : h ^ 4 / 16 ≤ (|C| + D) * (h ^ 4 * h) := by linarith [b1.2, b2.2]
  have h9 : h ^ 4 * (h * (16 * (|C| + D + 1))) ≤ h ^ 4 * 1 := mul_le_mul_of_nonneg_left k4 h5.le
  have h10 : 0 < h ^ 4 * h := by positivity
  nlinarith

/-- **C81 refuted** for `BDF5` and `BDF6`: although the steps have orders 5 and 6 (`C70_BDF`), `run` does not have order 5. -/
theorem C81_refuted (bo : BisectOpts ℝ) (argsort : List ℝ → List Nat) (lib : Lib ℝ) (gs : Buffer ℝ 1 0) (K : ErkAux ℝ 1 3)
    (g5 : Buffer ℝ 1 (histExtra 4)) (g6 : Buffer ℝ 1 (histExtra 5)) :
    ¬ RunStartConvergesWithin (fun rhs t y h => multistepInit g5 bo argsort (erkStarter RungeKutta4 gs K) rhs t y (some h))
      (fun zo rhs => ⟨implicitMultistep lib zo BDF5, rhs, .inf⟩) 5 ∧
    ¬ RunStartConvergesWithin (fun rhs t y h => multistepInit g6 bo argsort (erkStarter RungeKutta4 gs K) rhs t y (some h))
      (fun zo rhs => ⟨implicitMultistep lib zo BDF6, rhs, .inf⟩) 5 :=
  ⟨run_not_fifth (by norm_num) (fun _ _ => .implicitMultistep lib _ BDF5) (fun _ _ => rfl) g5 bo argsort gs K,
    run_not_fifth (by norm_num) (fun _ _ => .implicitMultistep lib _ BDF6) (fun _ _ => rfl) g6 bo argsort gs K⟩

/-! ### Runs exist -/

theorem path_reaches {S : Solver ℝ n k X} {b : Bound ℝ} {t : ℝ} {s v : St ℝ n k X} {l : List (St ℝ n k X)} (h : Path S b s l v)
    (ht : ¬ v.t < t) : ∃ s1, Reach S b t s s1 := by
  induction h with
  | nil s => exact ⟨s, .here ht⟩
  | @cons s s1 v l hf htk _ ih =>
    by_cases hs : s.t < t
    · obtain ⟨s2, h2⟩ := ih ht
      exact ⟨s2, .step hs hf htk h2⟩
    · exact ⟨s, .here hs⟩

/-- A run over one time which can be reached, with a fixed-step method. -/
theorem run_one {S : Solver ℝ n k X} (hM : IsFixed S.method) (hb : S.tBound = .inf) (bo : BisectOpts ℝ) (argsort : List ℝ → List Nat)
    {t : ℝ} {s s1 : St ℝ n k X} (ho : Ordered s) (hh : 0 < s.h) (h1 : s.cache.ts (Buffer.iOld k) ≤ t) (hr : Reach S .inf t s s1) :
    ∃ z, (S.run bo argsort [t]).run s = some (.ok [(t, z)], s1) := by
  have hex : ∀ w : St ℝ n k X, w.cache.ts (Buffer.iOld k) ≤ t → t ≤ w.t →
      ∃ r, (hermiteInterp t : Py (St ℝ n k X) _).run w = some (.ok r, w) := by
    intro w a1 a2
    rcases (a1.trans a2).lt_or_eq with hlt | heq
    · exact (hermite_value hlt).imp fun r hr => hr.1
    · have : t = w.cache.ts (Buffer.iOld k) := le_antisymm (a2.trans heq.ge) a1
      rw [hermiteInterp_run, if_pos (by rw [this]; exact beq_self_eq_true _)]
      exact ⟨_, rfl⟩
  by_cases hs : s.t < t
  · have hgood := (ready_advance (Spec.WellConfigured.forward (Or.inl hM)) (le_refl t) ⟨ho, hh, h1⟩ (advance_true.mpr hr)).2.2
    obtain ⟨r, hr'⟩ := hex s1 hgood (not_lt.mp (reach_not_lt hr))
    refine ⟨r.deref s1.cache, ?_⟩
    unfold Solver.run runEvents
    rw [← fixed_interp hM] at hr'
    have hadv := advance_true.mpr hr
    simp [isSorted, checkTime, hb, listMax, Bound.gt, not_lt.mpr h1, not_le.mpr hs, interpolateAll, runEval, hadv, hr']
  · cases hr with
    | here _ =>
      obtain ⟨r, hr'⟩ := hex s h1 (not_lt.mp hs)
      exact ⟨_, run_recorded hb bo argsort h1 (not_lt.mp hs) (by
        rw [interpolate_inside h1 (not_lt.mp hs), fixed_interp hM]; exact hr')⟩
    | step h => exact absurd h hs

/-- Non-vacuity for C81: `BDF3` on `y' = -y`, `y(0) = 1`, `y = exp(-t)`, with the tolerance of the code: `run` answers every time in
`[0, 1]`, within the error bound. -/
example (g : Buffer ℝ 1 (histExtra 2)) (g2 : Buffer ℝ 1 (histExtra 1)) (g4 : Buffer ℝ 1 (histExtra 3))
    (bo : BisectOpts ℝ) (argsort : List ℝ → List Nat) (hA : ∀ l, IsArgsort l (argsort l)) (gs : Buffer ℝ 1 0) (K : ErkAux ℝ 1 3) :
    ∃ C δ, 0 < δ ∧ ∀ h : ℝ, 0 < h → h ≤ δ → ∀ t ∈ Set.Icc (0 : ℝ) 1, ∃ st s' z,
      multistepInit g bo argsort (erkStarter RungeKutta4 gs K) (pureRhs fun _ v i => -1 * v i + 0) 0 (fun _ => 1) (some h) =
        some (.ok st) ∧
      ((⟨implicitMultistep Demo.realLib Demo.realZeros BDF3, pureRhs fun _ v i => -1 * v i + 0, .inf⟩ : Solver ℝ 1 _ _).run bo argsort
        [t]).run st = some (.ok [(t, z)], s') ∧
      |z 0 - Real.exp (-t)| ≤ C * (h ^ 3 + 148 / 10 ^ 10 / h) := by
  have z1 : (0 : ℝ) < Demo.realZeros.secantEps := by norm_num [Demo.realZeros]
  have z2 : (0 : ℝ) ≤ Demo.realZeros.tol := by norm_num [Demo.realZeros]
  obtain ⟨C, δ, hδ, hC⟩ := (C81_started (n := 1) bo argsort Demo.realLib (fun _ => rfl) .inf gs K
    g2 g g4).2.2.1 (fun _ v i => -1 * v i + 0) (fun t _ => Real.exp (-t)) (-1) 2 0 1 1
    (contDiff_pi.mpr fun i => (contDiff_const.mul ((contDiff_apply ℝ ℝ i).comp contDiff_snd)).add contDiff_const)
    (by norm_num) (by norm_num) (by norm_num) (fun t _ => exp_solves t) (fun _ u v d => by
      have h1 := norm_le_pi_norm (u - v : Fin 1 → ℝ) d
      have e : -1 * u d + 0 - (-1 * v d + 0) = -(u d - v d) := by ring
      rw [e, abs_neg, one_mul]
      exact h1)
  refine ⟨C, δ, hδ, fun h h0 h1 t ht => ?_⟩
  obtain ⟨st, hst⟩ := C34_erk_starter_succeeds (by norm_num) RungeKutta4 gs K g bo argsort (fun _ v i => -1 * v i + 0) 0 (fun _ => 1) h
  have hts := C34_erk_starter (p := 2) (by norm_num) RungeKutta4 gs K g bo argsort _ 0 (fun _ => 1) h st hst
  have hh : st.h = h := by
    obtain ⟨_, _, _, _, -, -, -, -, rfl⟩ := multistepInit_fixed (p := 2) (by norm_num) hst
    rfl
  have ho : Ordered st := fun i j hij => by
    rw [hts, hts]
    have : ((i : ℕ) : ℝ) ≤ ((j : ℕ) : ℝ) := by exact_mod_cast hij
    nlinarith
  obtain ⟨m, hm⟩ := exists_nat_gt (1 / h)
  rw [div_lt_iff₀ h0] at hm
  obtain ⟨l, v, hl, hp⟩ := implicit_paths (p := 2) (c := BDF3) Demo.realLib Demo.realZeros z1 z2 le_rfl .inf m st (by
      have : (0 : ℝ) < 1 - st.h * (BDF3 (α := ℝ)).Bn * (-1) := by
        rw [hh]; simp [BDF3, q]; positivity
      exact this.ne')
  have hst0 : 0 ≤ st.t := by
    have := hts (Buffer.iLast _)
    rw [show st.t = st.cache.ts (Buffer.iLast _) from rfl, this]
    positivity
  have hvt : ¬ v.t < t := by
    rw [(path_grid (.implicitMultistep _ _ _) hp).2.1, hl, hh]
    linarith [ht.2]
  obtain ⟨s1, hs1⟩ := path_reaches hp hvt
  obtain ⟨z, hz⟩ := run_one (.implicitMultistep _ _ _) rfl bo argsort ho (by rw [hh]; exact h0) (by
    rw [hts]
    simpa [Buffer.iOld] using ht.1) hs1
  exact ⟨st, s1, z, hst, hz, hC Demo.realZeros ⟨z1, z2, rfl⟩ bo argsort hA h st s1 [t] _ h0 h1 (by
    have e : (fun (t : ℝ) (_ : Fin 1) => Real.exp (-t)) 0 = fun _ => 1 := by funext; simp
    simp only [e]; exact hst) hz _ List.mem_cons_self ht.2 0⟩

/-- Non-vacuity for C81: `AdamsBashforth3` on `y' = y²`, `y(0) = 1`, `y = 1 / (1 - t)`: `run` answers every list of times in
`[0, 1/2]`, within the error bound. -/
example (g : Buffer ℝ 1 (histExtra 2)) (g2 : Buffer ℝ 1 (histExtra 1)) (g4 : Buffer ℝ 1 (histExtra 3))
    (g5 : Buffer ℝ 1 (histExtra 4)) (bo : BisectOpts ℝ) (argsort : List ℝ → List Nat) (hA : ∀ l, IsArgsort l (argsort l))
    (gs : Buffer ℝ 1 0) (K : ErkAux ℝ 1 3) :
    ∃ C δ, 0 < δ ∧ ∀ h : ℝ, 0 < h → h ≤ δ → ∀ ts : List ℝ, ts ≠ [] → (∀ t ∈ ts, t ∈ Set.Icc (0 : ℝ) (1 / 2)) → ∃ st s' out,
      multistepInit g bo argsort (erkStarter RungeKutta4 gs K) (pureRhs fun _ v i => v i ^ 2) 0 (fun _ => 1) (some h) = some (.ok st) ∧
      ((⟨explicitMultistep AdamsBashforth3, pureRhs fun _ v i => v i ^ 2, .inf⟩ : Solver ℝ 1 _ _).run bo argsort ts).run st =
        some (.ok out, s') ∧
      out.map Prod.fst = ts ∧ ∀ r ∈ out, |r.2 0 - 1 / (1 - r.1)| ≤ C * h := by
  obtain ⟨C, δ, hδ, hC⟩ := (C81_AB_partial (n := 1) bo argsort .inf gs K g2 g g4 g5).2.1 (fun _ v i => v i ^ 2)
    (fun t _ => 1 / (1 - t)) (-1) 1 0 (1 / 2) (square_smooth 1) (by norm_num) (by norm_num) (by norm_num) square_solves
  refine ⟨C, δ, hδ, fun h h0 h1 ts hne hin => ?_⟩
  obtain ⟨st, hst⟩ := C34_erk_starter_succeeds (by norm_num) RungeKutta4 gs K g bo argsort (fun _ v i => v i ^ 2) 0 (fun _ => 1) h
  have hts := C34_erk_starter (p := 2) (by norm_num) RungeKutta4 gs K g bo argsort _ 0 (fun _ => 1) h st hst
  have hh : st.h = h := by
    obtain ⟨_, _, _, _, -, -, -, -, rfl⟩ := multistepInit_fixed (p := 2) (by norm_num) hst
    rfl
  have ho : Ordered st := fun i j hij => by
    rw [hts, hts]
    have : ((i : ℕ) : ℝ) ≤ ((j : ℕ) : ℝ) := by exact_mod_cast hij
    nlinarith
  obtain ⟨out, s', hrun, hfst⟩ := C69_answers_fixed (⟨explicitMultistep AdamsBashforth3, pureRhs fun _ v i => v i ^ 2, .inf⟩ : Solver ℝ 1 _ _)
    (.explicitMultistep _) (.explicitMultistep _) rfl (by rintro e ⟨t, y, h⟩; cases h) bo argsort hA ts hne st ho (by rw [hh]; exact h0)
    (fun t ht => ⟨by rw [hts]; simpa [Buffer.iOld] using (hin t ht).1, trivial⟩)
  refine ⟨st, s', out, hst, hrun, hfst, fun r hr => ?_⟩
  have hr1 : r.1 ∈ ts := by rw [← hfst]; exact List.mem_map_of_mem hr
  have key := hC bo argsort hA h st s' ts out h0 h1 (by
    have e : (fun (t : ℝ) (_ : Fin 1) => 1 / (1 - t)) 0 = fun _ => 1 := by funext; simp
    simp only [e]; exact hst) hrun r hr (hin _ hr1).2 0
  rwa [pow_one] at key

end Nbkode
