import Verif.Proofs.Roots
import Verif.Proofs.RootsHd
import Verif.Props.RealLib
import Mathlib.Analysis.Calculus.FDeriv.Mul
import Mathlib.Analysis.Calculus.FDeriv.Pi

/-!
# Local convergence of `newton` and `newton_hd`: C91
-/

set_option autoImplicit false
set_option linter.unusedSectionVars false

namespace Nbkode
open Py Spec Solver

theorem lip_nonneg {f f' : ℝ → ℝ} {x : ℝ} (h : SimpleRoot f f' x) : ∃ ρ L : ℝ, 0 < ρ ∧ 0 ≤ L ∧ (∀ y, |y - x| ≤ ρ → HasDerivAt f (f' y) y) ∧
    ∀ y z, |y - x| ≤ ρ → |z - x| ≤ ρ → |f' y - f' z| ≤ L * |y - z| := by
  obtain ⟨ρ, L, hρ, h⟩ := h.smooth
  exact ⟨ρ, |L|, hρ, abs_nonneg L, fun y hy => (h y y hy hy).1, fun y z hy hz => ((h y z hy hz).2).trans
    (mul_le_mul_of_nonneg_right (le_abs_self L) (abs_nonneg _))⟩

/-- A power of the distance from the start, when that is at most half of the radius `1/C`. -/
theorem scaled_pow_le {C e r : ℝ} (hC : 0 < C) (he0 : 0 ≤ e) (he : e ≤ r) (hr : C * r ≤ 1 / 2) (N : ℕ) {tol : ℝ}
    (h : 2 / C * (1 / 2) ^ N ≤ tol) : 2 / C * (C * e) ^ N ≤ tol := by
  refine le_trans (mul_le_mul_of_nonneg_left ?_ (by positivity)) h
  exact pow_le_pow_left₀ (by positivity) ((mul_le_mul_of_nonneg_left he hC.le).trans hr) _

theorem newton_of_loop {eps : ℝ} {f f' : ℝ → ℝ} {f2 : Option (ℝ → ℝ)} {x0 tol rtol : ℝ} {m : ℕ} {x1 : Option ℝ} (htol : 0 < tol)
    {P : ℝ → Prop} (h : ∀ res, newtonLoop (fun x => .ok (f x)) (fun x => .ok (f' x)) (f2.map fun g x => .ok (g x)) tol rtol (m + 1) 0 x0 none 0 = .ok res →
      res.flag = .ok ∧ P res.p) :
    ∃ p, newton eps (fun x => .ok (f x)) x0 (some fun x => .ok (f' x)) tol (m + 1) (f2.map fun g x => .ok (g x)) x1 rtol = .ok p ∧ P p := by
  obtain ⟨res, hres⟩ := newtonLoop_total f f' f2 tol rtol (m + 1) 0 x0 none 0 (Or.inl (by omega))
  obtain ⟨h1, h2⟩ := h res hres
  refine ⟨res.p, ?_, h2⟩
  rw [C56_newton, if_neg (by rw [not_or, not_le, not_lt]; exact ⟨htol, by omega⟩), C56_jNewton]
  have e : ((m : ℤ) + 1).toNat = m + 1 := by omega
  simp only [newtonImpl, one_mul, e, hres, h1, if_true]

/-- C91 Newton-Raphson: near a simple root every step squares the error (up to the factor `C`), the search succeeds as soon as
`maxiter = m + 1` allows `2^m` halvings of `2/C` to reach `tol`, and the result is accurate to the square of the tolerance. -/
theorem C91_newton {f f' : ℝ → ℝ} {x : ℝ} (h : SimpleRoot f f' x) : ∃ r C, 0 < r ∧ 0 < C ∧ ∀ x0, |x0 - x| ≤ r →
    (∀ p, NewtonStep (fun x => .ok (f x)) (fun x => .ok (f' x)) none x0 p → |p - x| ≤ C * |x0 - x| ^ 2 ∧ |p - x| ≤ |x0 - x| / 2) ∧
    ∀ (eps tol rtol : ℝ) (x1 : Option ℝ) (m : ℕ), 0 < tol → 0 ≤ rtol → 2 / C * (1 / 2) ^ 2 ^ m ≤ tol →
      ∃ p, newton eps (fun x => .ok (f x)) x0 (some fun x => .ok (f' x)) tol (m + 1) none x1 rtol = .ok p ∧
        |p - x| ≤ C * (2 * (tol + rtol * (|x| + r))) ^ 2 := by
  obtain ⟨ρ, L, hρ, hL0, hd, hL⟩ := lip_nonneg h
  obtain ⟨r, C, hr, hC, hCr, hinj, hnw, -⟩ := newton_rate hρ hd hL hL0 h.root h.simple
  have hx : |x - x| ≤ r := by rw [sub_self, abs_zero]; exact hr.le
  have hs : ∀ p p', |p - x| ≤ r → NewtonStep (fun x => .ok (f x)) (fun x => .ok (f' x)) none p p' → |p' - x| ≤ C * |p - x| ^ 2 := by
    rintro p p' hp ⟨v, d, hv, hd, -, -, rfl⟩
    cases hv; cases hd
    exact (hnw p hp).2
  refine ⟨r, C, hr, hC, fun x0 hx0 => ⟨fun p hp => ⟨hs x0 p hx0 hp, ?_⟩, fun eps tol rtol x1 m htol hrt hm => ?_⟩⟩
  · have h1 := hs x0 p hx0 hp
    have h2 := (mul_le_mul_of_nonneg_left hx0 hC.le).trans hCr
    have h3 := mul_le_mul_of_nonneg_right h2 (abs_nonneg (x0 - x))
    nlinarith
  · refine newton_of_loop (f2 := none) htol fun res hres => ?_
    have := newtonLoop_local f f' none (k := 2) le_rfl hC hCr htol hrt (fun p hp hfp => hinj p x hp hx (by rw [hfp, h.root]))
      (fun p hp => (hnw p hp).1) (fun p p' hp hp' => by rw [pow_one]; exact hs p p' hp hp') m 0 x0 hx0 none 0
      (scaled_pow_le hC (abs_nonneg _) hx0 hCr _ hm) res hres
    rw [pow_one] at this
    exact this

/-- C91 Halley (`fprime2` given): near a simple root every step cubes the error (up to the factor `C²`); success and accuracy
accordingly. -/
theorem C91_halley {f f' f2 : ℝ → ℝ} {x : ℝ} (h : SimpleRoot2 f f' f2 x) : ∃ r C, 0 < r ∧ 0 < C ∧ ∀ x0, |x0 - x| ≤ r →
    (∀ p, NewtonStep (fun x => .ok (f x)) (fun x => .ok (f' x)) (some fun x => .ok (f2 x)) x0 p →
      |p - x| ≤ C ^ 2 * |x0 - x| ^ 3 ∧ |p - x| ≤ |x0 - x| / 4) ∧
    ∀ (eps tol rtol : ℝ) (x1 : Option ℝ) (m : ℕ), 0 < tol → 0 ≤ rtol → 2 / C * (1 / 2) ^ 3 ^ m ≤ tol →
      ∃ p, newton eps (fun x => .ok (f x)) x0 (some fun x => .ok (f' x)) tol (m + 1) (some fun x => .ok (f2 x)) x1 rtol = .ok p ∧
        |p - x| ≤ C ^ 2 * (2 * (tol + rtol * (|x| + r))) ^ 3 := by
  obtain ⟨ρ, L, hρ, hsm⟩ := h.smooth
  obtain ⟨r, C, hr, hC, hCr, hz, hnw⟩ := halley_rate (L := |L|) hρ (fun y hy => (hsm y y hy hy).1) (fun y hy => (hsm y y hy hy).2.1)
    (fun y z hy hz => (hsm y z hy hz).2.2.trans (mul_le_mul_of_nonneg_right (le_abs_self L) (abs_nonneg _))) (abs_nonneg L) h.root h.simple
  have hs : ∀ p p', |p - x| ≤ r → NewtonStep (fun x => .ok (f x)) (fun x => .ok (f' x)) (some fun x => .ok (f2 x)) p p' →
      |p' - x| ≤ C ^ 2 * |p - x| ^ 3 := by
    rintro p p' hp ⟨v, d, hv, hd, -, -, d2, hd2, hp'⟩
    cases hv; cases hd; cases hd2
    obtain ⟨-, h1, h2⟩ := hnw p hp
    simp only [h1, if_true] at hp'
    rw [hp']
    exact h2
  refine ⟨r, C, hr, hC, fun x0 hx0 => ⟨fun p hp => ⟨hs x0 p hx0 hp, ?_⟩, fun eps tol rtol x1 m htol hrt hm => ?_⟩⟩
  · have h2 := (mul_le_mul_of_nonneg_left hx0 hC.le).trans hCr
    have h3 : (C * |x0 - x|) ^ 2 ≤ (1 / 2) ^ 2 := pow_le_pow_left₀ (by positivity) h2 2
    calc |p - x| ≤ C ^ 2 * |x0 - x| ^ 3 := hs x0 p hx0 hp
      _ = (C * |x0 - x|) ^ 2 * |x0 - x| := by ring
      _ ≤ (1 / 2) ^ 2 * |x0 - x| := mul_le_mul_of_nonneg_right h3 (abs_nonneg _)
      _ = _ := by ring
  · exact newton_of_loop (f2 := some f2) htol fun res hres =>
      newtonLoop_local f f' (some f2) (k := 3) (by norm_num) hC hCr htol hrt hz
        (fun p hp => (hnw p hp).1) hs m 0 x0 hx0 none 0 (scaled_pow_le hC (abs_nonneg _) hx0 hCr _ hm) res hres

/-- C91 secant (no derivative given): near a simple root the error of a step is at most `C` times the product of the last two errors, and
the search from any two different points near the root succeeds as soon as `maxiter = m + 1` allows `fib (m + 2)` halvings of
`2/C` to reach `tol`. The default second point is near the root if the first is. -/
theorem C91_secant {f f' : ℝ → ℝ} {x : ℝ} (h : SimpleRoot f f' x) : ∃ r C, 0 < r ∧ 0 < C ∧ ∀ x0, |x0 - x| ≤ r →
    (∀ x1 p, |x1 - x| ≤ r → SecantPoint x0 (f x0) x1 (f x1) p → |p - x| ≤ C * |x0 - x| * |x1 - x|) ∧
    ∀ (eps tol rtol : ℝ) (f2 : Option (ℝ → Except Err ℝ)) (x1 : Option ℝ) (m : ℕ), 0 < tol → 0 ≤ rtol → 2 / C * (1 / 2) ^ Nat.fib (m + 2) ≤ tol →
      (∀ v, x1 = some v → v ≠ x0 ∧ |v - x| ≤ r) → (x1 = none → 0 < eps ∧ |x0 - x| + eps * (|x0| + 1) ≤ r) →
      ∃ p, newton eps (fun x => .ok (f x)) x0 none tol (m + 1) f2 x1 rtol = .ok p ∧ |p - x| ≤ tol + rtol * (|x| + r) := by
  obtain ⟨ρ, L, hρ, hL0, hd, hL⟩ := lip_nonneg h
  obtain ⟨r, C, hr, hC, hCr, hinj, -, hse⟩ := newton_rate hρ hd hL hL0 h.root h.simple
  refine ⟨r, C, hr, hC, fun x0 hx0 => ⟨fun x1 p hx1 hp => hse x0 x1 p hx0 hx1 hp, fun eps tol rtol f2 x1 m htol hrt hm hs hn => ?_⟩⟩
  obtain ⟨b, hb, hbne, hbr⟩ : ∃ b, x1.getD (secantStart eps x0) = b ∧ b ≠ x0 ∧ |b - x| ≤ r := by
    cases x1 with
    | some v => exact ⟨v, rfl, hs v rfl⟩
    | none =>
      obtain ⟨he, hle⟩ := hn rfl
      refine ⟨_, rfl, secantStart_ne eps x0 he, le_trans ?_ hle⟩
      have h1 : ∃ s : ℝ, |s| = eps ∧ secantStart eps x0 = x0 + eps * x0 + s := by
        unfold secantStart
        simp only
        split
        · exact ⟨eps, abs_of_pos he, by ring⟩
        · exact ⟨-eps, by rw [abs_neg, abs_of_pos he], by ring⟩
      obtain ⟨s, hs1, hs2⟩ := h1
      change |secantStart eps x0 - x| ≤ _
      rw [hs2, show x0 + eps * x0 + s - x = (x0 - x) + eps * x0 + s by ring]
      refine (abs_add_le _ _).trans ?_
      have := abs_add_le (x0 - x) (eps * x0)
      rw [abs_mul, abs_of_pos he] at this
      rw [hs1]
      linarith
  have half : ∀ p, |p - x| ≤ r → C * |p - x| ≤ (1 / 2) ^ 1 := fun p hp => by
    rw [pow_one]; exact (mul_le_mul_of_nonneg_left hp hC.le).trans hCr
  have loop : ∀ p0 p1, |p0 - x| ≤ r → |p1 - x| ≤ r → p0 ≠ p1 → ∃ res,
      secantLoop (fun x => .ok (f x)) tol rtol (m + 1) 0 p0 p1 (f p0) (f p1) none 2 = .ok res ∧ res.flag = .ok ∧ |res.p - x| ≤ tol + rtol * (|x| + r) := by
    intro p0 p1 h0 h1 hne
    obtain ⟨res, hres⟩ := secantLoop_total f tol rtol (m + 1) 0 p0 p1 (f p0) (f p1) none 2 (Or.inl (by omega))
    exact ⟨res, hres, secantLoop_local f hC hCr htol hrt hinj hse m 0 p0 p1 h0 h1 hne none 2 1 (half p0 h0) (half p1 h1)
      (by rw [show 1 + 1 + m = m + 2 by ring]; exact hm) res hres⟩
  have himpl : ∃ res, newtonImpl eps (fun x => .ok (f x)) x0 none tol (m + 1) f2 x1 rtol = .ok res ∧ res.flag = .ok ∧
      |res.p - x| ≤ tol + rtol * (|x| + r) := by
    have e : newtonImpl eps (fun x => .ok (f x)) x0 none tol (m + 1) f2 x1 rtol =
        if pyAbs (f b) < pyAbs (f x0) then secantLoop (fun x => .ok (f x)) tol rtol (m + 1) 0 b x0 (f b) (f x0) none 2
        else secantLoop (fun x => .ok (f x)) tol rtol (m + 1) 0 x0 b (f x0) (f b) none 2 := by
      cases x1 with
      | none =>
        simp only [Option.getD_none] at hb
        subst hb
        simp only [newtonImpl, one_mul, bind, Except.bind, pure, Except.pure]
      | some v =>
        simp only [Option.getD_some] at hb
        subst hb
        have : (v == x0) = false := by simpa using hbne
        simp only [newtonImpl, one_mul, bind, Except.bind, pure, Except.pure, this, Bool.false_eq_true, if_false]
    rw [e]
    split
    · exact loop b x0 hbr hx0 hbne
    · exact loop x0 b hx0 hbr hbne.symm
  obtain ⟨res, h1, h2, h3⟩ := himpl
  refine ⟨res.p, ?_, h3⟩
  rw [C56_newton, if_neg (by rw [not_or, not_le, not_lt]; exact ⟨htol, by omega⟩), C56_jNewton]
  have e : ((m : ℤ) + 1).toNat = m + 1 := by omega
  rw [e, h1]
  simp only [h2, if_true]

/-- C91 `newton_hd`: near a regular root of a system every update multiplies the error by at most `C (error + |eps|)`, which makes it at
most half, so that the search succeeds as soon as `maxiter = m` allows enough halvings, and the result is accurate to a multiple of `tol`. -/
theorem C91_newtonHd {n : ℕ} {F : (Fin n → ℝ) → (Fin n → ℝ)} {F' : (Fin n → ℝ) → (Fin n → ℝ) →L[ℝ] (Fin n → ℝ)} {x : Fin n → ℝ}
    (h : RegularRoot F F' x) : ∃ r C : ℝ, 0 < r ∧ 0 < C ∧ ∀ lib : Lib ℝ, (∀ a, lib.sqrt a = Real.sqrt a) → ExactSolve lib →
      ∀ eps : ℝ, eps ≠ 0 → |eps| ≤ r → ∀ y : Fin n → ℝ, ‖y - x‖ ≤ r →
        (∀ p : Fin n → ℝ, Updates lib eps (fun y : Vec ℝ n => .ok (F y)) 1 y p →
          ‖p - x‖ ≤ C * (‖y - x‖ + |eps|) * ‖y - x‖ ∧ ‖p - x‖ ≤ ‖y - x‖ / 2) ∧
        ∀ (tol rtol : ℝ) (m : ℕ), C * (1 / 2) ^ m ≤ tol →
          ∃ p : Fin n → ℝ, newtonHd lib eps (fun y : Vec ℝ n => .ok (F y)) y tol rtol m = .ok p ∧ ‖p - x‖ ≤ C * tol := by
  obtain ⟨r, C, hr, hC, hCr, hF, hstep⟩ := newtonHd_rate h
  have hn0 : (0 : ℝ) ≤ n := Nat.cast_nonneg n
  refine ⟨r, C + n * (C * r), hr, by positivity, fun lib hlib hs eps he hle => ?_⟩
  have hstep' : ∀ y d : Fin n → ℝ, ‖y - x‖ ≤ r → ∀ J : Fin n → Fin n → ℝ, CentralDiff eps (fun y : Vec ℝ n => .ok (F y)) y J →
      lib.solve J (-(F y) : Vec ℝ n) = .ok (d : Vec ℝ n) → ‖y + d - x‖ ≤ C * (‖y - x‖ + |eps|) * ‖y - x‖ ∧ ‖y + d - x‖ ≤ ‖y - x‖ / 2 := by
    intro y d hy J hJ hd
    have h1 := (hstep eps he hle y hy J hJ).2 d (hs.sound _ _ _ hd)
    refine ⟨h1, h1.trans ?_⟩
    have h2 : C * (‖y - x‖ + |eps|) ≤ 1 / 2 := le_trans (by gcongr; linarith) hCr
    have := mul_le_mul_of_nonneg_right h2 (norm_nonneg (y - x))
    linarith
  intro y hy
  refine ⟨?_, fun tol rtol m hm => ?_⟩
  · rintro p (_ | ⟨hv, hJ, hd, hu⟩)
    cases hv
    cases hu
    obtain ⟨h1, h2⟩ := hstep' y _ hy _ hJ hd
    refine ⟨h1.trans ?_, h2⟩
    have : 0 ≤ n * (C * r) := by positivity
    gcongr
    linarith
  · have hloop : ∀ (m : ℕ) (y : Fin n → ℝ), ‖y - x‖ ≤ r → n * (C * ‖y - x‖) * (1 / 2) ^ m ≤ tol →
        ∃ p : Fin n → ℝ, newtonHdLoop lib eps (fun y : Vec ℝ n => .ok (F y)) tol rtol m y (F y) = .ok (p, .ok) ∧ ‖p - x‖ ≤ C * tol := by
      have hdone : ∀ y : Fin n → ℝ, ‖y - x‖ ≤ r → isclose (norm2 lib (F y : Vec ℝ n)) 0 tol rtol = true → ‖y - x‖ ≤ C * tol := by
        intro y hy hc
        rw [isclose_iff, norm2_eq, sub_zero, abs_zero, mul_zero, add_zero] at hc
        refine (hF y hy).1.trans (mul_le_mul_of_nonneg_left ?_ hC.le)
        exact (norm_le_euclid hlib _).trans ((le_abs_self _).trans hc)
      have hclose : ∀ y : Fin n → ℝ, ‖y - x‖ ≤ r → n * (C * ‖y - x‖) ≤ tol → isclose (norm2 lib (F y : Vec ℝ n)) 0 tol rtol = true := by
        intro y hy ht
        rw [isclose_iff, norm2_eq, sub_zero, abs_zero, mul_zero, add_zero,
          abs_of_nonneg ((norm_nonneg _).trans (norm_le_euclid hlib _))]
        exact (euclid_le_norm hlib _).trans ((mul_le_mul_of_nonneg_left (hF y hy).2 hn0).trans ht)
      intro m
      induction m with
      | zero =>
        intro y hy ht
        rw [pow_zero, mul_one] at ht
        have hc := hclose y hy ht
        rw [newtonHdLoop.eq_1, if_pos hc]
        exact ⟨y, rfl, hdone y hy hc⟩
      | succ m ih =>
        intro y hy ht
        rw [newtonHdLoop.eq_1]
        split
        · rename_i hc
          exact ⟨y, rfl, hdone y hy hc⟩
        have hJ : CentralDiff eps (fun y : Vec ℝ n => .ok (F y)) y
            (fun r i => (F (Function.update y i (y i + eps)) r - F (Function.update y i (y i - eps)) r) / (2 * eps)) :=
          fun i => ⟨_, _, rfl, rfl, fun r => rfl⟩
        rw [jacobian_of hJ]
        obtain ⟨d, hd⟩ := hs.complete _ (-(F y) : Vec ℝ n) (hstep eps he hle y hy _ hJ).1
        obtain ⟨-, h2⟩ := hstep' y d hy _ hJ hd
        simp only [bind, Except.bind, hd]
        refine ih (y + d) (h2.trans (by linarith [norm_nonneg (y - x)])) (le_trans ?_ ht)
        calc n * (C * ‖y + d - x‖) * (1 / 2) ^ m ≤ n * (C * (‖y - x‖ / 2)) * (1 / 2) ^ m := by gcongr
          _ = n * (C * ‖y - x‖) * (1 / 2) ^ (m + 1) := by rw [pow_succ]; ring
    obtain ⟨p, h1, h2⟩ := hloop m y hy (le_trans (by
      have : n * (C * ‖y - x‖) ≤ C + n * (C * r) := by
        have : n * (C * ‖y - x‖) ≤ n * (C * r) := by gcongr
        linarith
      gcongr) hm)
    refine ⟨p, ?_, h2.trans ?_⟩
    · unfold newtonHd newtonHdImpl
      simp only [bind, Except.bind]
      rw [h1]
      rfl
    · have htol : 0 ≤ tol := le_trans (by positivity) hm
      have : 0 ≤ n * (C * r) * tol := by positivity
      linarith

/-! ### Non-vacuity -/

/-- The cube root of unity of the documentation: `f(x) = x³ - 1`, root 1. -/
theorem cube_root : SimpleRoot2 (fun x => x ^ 3 - 1) (fun x => 3 * x ^ 2) (fun x => 6 * x) 1 := by
  refine ⟨by norm_num, by norm_num, 1, 6, one_pos, fun y z _ _ => ⟨?_, ?_, ?_⟩⟩
  · simpa using (hasDerivAt_pow 3 y).sub_const 1
  · refine ((hasDerivAt_pow 2 y).const_mul 3).congr_deriv ?_
    push_cast; ring
  · rw [← mul_sub, abs_mul]; norm_num

theorem cube_root1 : SimpleRoot (fun x => x ^ 3 - 1) (fun x => 3 * x ^ 2) 1 := by
  refine ⟨by norm_num, by norm_num, 1, 12, one_pos, fun y z hy hz => ⟨?_, ?_⟩⟩
  · simpa using (hasDerivAt_pow 3 y).sub_const 1
  · rw [show 3 * y ^ 2 - 3 * z ^ 2 = 3 * (y + z) * (y - z) by ring, abs_mul]
    refine mul_le_mul_of_nonneg_right ?_ (abs_nonneg _)
    rw [abs_le] at hy hz ⊢
    constructor <;> linarith

theorem enough {C tol : ℝ} (hC : 0 < C) (htol : 0 < tol) : ∃ m : ℕ, ∀ N, m ≤ N → 2 / C * (1 / 2) ^ N ≤ tol := by
  obtain ⟨m, hm⟩ := exists_pow_lt_of_lt_one (show 0 < tol * C / 2 by positivity) (show (1 / 2 : ℝ) < 1 by norm_num)
  refine ⟨m, fun N hN => ?_⟩
  have h1 : ((1 : ℝ) / 2) ^ N ≤ tol * C / 2 := (pow_le_pow_of_le_one (by norm_num) (by norm_num) hN).trans hm.le
  calc 2 / C * (1 / 2) ^ N ≤ 2 / C * (tol * C / 2) := mul_le_mul_of_nonneg_left h1 (by positivity)
    _ = tol := by field_simp

/-- `C91_newton`: from every start near 1, Newton finds the root of `x³ - 1` for every tolerance with enough iterations. -/
example : ∃ r C : ℝ, 0 < r ∧ ∀ x0, |x0 - 1| ≤ r → ∀ tol : ℝ, 0 < tol → ∃ m : ℕ, ∀ eps, ∃ p,
    newton eps (fun x => .ok (x ^ 3 - 1)) x0 (some fun x => .ok (3 * x ^ 2)) tol (m + 1) none none 0 = .ok p ∧ |p - 1| ≤ C * tol ^ 2 := by
  obtain ⟨r, C, hr, hC, h⟩ := C91_newton cube_root1
  refine ⟨r, 4 * C, hr, fun x0 hx0 tol htol => ?_⟩
  obtain ⟨m, hm⟩ := enough hC htol
  refine ⟨m, fun eps => ?_⟩
  obtain ⟨p, h1, h2⟩ := (h x0 hx0).2 eps tol 0 none m htol le_rfl (hm _ Nat.lt_two_pow_self.le)
  exact ⟨p, h1, h2.trans (le_of_eq (by ring))⟩

/-- `C91_halley`, the same with the second derivative. -/
example : ∃ r C : ℝ, 0 < r ∧ ∀ x0, |x0 - 1| ≤ r → ∀ tol : ℝ, 0 < tol → ∃ m : ℕ, ∀ eps, ∃ p,
    newton eps (fun x => .ok (x ^ 3 - 1)) x0 (some fun x => .ok (3 * x ^ 2)) tol (m + 1) (some fun x => .ok (6 * x)) none 0 = .ok p ∧
      |p - 1| ≤ C * tol ^ 3 := by
  obtain ⟨r, C, hr, hC, h⟩ := C91_halley cube_root
  refine ⟨r, 8 * C ^ 2, hr, fun x0 hx0 tol htol => ?_⟩
  obtain ⟨m, hm⟩ := enough hC htol
  refine ⟨m, fun eps => ?_⟩
  obtain ⟨p, h1, h2⟩ := (h x0 hx0).2 eps tol 0 none m htol le_rfl (hm _ (Nat.lt_pow_self (by norm_num)).le)
  exact ⟨p, h1, h2.trans (le_of_eq (by ring))⟩

/-- `C91_secant`, without a derivative, from any two points near 1, or from one and the default second point when `eps` is small. -/
example : ∃ r : ℝ, 0 < r ∧ ∀ x0, |x0 - 1| ≤ r / 2 → ∀ tol : ℝ, 0 < tol → ∃ m : ℕ, ∀ eps,
    (∀ x1, x1 ≠ x0 → |x1 - 1| ≤ r →
      ∃ p, newton eps (fun x => .ok (x ^ 3 - 1)) x0 none tol (m + 1) none (some x1) 0 = .ok p ∧ |p - 1| ≤ tol) ∧
    (0 < eps → eps * (|x0| + 1) ≤ r / 2 →
      ∃ p, newton eps (fun x => .ok (x ^ 3 - 1)) x0 none tol (m + 1) none none 0 = .ok p ∧ |p - 1| ≤ tol) := by
  obtain ⟨r, C, hr, hC, h⟩ := C91_secant cube_root1
  refine ⟨r, hr, fun x0 hx0 tol htol => ?_⟩
  obtain ⟨m, hm⟩ := enough hC htol
  have hf : m ≤ Nat.fib (m + 2) := by have := Nat.le_fib_add_one (m + 2); omega
  refine ⟨m, fun eps => ⟨fun x1 hne hx1 => ?_, fun he hle => ?_⟩⟩
  · obtain ⟨p, h1, h2⟩ := (h x0 (by linarith)).2 eps tol 0 none (some x1) m htol le_rfl (hm _ hf) (fun v hv => by cases hv; exact ⟨hne, hx1⟩)
      (by simp)
    exact ⟨p, h1, h2.trans (le_of_eq (by ring))⟩
  · obtain ⟨p, h1, h2⟩ := (h x0 (by linarith)).2 eps tol 0 none none m htol le_rfl (hm _ hf) (by simp) (fun _ => ⟨he, by linarith⟩)
    exact ⟨p, h1, h2.trans (le_of_eq (by ring))⟩

/-- A system: `y₀² = 1`, `y₀ y₁ = 2`. -/
noncomputable def productSys : (Fin 2 → ℝ) → (Fin 2 → ℝ) := fun y => ![y 0 ^ 2 - 1, y 0 * y 1 - 2]

noncomputable def productJac (y : Fin 2 → ℝ) : (Fin 2 → ℝ) →L[ℝ] (Fin 2 → ℝ) :=
  ContinuousLinearMap.pi ![(2 * y 0) • ContinuousLinearMap.proj 0, y 0 • ContinuousLinearMap.proj 1 + y 1 • ContinuousLinearMap.proj 0]

theorem product_root : RegularRoot productSys productJac ![1, 2] := by
  refine ⟨?_, fun v hv => ?_, 1, 2, one_pos, fun y z _ _ => ⟨?_, ?_⟩⟩
  · funext i
    fin_cases i <;> norm_num [productSys]
  · have h0 := congrFun hv 0
    have h1 := congrFun hv 1
    simp [productJac] at h0 h1
    funext i
    fin_cases i
    · simpa using h0
    · simp only [Fin.mk_one, Pi.zero_apply]
      rw [h0] at h1
      simpa using h1
  · rw [hasFDerivAt_pi']
    have p0 : HasFDerivAt (fun y : Fin 2 → ℝ => y 0) (ContinuousLinearMap.proj 0 : (Fin 2 → ℝ) →L[ℝ] ℝ) y := hasFDerivAt_apply 0 y
    have p1 : HasFDerivAt (fun y : Fin 2 → ℝ => y 1) (ContinuousLinearMap.proj 1 : (Fin 2 → ℝ) →L[ℝ] ℝ) y := hasFDerivAt_apply 1 y
    intro i
    fin_cases i
    · refine ((p0.mul p0).sub_const 1).congr_fderiv ?_ |>.congr_of_eventuallyEq (Filter.Eventually.of_forall fun w => ?_)
      · ext v
        simp [productJac]; ring
      · simp [productSys, sq]
    · refine ((p0.mul p1).sub_const 2).congr_fderiv ?_ |>.congr_of_eventuallyEq (Filter.Eventually.of_forall fun w => ?_)
      · ext v
        simp [productJac]
      · simp [productSys]
  · refine ContinuousLinearMap.opNorm_le_bound _ (by positivity) fun v => ?_
    refine (pi_norm_le_iff_of_nonneg (by positivity)).mpr fun i => ?_
    have hy0 := norm_le_pi_norm (y - z) 0
    have hy1 := norm_le_pi_norm (y - z) 1
    have hv0 := norm_le_pi_norm v 0
    have hv1 := norm_le_pi_norm v 1
    rw [Real.norm_eq_abs] at hy0 hy1 hv0 hv1
    have hn := norm_nonneg (y - z)
    have m1 : |(y - z) 0 * v 0| ≤ ‖y - z‖ * ‖v‖ := by rw [abs_mul]; gcongr
    have m2 : |(y - z) 0 * v 1| ≤ ‖y - z‖ * ‖v‖ := by rw [abs_mul]; gcongr
    have m3 : |(y - z) 1 * v 0| ≤ ‖y - z‖ * ‖v‖ := by rw [abs_mul]; gcongr
    rw [abs_le] at m1 m2 m3
    fin_cases i
    · simp only [Fin.zero_eta, ContinuousLinearMap.coe_sub', Pi.sub_apply, productJac, ContinuousLinearMap.coe_pi', Matrix.cons_val_zero,
        ContinuousLinearMap.coe_smul', Pi.smul_apply, ContinuousLinearMap.proj_apply, smul_eq_mul, Real.norm_eq_abs] at m1 ⊢
      rw [abs_le]
      constructor <;> linarith
    · simp only [Fin.mk_one, ContinuousLinearMap.coe_sub', Pi.sub_apply, productJac, ContinuousLinearMap.coe_pi', Matrix.cons_val_one, Matrix.cons_val_fin_one,
        ContinuousLinearMap.add_apply, ContinuousLinearMap.coe_smul', Pi.smul_apply, ContinuousLinearMap.proj_apply, smul_eq_mul,
        Real.norm_eq_abs] at m2 m3 ⊢
      rw [abs_le]
      constructor <;> linarith

/-- `C91_newtonHd`: from every start near `(1, 2)`, with every small spacing, the system is solved to every tolerance. -/
example : ∃ r C : ℝ, 0 < r ∧ 0 < C ∧ ∀ eps : ℝ, 0 < eps → eps ≤ r → ∀ y : Fin 2 → ℝ, ‖y - ![1, 2]‖ ≤ r → ∀ tol : ℝ, 0 < tol → ∃ m : ℕ,
    ∃ p : Fin 2 → ℝ, newtonHd Demo.realLib eps (fun y : Vec ℝ 2 => .ok (productSys y)) y tol 0 m = .ok p ∧ ‖p - ![1, 2]‖ ≤ C * tol := by
  obtain ⟨r, C, hr, hC, h⟩ := C91_newtonHd product_root
  refine ⟨r, C, hr, hC, fun eps he hle y hy tol htol => ?_⟩
  obtain ⟨m, hm⟩ := exists_pow_lt_of_lt_one (show 0 < tol / C by positivity) (show (1 / 2 : ℝ) < 1 by norm_num)
  refine ⟨m, (h Demo.realLib (fun _ => rfl) Demo.realLib_exactSolve eps he.ne' (by rwa [abs_of_pos he]) y hy).2 tol 0 m ?_⟩
  rw [lt_div_iff₀ hC] at hm
  linarith

end Nbkode
