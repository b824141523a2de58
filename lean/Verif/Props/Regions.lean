import Verif.Spec.Regions
import Verif.Props.Tolerance
import Verif.Props.Startup
import Verif.Props.Restart
import Verif.Props.Hermite
import Verif.Props.Controller
import Mathlib.Tactic.ComputeDegree

/-!
# C106: regions that the state must not leave

Concentrations, populations and probabilities are never negative, and the equations for them are such that a short step in the
direction of the derivative does not lead out of the region of meaningful states. A user who sees a negative concentration will
suspect their equations. The theorems say which solvers keep such a region: the states of `ForwardEuler` stay in every convex
region of this kind; those of `BackwardEuler` on scalar linear problems do with any step size; those of the Runge-Kutta methods do
not, whatever the step size and the tolerances; and no promise holds for the values between the steps.
-/

set_option autoImplicit false
set_option linter.unusedSectionVars false

namespace Nbkode
open Py Spec Solver

section field
variable {α : Type} [Field α] [LinearOrder α] [IsStrictOrderedRing α] [BEq α] [LawfulBEq α]
variable {n : Nat}

/-- The step of `ForwardEuler`. -/
theorem euler_new (b : Buffer α n (histExtra 0)) (h : α) : multistepK (p := 0) ForwardEuler b h = fun i => b.y i + h * b.f i := by
  funext d
  rw [multistepK_apply]
  simp [ForwardEuler, AdamsBashforth1, adamsA]
  show h * b.f d + b.y d = _
  ring

theorem shorter_stays {R : Set (Vec α n)} (hR : Convex α R) {y v : Vec α n} {h h0 : α} (hy : y ∈ R) (hv : (fun i => y i + h0 * v i) ∈ R)
    (hh : 0 ≤ h) (hh0 : h ≤ h0) : (fun i => y i + h * v i) ∈ R := by
  rcases hh.eq_or_lt with rfl | hp
  · simpa using hy
  · have h0p : 0 < h0 := hp.trans_le hh0
    have := hR hy hv (a := 1 - h / h0) (b := h / h0) (sub_nonneg.2 ((div_le_one h0p).2 hh0)) (div_nonneg hh h0p.le) (by ring)
    convert this using 1
    funext i
    simp only [Pi.add_apply, Pi.smul_apply, smul_eq_mul]
    field_simp
    ring

theorem pushN_same {k : Nat} {b : Buffer α n k} {t : α} {y f : Vec α n} (hb : ∀ i, b.ts i = t ∧ b.ys i = y ∧ b.fs i = f) (m : Nat) (i) :
    (b.pushN t y f m).ts i = t ∧ (b.pushN t y f m).ys i = y ∧ (b.pushN t y f m).fs i = f := by
  induction m generalizing i with
  | zero => exact hb i
  | succ m ih =>
    rw [Buffer.pushN]
    by_cases hi : i.val + 1 < k + 2
    · simp only [Buffer.push, shiftIn, hi, dif_pos]
      exact ih _
    · simp only [Buffer.push, shiftIn, hi, dif_neg, not_false_eq_true]
      simp

/-- What the constructor of a method of order one makes. -/
theorem order_one_init {g : Buffer α n (histExtra 0)} {bo : BisectOpts α} {argsort : List α → List Nat} {starter : Starter α n} {rhs : Rhs α n}
    {t0 : α} {y0 : Vec α n} {h : α} {s0 : St α n (histExtra 0) Unit}
    (hs0 : multistepInit g bo argsort starter rhs t0 y0 (some h) = some (.ok s0)) :
    ∃ f0, rhs t0 y0 = .ok f0 ∧ s0.h = h ∧ ∀ i, s0.cache.ts i = t0 ∧ s0.cache.ys i = y0 ∧ s0.cache.fs i = f0 := by
  unfold multistepInit at hs0
  cases h0 : solverInit g () rhs t0 y0 (some h) with
  | error e => rw [h0] at hs0; simp at hs0
  | ok s1 =>
    rw [h0] at hs0
    obtain ⟨f0, hf, hc, hh, -⟩ := solverInit_ok h0
    have key : s0 = { s1 with cache := s1.cache.pushN s1.t s1.y s1.f (histExtra 0 + 1) } := by simpa using hs0.symm
    have e : ∀ i, s1.cache.ts i = t0 ∧ s1.cache.ys i = y0 ∧ s1.cache.fs i = f0 := by
      intro i
      rw [hc]
      exact ⟨init_ts _ _ _ _ _, init_ys _ _ _ _ _, init_fs _ _ _ _ _⟩
    refine ⟨f0, hf, by rw [key]; exact hh, fun i => ?_⟩
    rw [key]
    have e1 : s1.t = t0 := (e _).1
    have e2 : s1.y = y0 := (e _).2.1
    have e3 : s1.f = f0 := (e _).2.2
    rw [e1, e2, e3]
    exact pushN_same e _ i

/-- **C106**, ForwardEuler. If a step of size `h0` in the direction of the derivative does not leave a convex region, a solver with a step
size of at most `h0` that starts in the region stays in it: after any calls all states in its history are in the region, and if the
right-hand side does not raise there, the next step is made. -/
theorem C106_ForwardEuler (R : Set (Vec α n)) (hR : Convex α R) (rhs : Rhs α n) (t0 h0 : α) (hf : ShortStepsStay R t0 h0 rhs)
    (g : Buffer α n (histExtra 0)) (bo : BisectOpts α) (argsort : List α → List Nat) (starter : Starter α n) (y0 : Vec α n) (hy : y0 ∈ R)
    (h : α) (hh : 0 ≤ h) (hh0 : h ≤ h0) (b : Bound α) (s0 s' : St α n (histExtra 0) Unit)
    (hs0 : multistepInit g bo argsort starter rhs t0 y0 (some h) = some (.ok s0))
    (hs : Session ⟨explicitMultistep ForwardEuler, rhs, b⟩ bo argsort s0 s') :
    (∀ i, s'.cache.ys i ∈ R) ∧
      ((∀ t y, t0 ≤ t → y ∈ R → ∃ v, rhs t y = .ok v) → ∃ s'', Takes ⟨explicitMultistep ForwardEuler, rhs, b⟩ s' s'') := by
  have hnew : ∀ u : St α n (histExtra 0) Unit, u.y ∈ R → rhs u.t u.y = .ok u.f → t0 ≤ u.t → u.h = h →
      multistepK (p := 0) ForwardEuler u.cache u.h ∈ R := by
    intro u h1 h2 h3 h4
    rw [euler_new]
    exact shorter_stays hR h1 (hf _ _ _ h3 h1 h2) (h4.symm ▸ hh) (h4.symm ▸ hh0)
  obtain ⟨f0, hf0, h1, h2⟩ := order_one_init hs0
  have key := session_invariant (S := ⟨explicitMultistep ForwardEuler, rhs, b⟩)
    (fun u => u.h = h ∧ ∀ i, t0 ≤ u.cache.ts i ∧ u.cache.ys i ∈ R ∧ rhs (u.cache.ts i) (u.cache.ys i) = .ok (u.cache.fs i)) ?_ hs
    ⟨h1, fun i => by obtain ⟨a1, a2, a3⟩ := h2 i; rw [a1, a2, a3]; exact ⟨le_rfl, hy, hf0⟩⟩
  · refine ⟨fun i => (key.2 i).2.1, fun hd => ?_⟩
    obtain ⟨v, hv⟩ := hd (s'.t + s'.h) _ (le_add_of_le_of_nonneg (key.2 _).1 (key.1.symm ▸ hh))
      (hnew s' (key.2 _).2.1 (key.2 _).2.2 (key.2 _).1 key.1)
    unfold Takes
    change ∃ s'', (explicitMultistepBody ForwardEuler rhs).run s' = _
    rw [explicitMultistepBody_run, hv]
    exact ⟨_, rfl⟩
  · rintro u v hp ⟨a1, a2⟩
    cases hp with
    | @body r b' hb hfit hrun =>
      change (explicitMultistepBody ForwardEuler rhs).run u = _ at hrun
      rw [explicitMultistepBody_run] at hrun
      cases e : rhs (u.t + u.h) (multistepK (p := 0) ForwardEuler u.cache u.h) with
      | error x => rw [e] at hrun; cases hrun; exact ⟨a1, a2⟩
      | ok x =>
        rw [e] at hrun
        cases hrun
        refine ⟨a1, fun i => ?_⟩
        by_cases hi : i.val + 1 < histExtra 0 + 2
        · simp only [Buffer.push, shiftIn, hi, dif_pos]
          exact a2 _
        · simp only [Buffer.push, shiftIn, hi, dif_neg, not_false_eq_true]
          exact ⟨le_add_of_le_of_nonneg (a2 _).1 (a1.symm ▸ hh), hnew u (a2 _).2.1 (a2 _).2.2 (a2 _).1 a1, e⟩
    | interp t hi =>
      obtain ⟨g1, g2⟩ := (IsLibrary.shaped (Or.inl (.explicitMultistep ForwardEuler))).interp _ _ _ _ _ hi
      rw [g1, g2]
      exact ⟨a1, a2⟩

/-- **C106**, BackwardEuler on a scalar linear problem `y' = lam y + g(t)` with `lam ≤ 0` and `g ≥ 0`: states are never negative, however large
the step size, and the next step is made. -/
theorem C106_BackwardEuler_linear (lib : Lib α) (zo : ZeroOpts α) (he : 0 < zo.secantEps) (ht : 0 ≤ zo.tol) (hr : 0 ≤ zo.rtol) (lam : α) (hl : lam ≤ 0)
    (gt : α → α) (hg : ∀ t, 0 ≤ gt t) (g : Buffer α 1 (histExtra 0)) (bo : BisectOpts α) (argsort : List α → List Nat) (starter : Starter α 1) (t0 : α)
    (y0 : Vec α 1) (hy : 0 ≤ y0 0) (h : α) (hh : 0 ≤ h) (b : Bound α) (s0 s' : St α 1 (histExtra 0) Unit)
    (hs0 : multistepInit g bo argsort starter (pureRhs fun t y i => lam * y i + gt t) t0 y0 (some h) = some (.ok s0))
    (hs : Session ⟨implicitMultistep lib zo BackwardEuler, pureRhs fun t y i => lam * y i + gt t, b⟩ bo argsort s0 s') :
    (∀ i, 0 ≤ s'.cache.ys i 0) ∧
      ∃ s'', Takes ⟨implicitMultistep lib zo BackwardEuler, pureRhs fun t y i => lam * y i + gt t, b⟩ s' s'' := by
  obtain ⟨f0, hf0, h1, h2⟩ := order_one_init hs0
  have hreg : ∀ u : St α 1 (histExtra 0) Unit, u.h = h → 0 < 1 - u.h * (BackwardEuler : MultistepCoef α 0).Bn * lam := by
    intro u a1
    have : (BackwardEuler : MultistepCoef α 0).Bn = 1 := by simp [BackwardEuler, AdamsMoulton1]
    rw [this, a1, mul_one]
    have := mul_nonpos_of_nonneg_of_nonpos hh hl
    linarith
  suffices hk : s'.h = h ∧ ∀ i, 0 ≤ s'.cache.ys i 0 by
    obtain ⟨y', f', -, h3, -⟩ := linear_exact lib zo he ht hr BackwardEuler lam gt b s' (hreg s' hk.1).ne'
    exact ⟨hk.2, _, h3⟩
  refine (session_invariant (S := ⟨implicitMultistep lib zo BackwardEuler, pureRhs fun t y i => lam * y i + gt t, b⟩)
    (fun u => u.h = h ∧ ∀ i, 0 ≤ u.cache.ys i 0) ?_ hs ⟨h1, fun i => by rw [(h2 i).2.1]; exact hy⟩)
  rintro u v hp ⟨a1, a2⟩
  cases hp with
  | @body r b' hb hfit hrun =>
    have hpos := hreg u a1
    obtain ⟨y', f', hf', h3, h4⟩ := linear_exact lib zo he ht hr BackwardEuler lam gt b u hpos.ne'
    unfold Takes at h3
    rw [h3] at hrun
    cases hrun
    have h5 := congrFun h4 0
    simp only [defect] at h5
    obtain rfl : (fun i => lam * y' i + gt (u.t + u.h)) = f' := hf'.symm
    have hA : (BackwardEuler : MultistepCoef α 0).A 0 = -1 := by simp [BackwardEuler, AdamsMoulton1, adamsA]
    have hB : (BackwardEuler : MultistepCoef α 0).B 0 = 0 := by simp [BackwardEuler, AdamsMoulton1]
    have hBn : (BackwardEuler : MultistepCoef α 0).Bn = 1 := by simp [BackwardEuler, AdamsMoulton1]
    rw [hBn, mul_one] at hpos
    have h6 : y' 0 + -1 * u.y 0 - u.h * (1 * (lam * y' 0 + gt (u.t + u.h)) + 0) = 0 := by
      have e : ((0 : Fin 1).rev) = 0 := rfl
      simp only [Finset.univ_unique, Fin.default_eq_zero, Finset.sum_singleton, Fin.isValue, Nat.reduceAdd, e, hA, hB, hBn, zero_mul] at h5
      exact h5
    have h7 : 0 ≤ y' 0 * (1 - u.h * lam) := by
      have e1 := a2 (Buffer.iLast _)
      have e1 : 0 ≤ u.y 0 := e1
      have e2 := mul_nonneg (a1.symm ▸ hh : 0 ≤ u.h) (hg (u.t + u.h))
      linarith
    have h8 : 0 ≤ y' 0 := nonneg_of_mul_nonneg_left h7 hpos
    refine ⟨a1, fun i => ?_⟩
    by_cases hi : i.val + 1 < histExtra 0 + 2
    · simp only [Buffer.push, shiftIn, hi, dif_pos]
      exact a2 _
    · simp only [Buffer.push, shiftIn, hi, dif_neg, not_false_eq_true]
      exact h8
  | interp t hi =>
    obtain ⟨g1, g2⟩ := (IsLibrary.shaped (Or.inl (.implicitMultistep lib zo BackwardEuler))).interp _ _ _ _ _ hi
    rw [g1, g2]
    exact ⟨a1, a2⟩

/-- The constructor of a method of order one, on a right-hand side that is defined everywhere. -/
theorem order_one_starts (g : Buffer α n (histExtra 0)) (bo : BisectOpts α) (argsort : List α → List Nat) (starter : Starter α n)
    (f : α → Vec α n → Vec α n) (t0 : α) (y0 : Vec α n) (h : α) :
    ∃ s0, multistepInit g bo argsort starter (pureRhs f) t0 y0 (some h) = some (.ok s0) := by
  unfold multistepInit
  cases h0 : solverInit g () (pureRhs f) t0 y0 (some h) with
  | error e => simp [solverInit, pureRhs, bind, Except.bind] at h0; cases h0
  | ok s1 => exact ⟨_, by simp; rfl⟩

/-- **C106 refuted** for the values between the steps, with `ForwardEuler`: on `y' = 3 t - y` from 1 at time 0 with step size 1, a step of size 1
in the direction of the derivative never leads from a value that is not negative to a negative one. The recorded states are 1 and 0, but
`interpolate(0.8)` is `-0.312`. -/
theorem C106_refuted_dense (g : Buffer α 1 (histExtra 0)) (bo : BisectOpts α) (argsort : List α → List Nat) (starter : Starter α 1) (b : Bound α) :
    ShortStepsStay {y : Vec α 1 | 0 ≤ y 0} 0 1 (pureRhs fun t y i => 3 * t - y i) ∧
    ∃ s0 s1, multistepInit g bo argsort starter (pureRhs fun t y i => 3 * t - y i) 0 (fun _ => 1) (some 1) = some (.ok s0) ∧
      Takes ⟨explicitMultistep ForwardEuler, pureRhs fun t y i => 3 * t - y i, b⟩ s0 s1 ∧
      ∃ r s', (Solver.interpolate ⟨explicitMultistep ForwardEuler, pureRhs fun t y i => 3 * t - y i, b⟩ (4/5)).run s1 = some (.ok r, s') ∧
        r.deref s1.cache 0 = -(312/1000) := by
  constructor
  · intro t y v ht hy hv
    obtain rfl : (fun i => 3 * t - y i) = v := Except.ok.inj hv
    show 0 ≤ y 0 + 1 * (3 * t - y 0)
    linarith
  · obtain ⟨s0, hs0⟩ := order_one_starts g bo argsort starter (fun t y i => 3 * t - y i) 0 (fun _ => 1) 1
    obtain ⟨f0, hf0, h1, h2⟩ := order_one_init hs0
    obtain rfl : (fun i => 3 * 0 - 1) = f0 := Except.ok.inj hf0
    have e1 : s0.t = 0 := (h2 _).1
    have e2 : s0.y = fun _ => 1 := (h2 _).2.1
    have e3 : s0.f = fun _ => 3 * 0 - 1 := (h2 _).2.2
    have e4 : multistepK (p := 0) ForwardEuler s0.cache s0.h = fun _ => 0 := by
      rw [euler_new]
      funext i
      have a2 := congrFun e2 i
      have a3 := congrFun e3 i
      change s0.cache.y i = _ at a2
      change s0.cache.f i = _ at a3
      rw [h1, a2, a3]
      norm_num
    refine ⟨s0, { s0 with cache := s0.cache.push 1 (fun _ => 0) (fun _ => 3) }, hs0, ?_, ?_⟩
    · unfold Takes
      change (explicitMultistepBody ForwardEuler (pureRhs fun t y i => 3 * t - y i)).run s0 = _
      rw [explicitMultistepBody_run, e4, e1, h1]
      simp [pureRhs]
    · have hu : ∀ u : St α 1 (histExtra 0) Unit, u.cache.ts (Buffer.iOld _) = 0 → u.cache.ys (Buffer.iOld _) = (fun _ => 1) →
          u.cache.fs (Buffer.iOld _) = (fun _ => 3 * 0 - 1) → u.t = 1 → u.y = (fun _ => 0) → u.f = (fun _ => 3) →
          ∃ r s', (Solver.interpolate ⟨explicitMultistep ForwardEuler, pureRhs fun t y i => 3 * t - y i, b⟩ (4/5)).run u = some (.ok r, s') ∧
            r.deref u.cache 0 = -(312/1000) := by
        intro u b1 b2 b3 b4 b5 b6
        obtain ⟨r, s', g1, g2⟩ := C23_reproduces_cubics ⟨explicitMultistep ForwardEuler, pureRhs fun t y i => 3 * t - y i, b⟩
          (.explicitMultistep _) u (by rw [b1, b4]; exact zero_lt_one)
          (fun _ => Polynomial.C 4 * Polynomial.X ^ 3 - Polynomial.C 4 * Polynomial.X ^ 2 - Polynomial.X + Polynomial.C 1)
          (fun i => by compute_degree) (fun i => by rw [b1, b2]; simp) (fun i => by rw [b1, b3]; simp) (fun i => by rw [b4, b5]; simp)
          (fun i => by rw [b4, b6]; simp; norm_num) (4/5) (by rw [b1]; norm_num) (by rw [b4]; norm_num)
        refine ⟨r, s', g1, ?_⟩
        rw [g2]
        simp
        norm_num
      exact hu _ (h2 _).1 (h2 _).2.1 (h2 _).2.2 rfl rfl rfl

end field

section real
variable {s d : Nat}

/-- Rises at time 0 and falls off later; negative states fall further. -/
noncomputable def dip (e h0 : ℝ) : ℝ → Vec ℝ 1 → Vec ℝ 1 := fun t y _ => if t ≤ 0 then e else if y 0 < 0 then -e else -min e (y 0 / h0)

theorem dip_stays {e h0 : ℝ} (he : 0 ≤ e) (hh : 0 < h0) : ShortStepsStay notNegative 0 h0 (pureRhs (dip e h0)) := by
  intro t y v _ hy hv
  obtain rfl : dip e h0 t y = v := Except.ok.inj hv
  have hy : 0 ≤ y 0 := hy
  show 0 ≤ y 0 + h0 * dip e h0 t y 0
  unfold dip
  split_ifs with h1 h2
  · positivity
  · linarith
  · have h3 : min e (y 0 / h0) ≤ y 0 / h0 := min_le_right _ _
    have h4 := mul_le_mul_of_nonneg_left h3 hh.le
    rw [mul_div_cancel₀ _ hh.ne'] at h4
    linarith

theorem dip_zero (e h0 : ℝ) (y : Vec ℝ 1) {t : ℝ} (ht : t ≤ 0) : dip e h0 t y 0 = e := by simp [dip, ht]

theorem dip_neg (e h0 : ℝ) {y : Vec ℝ 1} {t : ℝ} (ht : 0 < t) (hy : y 0 < 0) : dip e h0 t y 0 = -e := by simp [dip, ht.not_ge, hy]

theorem dip_pos {e h0 : ℝ} (he : 0 < e) (hh : 0 < h0) {y : Vec ℝ 1} {t : ℝ} (ht : 0 < t) (hy : 0 < y 0) : dip e h0 t y 0 < 0 := by
  simp only [dip, ht.not_ge, if_false, hy.not_gt]
  have : 0 < min e (y 0 / h0) := lt_min he (by positivity)
  linarith

theorem dip_le {e h0 : ℝ} (he : 0 ≤ e) (hh : 0 < h0) (y : Vec ℝ 1) {t : ℝ} (ht : 0 < t) : dip e h0 t y 0 ≤ 0 := by
  simp only [dip, ht.not_ge, if_false]
  split_ifs with h1
  · linarith
  · have : 0 ≤ min e (y 0 / h0) := le_min he (div_nonneg (not_lt.1 h1) hh.le)
    linarith

theorem dip_abs {e h0 : ℝ} (he : 0 ≤ e) (hh : 0 < h0) (y : Vec ℝ 1) (t : ℝ) : |dip e h0 t y 0| ≤ e := by
  unfold dip
  split_ifs with h1 h2
  · rw [abs_of_nonneg he]
  · rw [abs_neg, abs_of_nonneg he]
  · have : 0 ≤ min e (y 0 / h0) := le_min he (div_nonneg (not_lt.1 h2) hh.le)
    rw [abs_neg, abs_of_nonneg this]
    exact min_le_left _ _

theorem dip_stage {T : Tableau ℝ s} {e h0 h : ℝ} {K : Fin (s + 1) → Vec ℝ 1} (hK : RKStages T (pureRhs (dip e h0)) 0 h 0 K) (i : Fin (s + 1)) :
    K i 0 = dip e h0 (T.C i * h) (fun _ => h * ∑ j, T.A i j * K j 0) 0 := by
  have := hK i
  simp only [pureRhs, Except.ok.injEq, zero_add, Pi.zero_apply] at this
  rw [← this]
  congr 1
  funext d
  rw [Subsingleton.elim d 0]

theorem leaves_of_stages {T : Tableau ℝ s} (hT : Explicit T) (b : Bound ℝ)
    (hS : ∀ h0 h K, 0 < h0 → 0 < h → RKStages T (pureRhs (dip 1 h0)) 0 h 0 K → ∑ j, T.B j * K j 0 < 0) :
    LeavesRegion fun rhs => (⟨erk T, rhs, b⟩ : Solver ℝ 1 0 (ErkAux ℝ 1 s)) := by
  intro h0 h hh0 hh
  refine ⟨dip 1 h0, dip_stays zero_le_one hh0, fun st h1 h2 h3 h4 => ?_⟩
  have hK := stageFn_stages hT (dip 1 h0) st.t st.h st.y
  refine ⟨_, (erk_takes_iff T hT (pureRhs (dip 1 h0)) b st _ (by rw [h1, h2, h3]; rfl)).mpr ⟨_, _, hK, rfl, rfl⟩, ?_⟩
  rw [h1, h2, h4] at hK
  rw [St.y, push_y, h1, h2, h4]
  have := mul_neg_of_pos_of_neg hh (hS h0 h _ hh0 hh hK)
  simpa [rkNew] using this

/-- **C106 refuted**: `Runge2`. -/
theorem C106_refuted_Runge2 (b : Bound ℝ) : LeavesRegion fun rhs => (⟨erk Runge2, rhs, b⟩ : Solver ℝ 1 0 (ErkAux ℝ 1 1)) := by
  refine leaves_of_stages Runge2_conditions.explicit b fun h0 h K hh0 hh hK => ?_
  have h1 := dip_stage hK 0
  have h2 := dip_stage hK 1
  rw [dip_zero _ _ _ (by simp [Runge2])] at h1
  have h3 : K 1 0 < 0 := by
    rw [h2]
    refine dip_pos one_pos hh0 (by simp [Runge2, q]; positivity) ?_
    simp [Runge2, q, Fin.sum_univ_succ, h1]
    positivity
  simpa [Runge2, q, Fin.sum_univ_succ] using h3

/-- Three stages of the other methods. -/
theorem dip_third {T : Tableau ℝ (s + 2)} (h : ℝ) {h0 e : ℝ} {K : Fin (s + 3) → Vec ℝ 1} (he : 0 < e) (hh : 0 < h) (hh0 : 0 < h0) (hT : Explicit T)
    (hC1 : 0 < T.C 1) (hC2 : 0 < T.C 2) (hA1 : 0 < T.A 1 0) (hA2 : T.A 2 0 ≤ 0) (hA3 : 0 < T.A 2 1)
    (hK : RKStages T (pureRhs (dip e h0)) 0 h 0 K) : K 0 0 = e ∧ K 1 0 < 0 ∧ K 2 0 = -e := by
  have h1 := dip_stage hK 0
  have h2 := dip_stage hK 1
  have h3 := dip_stage hK 2
  rw [dip_zero _ _ _ (by simp [hT.first])] at h1
  have z1 : ∑ j, T.A 1 j * K j 0 = T.A 1 0 * e := by
    rw [Fin.sum_univ_succ, h1, Finset.sum_eq_zero, add_zero]
    intro j _
    rw [hT.upper 1 j.succ (by rw [Fin.le_def]; simp), zero_mul]
  have h4 : K 1 0 < 0 := by
    rw [h2]
    exact dip_pos he hh0 (by positivity) (by rw [z1]; positivity)
  have z2 : ∑ j, T.A 2 j * K j 0 = T.A 2 0 * e + T.A 2 1 * K 1 0 := by
    rw [Fin.sum_univ_succ, h1, Fin.sum_univ_succ, Finset.sum_eq_zero, add_zero]
    · rfl
    · intro j _
      rw [hT.upper 2 j.succ.succ (by rw [Fin.le_def]; simp; exact (Nat.mod_le _ _).trans (by omega)), zero_mul]
  refine ⟨h1, h4, ?_⟩
  rw [h3]
  refine dip_neg _ _ (by positivity) ?_
  rw [z2]
  have := mul_neg_of_pos_of_neg hA3 h4
  have := mul_nonpos_of_nonpos_of_nonneg hA2 he.le
  exact mul_neg_of_pos_of_neg hh (by linarith)

/-- **C106 refuted**: `Runge3`. -/
theorem C106_refuted_Runge3 (b : Bound ℝ) : LeavesRegion fun rhs => (⟨erk Runge3, rhs, b⟩ : Solver ℝ 1 0 (ErkAux ℝ 1 3)) := by
  refine leaves_of_stages Runge3_conditions.explicit b fun h0 h K hh0 hh hK => ?_
  obtain ⟨h1, h2, h3⟩ := dip_third (T := Runge3) h one_pos hh hh0 Runge3_conditions.explicit (by simp [Runge3, q]) (by simp [Runge3, q]) (by simp [Runge3, q])
    (by simp [Runge3, q]) (by simp [Runge3, q]) hK
  have h4 := dip_stage hK 3
  rw [dip_neg _ _ (by simp [Runge3, q]; positivity) (by simp [Runge3, q, Fin.sum_univ_succ, h3]; positivity)] at h4
  simp [Runge3, q, Fin.sum_univ_succ, h1, h3, h4]
  linarith

/-- **C106 refuted**: `Heun3`. -/
theorem C106_refuted_Heun3 (b : Bound ℝ) : LeavesRegion fun rhs => (⟨erk Heun3, rhs, b⟩ : Solver ℝ 1 0 (ErkAux ℝ 1 2)) := by
  refine leaves_of_stages Heun3_conditions.explicit b fun h0 h K hh0 hh hK => ?_
  obtain ⟨h1, h2, h3⟩ := dip_third (T := Heun3) h one_pos hh hh0 Heun3_conditions.explicit (by simp [Heun3, q]) (by simp [Heun3, q]) (by simp [Heun3, q])
    (by simp [Heun3, q]) (by simp [Heun3, q]) hK
  simp [Heun3, q, Fin.sum_univ_succ, h1, h3]
  norm_num

/-- **C106 refuted**: `RungeKutta4`. -/
theorem C106_refuted_RungeKutta4 (b : Bound ℝ) : LeavesRegion fun rhs => (⟨erk RungeKutta4, rhs, b⟩ : Solver ℝ 1 0 (ErkAux ℝ 1 3)) := by
  refine leaves_of_stages RungeKutta4_conditions.explicit b fun h0 h K hh0 hh hK => ?_
  obtain ⟨h1, h2, h3⟩ := dip_third (T := RungeKutta4) h one_pos hh hh0 RungeKutta4_conditions.explicit (by simp [RungeKutta4, q]) (by simp [RungeKutta4, q])
    (by simp [RungeKutta4, q]) (by simp [RungeKutta4, q]) (by simp [RungeKutta4, q]) hK
  have h4 : K 3 0 ≤ 0 := by
    rw [dip_stage hK 3]
    exact dip_le zero_le_one hh0 _ (by simp [RungeKutta4, q]; positivity)
  simp [RungeKutta4, q, Fin.sum_univ_succ, h1, h3]
  linarith

/-- **C106 refuted**: `RungeKutta3_8`. -/
theorem C106_refuted_RungeKutta3_8 (b : Bound ℝ) : LeavesRegion fun rhs => (⟨erk RungeKutta3_8, rhs, b⟩ : Solver ℝ 1 0 (ErkAux ℝ 1 3)) := by
  refine leaves_of_stages RungeKutta3_8_conditions.explicit b fun h0 h K hh0 hh hK => ?_
  obtain ⟨h1, h2, h3⟩ := dip_third (T := RungeKutta3_8) h one_pos hh hh0 RungeKutta3_8_conditions.explicit (by simp [RungeKutta3_8, q])
    (by simp [RungeKutta3_8, q]) (by simp [RungeKutta3_8, q]) (by simp [RungeKutta3_8, q]) (by simp [RungeKutta3_8, q]) hK
  have h4 : K 3 0 ≤ 0 := by
    rw [dip_stage hK 3]
    exact dip_le zero_le_one hh0 _ (by simp [RungeKutta3_8, q]; positivity)
  simp [RungeKutta3_8, q, Fin.sum_univ_succ, h1, h3]
  linarith

/-- A step is accepted as it is if the estimate of its error is smaller than `atol`. -/
theorem fsal_accepts {lib : Lib ℝ} (hl : RealFunctions lib) {o : VarOptions ℝ} (ha : 0 < o.atol) (hr : 0 ≤ o.rtol) {c : FsalCoef ℝ s d}
    (hT : Explicit c.toTableau) (b : Bound ℝ) (f : ℝ → Vec ℝ 1 → Vec ℝ 1) (st : St ℝ 1 0 (FsalAux ℝ 1 s (RkItp ℝ 1 d))) (hf : st.f = f st.t st.y)
    {K : Fin (s + 2) → Vec ℝ 1} (hK : RKStages (withLast c.toTableau) (pureRhs f) st.t st.h st.y K) (hE : |st.h * ∑ j, c.E j * K j 0| < o.atol) :
    ∃ st', Takes ⟨fsal lib o c, pureRhs f, b⟩ st st' ∧ st'.y = proposal c.toTableau st.h st.y K := by
  set yn := proposal c.toTableau st.h st.y K
  set w := o.atol + o.rtol * max |yn 0| |st.y 0|
  have hw : o.atol ≤ w := le_add_of_nonneg_right (mul_nonneg hr ((abs_nonneg _).trans (le_max_left _ _)))
  have hn : rmsError lib o st.y yn (fun i => st.h * ∑ j, c.E j * K j i) = |st.h * ∑ j, c.E j * K j 0| / w := by
    simp only [rmsError, hl.sqrt, Finset.univ_unique, Finset.sum_singleton, Nat.cast_one, div_one, Fin.default_eq_zero, Fin.isValue]
    rw [Real.sqrt_sq_eq_abs, abs_div, abs_of_pos (ha.trans_le hw)]
  have h1 : |st.h * ∑ j, c.E j * K j 0| / w < 1 := (div_lt_one (ha.trans_le hw)).2 (hE.trans_le hw)
  have h2 : 0 ≤ |st.h * ∑ j, c.E j * K j 0| / w := div_nonneg (abs_nonneg _) (ha.trans_le hw).le
  obtain ⟨q, hq⟩ : ∃ q, StepFactor lib o c.errorExponent (|st.h * ∑ j, c.E j * K j 0| / w) q := by
    rcases h2.eq_or_lt with h3 | h3
    · exact ⟨_, Or.inl ⟨h3.symm, rfl⟩⟩
    · exact ⟨_, Or.inr ⟨h3.ne', by rw [hl.pow]; exact (Real.rpow_pos_of_pos h3 _).ne', rfl⟩⟩
  refine ⟨_, (fsal_takes_iff lib o c hT _ b st _ (by rw [hf]; rfl)).mpr
    ⟨[⟨st.h, _⟩], ⟨st.h, _⟩, _, K, .accept hK (congrArg Except.ok hn) (Or.inr h1) hq, rfl, rfl⟩, ?_⟩
  exact push_y ..

/-- **C106 refuted**: `RungeKutta23`, whatever the tolerances. -/
theorem C106_refuted_RungeKutta23 {lib : Lib ℝ} (hl : RealFunctions lib) (o : VarOptions ℝ) (ha : 0 < o.atol) (hr : 0 ≤ o.rtol) (b : Bound ℝ) :
    LeavesRegion fun rhs => (⟨fsal lib o RungeKutta23, rhs, b⟩ : Solver ℝ 1 0 (FsalAux ℝ 1 2 (RkItp ℝ 1 3))) := by
  intro h0 h hh0 hh
  have he : 0 < o.atol / (4 * h) := by positivity
  refine ⟨dip (o.atol / (4 * h)) h0, dip_stays he.le hh0, fun st h1 h2 h3 h4 => ?_⟩
  set e := o.atol / (4 * h) with hedef
  have hT := (RungeKutta23_conditions (α := ℝ)).explicit
  obtain ⟨K, hK⟩ : ∃ K, RKStages (withLast (RungeKutta23 : FsalCoef ℝ 2 3).toTableau) (pureRhs (dip e h0)) st.t st.h st.y K :=
    ⟨_, stageFn_stages (withLast_explicit hT) (dip e h0) st.t st.h st.y⟩
  have hK' := hK
  rw [h1, h2, h4] at hK'
  obtain ⟨k1, k2, k3⟩ := dip_third (T := withLast (RungeKutta23 : FsalCoef ℝ 2 3).toTableau) h he hh hh0 (withLast_explicit hT) (by simp [withLast, RungeKutta23, q])
    (by simp [withLast, RungeKutta23, q]) (by simp [withLast, RungeKutta23, q]) (by simp [withLast, RungeKutta23, q]) (by simp [withLast, RungeKutta23, q]) hK'
  have hb : ∀ j, |K j 0| ≤ e := fun j => by rw [dip_stage hK' j]; exact dip_abs he.le hh0 _ _
  obtain ⟨st', g1, g2⟩ := fsal_accepts hl ha hr hT b (dip e h0) st (by rw [h1, h2, h3]) hK (by
    rw [h4, abs_mul, abs_of_pos hh]
    have e1 : |∑ j, (RungeKutta23 : FsalCoef ℝ 2 3).E j * K j 0| ≤ ∑ j, |(RungeKutta23 : FsalCoef ℝ 2 3).E j| * e :=
      (Finset.abs_sum_le_sum_abs _ _).trans (Finset.sum_le_sum fun j _ => by
        rw [abs_mul]; exact mul_le_mul_of_nonneg_left (hb j) (abs_nonneg _))
    have e2 : ∑ j, |(RungeKutta23 : FsalCoef ℝ 2 3).E j| ≤ 1 := by
      simp [Fin.sum_univ_succ, RungeKutta23, fsalE, q, RungeKutta23B2]
      norm_num [abs_of_pos, abs_of_neg]
    rw [← Finset.sum_mul] at e1
    calc h * |∑ j, (RungeKutta23 : FsalCoef ℝ 2 3).E j * K j 0| ≤ h * (1 * e) :=
          mul_le_mul_of_nonneg_left (e1.trans (mul_le_mul_of_nonneg_right e2 he.le)) hh.le
      _ = o.atol / 4 := by rw [hedef]; field_simp
      _ < o.atol := by linarith)
  refine ⟨st', g1, ?_⟩
  rw [g2, h2, h4]
  have : ∑ j : Fin 3, (RungeKutta23 : FsalCoef ℝ 2 3).B j * K j.castSucc 0 < 0 := by
    have k1 : K (Fin.castSucc 0) 0 = e := k1
    have k2 : K (Fin.castSucc 1) 0 < 0 := k2
    have k3 : K (Fin.castSucc 2) 0 = -e := k3
    rw [Fin.sum_univ_three, k1, k3]
    simp only [RungeKutta23, q]
    simp
    linarith
  have := mul_neg_of_pos_of_neg hh this
  simpa [proposal, rkNew] using this

/-- A smooth function of time that is nowhere negative, `e` at `c_i h` and zero at all other nodes. -/
noncomputable def bump {m : ℕ} (c : Fin m → ℝ) (i : Fin m) (e h : ℝ) : ℝ → Vec ℝ 1 → Vec ℝ 1 :=
  fun t _ _ => e * ∏ j, if c j = c i then 1 else ((t / h - c j) / (c i - c j)) ^ 2

theorem bump_stays {m : ℕ} (c : Fin m → ℝ) (i : Fin m) {e h h0 : ℝ} (he : 0 ≤ e) (hh0 : 0 < h0) :
    ShortStepsStay notNegative 0 h0 (pureRhs (bump c i e h)) := by
  intro t y v _ hy hv
  obtain rfl : bump c i e h t y = v := Except.ok.inj hv
  have hy : 0 ≤ y 0 := hy
  have h1 : 0 ≤ bump c i e h t y 0 := mul_nonneg he (Finset.prod_nonneg fun j _ => by split_ifs <;> positivity)
  show 0 ≤ y 0 + h0 * bump c i e h t y 0
  positivity

theorem bump_at {m : ℕ} (c : Fin m → ℝ) (i j : Fin m) (e : ℝ) {h : ℝ} (hh : 0 < h) (y : Vec ℝ 1) (d : Fin 1) :
    bump c i e h (c j * h) y d = if c j = c i then e else 0 := by
  unfold bump
  rw [mul_div_cancel_right₀ _ hh.ne']
  split_ifs with h1
  · rw [Finset.prod_eq_one, mul_one]
    intro l _
    split_ifs with h2
    · rfl
    · rw [h1, div_self (sub_ne_zero.2 (Ne.symm h2)), one_pow]
  · rw [Finset.prod_eq_zero (Finset.mem_univ j), mul_zero]
    rw [if_neg h1, sub_self, zero_div, zero_pow two_ne_zero]

theorem bump_stages {T : Tableau ℝ s} (i : Fin (s + 2)) (e : ℝ) {h : ℝ} (hh : 0 < h) (y : Vec ℝ 1) :
    RKStages (withLast T) (pureRhs (bump (withLast T).C i e h)) 0 h y fun j _ => if (withLast T).C j = (withLast T).C i then e else 0 := by
  intro j
  refine congrArg Except.ok (funext fun d => ?_)
  rw [zero_add, bump_at _ _ _ _ hh]

theorem bump_new {T : Tableau ℝ s} (i : Fin (s + 2)) {e h : ℝ} (he : 0 < e) (hh : 0 < h)
    (hB : (∑ j : Fin (s + 1), if (withLast T).C j.castSucc = (withLast T).C i then T.B j else 0) < 0) :
    proposal T h (0 : Vec ℝ 1) (fun j _ => if (withLast T).C j = (withLast T).C i then e else 0) 0 < 0 := by
  have e1 : ∑ j : Fin (s + 1), T.B j * (if (withLast T).C j.castSucc = (withLast T).C i then e else 0) =
      (∑ j : Fin (s + 1), if (withLast T).C j.castSucc = (withLast T).C i then T.B j else 0) * e := by
    rw [Finset.sum_mul]
    exact Finset.sum_congr rfl fun j _ => by split_ifs <;> simp
  simp only [proposal, rkNew, Pi.zero_apply, zero_add, e1]
  exact mul_neg_of_pos_of_neg hh (mul_neg_of_neg_of_pos hB he)

/-- A size of the bump for which the step is accepted. -/
theorem bump_small (i : Fin (s + 2)) (T : Tableau ℝ s) (E : Fin (s + 2) → ℝ) {h a : ℝ} (hh : 0 < h) (ha : 0 < a) :
    ∃ e, 0 < e ∧ |h * ∑ j, E j * (if (withLast T).C j = (withLast T).C i then e else 0)| < a := by
  set S := ∑ j, E j * (if (withLast T).C j = (withLast T).C i then (1 : ℝ) else 0) with hS
  have hp : 0 < h * (|S| + 1) := by positivity
  refine ⟨a / (h * (|S| + 1)), by positivity, ?_⟩
  have e1 : ∑ j, E j * (if (withLast T).C j = (withLast T).C i then a / (h * (|S| + 1)) else 0) = a / (h * (|S| + 1)) * S := by
    rw [hS, Finset.mul_sum]
    exact Finset.sum_congr rfl fun j _ => by split_ifs <;> ring
  rw [e1, abs_mul, abs_mul, abs_of_pos hh, abs_of_pos (by positivity : 0 < a / (h * (|S| + 1)))]
  have e2 : h * (a / (h * (|S| + 1)) * |S|) = a * (|S| / (|S| + 1)) := by field_simp
  rw [e2]
  have e3 : |S| / (|S| + 1) < 1 := (div_lt_one (by positivity)).2 (lt_add_one _)
  nlinarith

/-- **C106 refuted**: `RungeKutta45`, whatever the tolerances, on a problem whose right-hand side is a polynomial in time that is nowhere
negative. -/
theorem C106_refuted_RungeKutta45 {lib : Lib ℝ} (hl : RealFunctions lib) (o : VarOptions ℝ) (ha : 0 < o.atol) (hr : 0 ≤ o.rtol) (b : Bound ℝ) :
    LeavesRegion fun rhs => (⟨fsal lib o RungeKutta45, rhs, b⟩ : Solver ℝ 1 0 (FsalAux ℝ 1 5 (RkItp ℝ 1 4))) := by
  intro h0 h hh0 hh
  obtain ⟨e, he, hE⟩ := bump_small 4 (RungeKutta45 : FsalCoef ℝ 5 4).toTableau (RungeKutta45 : FsalCoef ℝ 5 4).E hh ha
  refine ⟨bump (withLast (RungeKutta45 : FsalCoef ℝ 5 4).toTableau).C 4 e h, bump_stays _ _ he.le hh0, fun st h1 h2 h3 h4 => ?_⟩
  have hK := bump_stages (T := (RungeKutta45 : FsalCoef ℝ 5 4).toTableau) 4 e hh (0 : Vec ℝ 1)
  obtain ⟨st', g1, g2⟩ := fsal_accepts hl ha hr (RungeKutta45_conditions (α := ℝ)).explicit b _ st (by rw [h3, h1, h2])
    (K := fun j _ => if (withLast (RungeKutta45 : FsalCoef ℝ 5 4).toTableau).C j = (withLast (RungeKutta45 : FsalCoef ℝ 5 4).toTableau).C 4 then e else 0)
    (by rw [h1, h2, h4]; exact hK) (by rw [h4]; exact hE)
  refine ⟨st', g1, ?_⟩
  rw [g2, h2, h4]
  refine bump_new 4 he hh ?_
  simp [Fin.sum_univ_succ, withLast, RungeKutta45, q]
  norm_num

/-- A step of DOP853 is accepted as it is if the first estimate of its error is smaller than `atol` and not zero. -/
theorem dop_accepts {lib : Lib ℝ} (hl : RealFunctions lib) {o : VarOptions ℝ} (ha : 0 < o.atol) (hr : 0 ≤ o.rtol) {c : DopCoef ℝ}
    (hT : Explicit c.toTableau) (b : Bound ℝ) (f : ℝ → Vec ℝ 1 → Vec ℝ 1) (st : St ℝ 1 0 (FsalAux ℝ 1 11 (DopItp ℝ 1))) (hf : st.f = f st.t st.y)
    {K : Fin 13 → Vec ℝ 1} (hK : RKStages (withLast c.toTableau) (pureRhs f) st.t st.h st.y K) (h0 : st.h * ∑ j, c.E5 j * K j 0 ≠ 0)
    (hE : |st.h * ∑ j, c.E5 j * K j 0| < o.atol) :
    ∃ st', Takes ⟨dop853 lib o c, pureRhs f, b⟩ st st' ∧ st'.y = proposal c.toTableau st.h st.y K := by
  set yn := proposal c.toTableau st.h st.y K with hyn
  set w := o.atol + o.rtol * max |yn 0| |st.y 0|
  have hw : o.atol ≤ w := le_add_of_nonneg_right (mul_nonneg hr ((abs_nonneg _).trans (le_max_left _ _)))
  have hwp : 0 < w := ha.trans_le hw
  have hn : rmsError lib o st.y yn (fun i => st.h * ∑ j, c.E5 j * K j i) = |st.h * ∑ j, c.E5 j * K j 0| / w := by
    simp only [rmsError, hl.sqrt, Finset.univ_unique, Finset.sum_singleton, Nat.cast_one, div_one, Fin.default_eq_zero, Fin.isValue]
    rw [Real.sqrt_sq_eq_abs, abs_div, abs_of_pos (ha.trans_le hw)]
  set e5 := |st.h * ∑ j, c.E5 j * K j 0| / w
  have h1 : e5 < 1 := (div_lt_one hwp).2 (hE.trans_le hw)
  have h2 : 0 < e5 := div_pos (abs_pos.2 h0) hwp
  set e3 := rmsError lib o st.y yn fun i => st.h * ∑ j, c.E3 j * K j i
  set r := lib.sqrt (1 + (e3 / (10 * e5)) ^ 2) with hrdef
  have h3 : 1 ≤ r := by
    rw [hrdef, hl.sqrt]
    exact Real.one_le_sqrt.2 (le_add_of_nonneg_right (sq_nonneg _))
  have h4 : e5 / r < 1 := (div_lt_one (by linarith)).2 (by linarith)
  have h5 : 0 < e5 / r := div_pos h2 (by linarith)
  have hnorm : dopNorm lib o c.E3 c.E5 st.h K yn st.y = .ok (e5 / r) := by
    simp only [dopNorm, hn]
    rw [if_neg (by rintro (h | h) <;> [exact h2.ne' h; (have h : r = 0 := h; linarith)])]
  obtain ⟨q, hq⟩ : ∃ q, StepFactor lib o c.errorExponent (e5 / r) q :=
    ⟨_, Or.inr ⟨h5.ne', by rw [hl.pow]; exact (Real.rpow_pos_of_pos h5 _).ne', rfl⟩⟩
  refine ⟨_, (dop853_takes_iff lib o c hT _ b st _ (by rw [hf]; rfl)).mpr
    ⟨[⟨st.h, _⟩], ⟨st.h, _⟩, _, K, .accept hK hnorm (Or.inr h4) hq, rfl, rfl⟩, ?_⟩
  exact push_y ..

theorem dop_node (j : Fin 13) : (withLast (DOP853 : DopCoef ℝ).toTableau).C j = (withLast (DOP853 : DopCoef ℝ).toTableau).C 7 ↔ j = 7 := by
  constructor
  · intro h
    fin_cases j <;> first | rfl | (exfalso; simp [withLast, DOP853, dopC, q] at h; try norm_num at h)
  · rintro rfl; rfl

/-- **C106 refuted**: `DOP853`, in the same way. -/
theorem C106_refuted_DOP853 {lib : Lib ℝ} (hl : RealFunctions lib) (o : VarOptions ℝ) (ha : 0 < o.atol) (hr : 0 ≤ o.rtol) (b : Bound ℝ) :
    LeavesRegion fun rhs => (⟨dop853 lib o DOP853, rhs, b⟩ : Solver ℝ 1 0 (FsalAux ℝ 1 11 (DopItp ℝ 1))) := by
  intro h0 h hh0 hh
  obtain ⟨e, he, hE⟩ := bump_small 7 (DOP853 : DopCoef ℝ).toTableau (DOP853 : DopCoef ℝ).E5 hh ha
  refine ⟨bump (withLast (DOP853 : DopCoef ℝ).toTableau).C 7 e h, bump_stays _ _ he.le hh0, fun st h1 h2 h3 h4 => ?_⟩
  have hK := bump_stages (T := (DOP853 : DopCoef ℝ).toTableau) 7 e hh (0 : Vec ℝ 1)
  obtain ⟨st', g1, g2⟩ := dop_accepts hl ha hr (DOP853_explicit (α := ℝ)) b _ st (by rw [h3, h1, h2])
    (K := fun j _ => if (withLast (DOP853 : DopCoef ℝ).toTableau).C j = (withLast (DOP853 : DopCoef ℝ).toTableau).C 7 then e else 0)
    (by rw [h1, h2, h4]; exact hK) (by
      rw [h4]
      simp only [dop_node, mul_ite, mul_zero, Finset.sum_ite_eq', Finset.mem_univ, if_true]
      refine mul_ne_zero hh.ne' (mul_ne_zero ?_ he.ne')
      simp [DOP853, dopE5, q]) (by rw [h4]; exact hE)
  refine ⟨st', g1, ?_⟩
  rw [g2, h2, h4]
  refine bump_new 7 he hh ?_
  have e1 : ∀ j : Fin 12, (withLast (DOP853 : DopCoef ℝ).toTableau).C j.castSucc = (withLast (DOP853 : DopCoef ℝ).toTableau).C 7 ↔ j = 7 := by
    intro j
    rw [dop_node]
    exact ⟨fun h => Fin.castSucc_injective _ (show j.castSucc = Fin.castSucc 7 from h), fun h => by rw [h]; rfl⟩
  simp only [e1, Finset.sum_ite_eq', Finset.mem_univ, if_true]
  simp [DOP853, dopB, q]

end real

namespace Demo

/-- C106 for `ForwardEuler` applies to the reaction `A → B` with rate 1: the amounts stay positive with steps of size at most 1, here 1/2. -/
example (g : Buffer ℚ 2 (histExtra 0)) (bo : BisectOpts ℚ) (argsort : List ℚ → List Nat) (starter : Starter ℚ 2) (s0 s' : St ℚ 2 (histExtra 0) Unit)
    (hs0 : multistepInit g bo argsort starter (pureRhs fun _ y => ![-(y 0), y 0]) 0 ![1, 0] (some (1/2)) = some (.ok s0))
    (hs : Session ⟨explicitMultistep ForwardEuler, pureRhs fun _ y => ![-(y 0), y 0], .inf⟩ bo argsort s0 s') :
    (∀ i, 0 ≤ s'.cache.ys i 0 ∧ 0 ≤ s'.cache.ys i 1) ∧ ∃ s'', Takes ⟨explicitMultistep ForwardEuler, pureRhs fun _ y => ![-(y 0), y 0], .inf⟩ s' s'' := by
  have h := C106_ForwardEuler {y : Vec ℚ 2 | 0 ≤ y 0 ∧ 0 ≤ y 1} (by
      rintro x ⟨h1, h2⟩ y ⟨h3, h4⟩ a b ha hb -
      constructor <;> simp only [Pi.add_apply, Pi.smul_apply, smul_eq_mul] <;> positivity) _ 0 1 (by
      rintro t y v - ⟨h1, h2⟩ hv
      obtain rfl : ![-(y 0), y 0] = v := Except.ok.inj hv
      constructor
      · show 0 ≤ y 0 + 1 * -(y 0); linarith
      · show 0 ≤ y 1 + 1 * y 0; linarith) g bo argsort starter ![1, 0] (by constructor <;> simp) (1/2) (by norm_num) (by norm_num) .inf s0 s' hs0 hs
  exact ⟨h.1, h.2 fun t y _ _ => ⟨_, rfl⟩⟩

/-- Such solvers can be constructed. -/
example (g : Buffer ℚ 2 (histExtra 0)) (bo : BisectOpts ℚ) (argsort : List ℚ → List Nat) (starter : Starter ℚ 2) :
    ∃ s0, multistepInit g bo argsort starter (pureRhs fun _ y => ![-(y 0), y 0]) 0 ![1, 0] (some (1/2)) = some (.ok s0) :=
  order_one_starts ..

/-- C106 for `BackwardEuler` applies to `y' = 1 - 3 y` from 0, with steps of size 100. -/
example (lib : Lib ℚ) (g : Buffer ℚ 1 (histExtra 0)) (bo : BisectOpts ℚ) (argsort : List ℚ → List Nat) (starter : Starter ℚ 1) :
    ∃ s0, multistepInit g bo argsort starter (pureRhs fun _ y i => -3 * y i + 1) 0 0 (some 100) = some (.ok s0) ∧
      ∀ s', Session ⟨implicitMultistep lib ⟨1/10, 1/10, 50, 1/10⟩ BackwardEuler, pureRhs fun _ y i => -3 * y i + 1, .inf⟩ bo argsort s0 s' →
        ∀ i, 0 ≤ s'.cache.ys i 0 := by
  obtain ⟨s0, h0⟩ := order_one_starts g bo argsort starter (fun _ y i => -3 * y i + 1) 0 0 100
  exact ⟨s0, h0, fun s' hs => (C106_BackwardEuler_linear lib ⟨1/10, 1/10, 50, 1/10⟩ (by norm_num) (by norm_num) (by norm_num) (-3) (by norm_num) (fun _ => 1)
    (fun _ => by norm_num) g bo argsort starter 0 0 le_rfl 100 (by norm_num) .inf s0 s' h0 hs).1⟩

/-- The state at 0 that the refutations start from is what the constructor makes. -/
example {s : Nat} (g : Buffer ℝ 1 0) (K : ErkAux ℝ 1 s) (f : ℝ → Vec ℝ 1 → Vec ℝ 1) (h : ℝ) :
    ∃ st, erkInit g K (pureRhs f) 0 0 (some h) = .ok st ∧ st.t = 0 ∧ st.y = 0 ∧ st.f = f 0 0 ∧ st.h = h :=
  ⟨_, rfl, init_ts _ _ _ _ _, init_ys _ _ _ _ _, init_fs _ _ _ _ _, rfl⟩

/-- `C106_refuted_Runge2`: a solver made by the constructor leaves the region with its first step of size 1/1000, although steps of size 1 in the
direction of the derivative stay in it. -/
example (g : Buffer ℝ 1 0) (K : ErkAux ℝ 1 1) (b : Bound ℝ) :
    ∃ f st st', ShortStepsStay notNegative 0 1 (pureRhs f) ∧ erkInit g K (pureRhs f) 0 0 (some (1/1000)) = .ok st ∧
      Takes ⟨erk Runge2, pureRhs f, b⟩ st st' ∧ st'.y 0 < 0 := by
  obtain ⟨f, h1, h2⟩ := C106_refuted_Runge2 b 1 (1/1000) one_pos (by norm_num)
  obtain ⟨st', h3, h4⟩ := h2 ⟨Buffer.init g 0 0 (f 0 0), 1/1000, K⟩ (init_ts _ _ _ _ _) (init_ys _ _ _ _ _) (init_fs _ _ _ _ _) rfl
  exact ⟨f, _, st', h1, rfl, h3, h4⟩

/-- The conditions of the refutations for the methods with step size control are met. -/
example (o : VarOptions ℝ) (ha : o.atol = 1/1000) (hr : o.rtol = 1/1000) (b : Bound ℝ) :
    LeavesRegion (fun rhs => (⟨fsal realLib o RungeKutta45, rhs, b⟩ : Solver ℝ 1 0 _)) ∧
      LeavesRegion (fun rhs => (⟨dop853 realLib o DOP853, rhs, b⟩ : Solver ℝ 1 0 _)) :=
  ⟨C106_refuted_RungeKutta45 realLib_real o (by rw [ha]; norm_num) (by rw [hr]; norm_num) b,
    C106_refuted_DOP853 realLib_real o (by rw [ha]; norm_num) (by rw [hr]; norm_num) b⟩

end Demo

end Nbkode
