import Verif.Proofs.MultistepPath
import Verif.Proofs.RunConverges
import Verif.Props.Hermite
import Verif.Props.MultistepStart
import Verif.Props.RunStates
import Verif.Spec.MultistepRun

/-! # The error of Hermite interpolation over the recorded history -/

set_option autoImplicit false
set_option linter.unusedSectionVars false

namespace Nbkode
open Py Spec Solver Polynomial

variable {n k : ℕ} {X : Type}

/-- On a short interval the solution and its derivative are close to a polynomial and its derivative. -/
theorem taylor_near {q : ℕ} {f : ℝ → Vec ℝ n → Vec ℝ n} {y : ℝ → Vec ℝ n} {a b t₀ T : ℝ} (hf : ContDiff ℝ q (joint f))
    (ha : a < t₀) (hb : T < b) (hy : ∀ t ∈ Set.Ioo a b, SolvesAt f y t) :
    ∃ M, 0 ≤ M ∧ ∀ z x, t₀ ≤ z → x ≤ T → ∀ d, ∃ G : ℝ[X], G.natDegree ≤ q ∧ ∀ w ∈ Set.Icc z x,
      |y w d - G.eval w| ≤ M * (x - z) ^ (q + 1) ∧ |f w (y w) d - (derivative G).eval w| ≤ M * (x - z) ^ q := by
  have hsm := solution_smooth hf hy
  have hsub : Set.Icc t₀ T ⊆ Set.Ioo a b := fun t ht => ⟨ha.trans_le ht.1, ht.2.trans_lt hb⟩
  have hcd : ∀ d, ContDiffOn ℝ ((q + 1 : ℕ)) (fun t => y t d) (Set.Ioo a b) := fun d => contDiffOn_pi.mp hsm d
  have hder : ∀ d, ∀ k ≤ q, ∀ t ∈ Set.Icc t₀ T, HasDerivAt (iteratedDeriv k fun t => y t d) (iteratedDeriv (k + 1) (fun t => y t d) t) t := by
    intro d k hk t ht
    rw [iteratedDeriv_succ]
    have h1 : DifferentiableOn ℝ (iteratedDerivWithin k (fun t => y t d) (Set.Ioo a b)) (Set.Ioo a b) :=
      (hcd d).differentiableOn_iteratedDerivWithin (by exact_mod_cast (by omega : k < q + 1)) isOpen_Ioo.uniqueDiffOn
    have h2 : DifferentiableAt ℝ (iteratedDerivWithin k (fun t => y t d) (Set.Ioo a b)) t :=
      h1.differentiableAt (isOpen_Ioo.mem_nhds (hsub ht))
    have h3 : iteratedDerivWithin k (fun t => y t d) (Set.Ioo a b) =ᶠ[nhds t] iteratedDeriv k (fun t => y t d) :=
      Filter.eventuallyEq_of_mem (isOpen_Ioo.mem_nhds (hsub ht)) fun z hz =>
        iteratedDerivWithin_of_isOpen isOpen_Ioo hz
    exact (h3.differentiableAt_iff.mp h2).hasDerivAt
  have hbd : ∀ d, ∃ M, ∀ t ∈ Set.Icc t₀ T, |iteratedDeriv (q + 1) (fun t => y t d) t| ≤ M := by
    intro d
    refine (isCompact_Icc (a := t₀) (b := T)).exists_bound_of_continuousOn
      (f := iteratedDeriv (q + 1) fun t => y t d) ?_
    have h1 : ContinuousOn (iteratedDerivWithin (q + 1) (fun t => y t d) (Set.Ioo a b)) (Set.Ioo a b) :=
      (hcd d).continuousOn_iteratedDerivWithin le_rfl isOpen_Ioo.uniqueDiffOn
    exact (h1.mono hsub).congr fun t ht => (iteratedDerivWithin_of_isOpen isOpen_Ioo (hsub ht)).symm
  choose M hM using hbd
  refine ⟨∑ d, |M d|, Finset.sum_nonneg fun _ _ => abs_nonneg _, fun z x hz hx d => ?_⟩
  obtain ⟨G, hG, hGd⟩ := exists_taylor q (fun k => iteratedDeriv k (fun t => y t d) z) z
  have hzT : Set.Icc z x ⊆ Set.Icc t₀ T := fun w hw => ⟨hz.trans hw.1, hw.2.trans hx⟩
  set g : ℕ → ℝ → ℝ := fun k x => iteratedDeriv k (fun t => y t d) x - (derivative^[k] G).eval x with hg
  have hflat := small_of_flat (q := q) (g := g) (a := z) (b := x) (M := |M d|)
    (fun k hk x hx => by
      refine (hder d k hk x (hzT hx)).sub ?_
      rw [Function.iterate_succ_apply']
      exact Polynomial.hasDerivAt _ _)
    (fun k hk => by simp only [hg, hGd k hk, sub_self])
    (fun x hx => by
      have : derivative^[q + 1] G = 0 := iterate_derivative_eq_zero (by omega)
      simp only [hg, this, eval_zero, sub_zero]
      exact (hM d x (hzT hx)).trans (le_abs_self _))
  have hB0 : |M d| ≤ ∑ d, |M d| := Finset.single_le_sum (f := fun d => |M d|) (fun _ _ => abs_nonneg _) (Finset.mem_univ d)
  have hpow : ∀ j, ∀ w ∈ Set.Icc z x, |M d| * (w - z) ^ j ≤ (∑ d, |M d|) * (x - z) ^ j := by
    intro j w hw
    have h1 : 0 ≤ w - z := sub_nonneg.mpr hw.1
    exact mul_le_mul hB0 (pow_le_pow_left₀ h1 (by linarith [hw.2]) _) (pow_nonneg h1 _)
      (Finset.sum_nonneg fun _ _ => abs_nonneg _)
  refine ⟨G, hG, fun w hw => ⟨?_, ?_⟩⟩
  · have := hflat 0 (by omega) w hw
    simp only [hg, iteratedDeriv_zero, Function.iterate_zero, id_eq, Nat.sub_zero] at this
    exact this.trans (hpow _ w hw)
  · have := hflat 1 (by omega) w hw
    have hdy : iteratedDeriv 1 (fun t => y t d) w = f w (y w) d := by
      rw [iteratedDeriv_one]
      exact (hasDerivAt_pi.mp (hy w (hsub (hzT hw))) d).deriv
    simp only [hg, hdy, Function.iterate_one, Nat.add_sub_cancel] at this
    exact this.trans (hpow _ w hw)

/-- The cubic through two points with two slopes. -/
def herm (θ w ya yb fa fb : ℝ) : ℝ :=
  ya + θ * (yb - ya) + θ * (θ - 1) * ((1 - 2 * θ) * (yb - ya) + w * ((θ - 1) * fa + θ * fb))

theorem herm_sub (θ w a b c d a' b' c' d' : ℝ) :
    herm θ w a b c d - herm θ w a' b' c' d' = herm θ w (a - a') (b - b') (c - c') (d - d') := by
  unfold herm; ring

theorem herm_le {θ w : ℝ} (h0 : 0 ≤ θ) (h1 : θ ≤ 1) (hw : 0 ≤ w) {A B a b c d : ℝ} (ha : |a| ≤ A) (hb : |b| ≤ A)
    (hc : |c| ≤ B) (hd : |d| ≤ B) : |herm θ w a b c d| ≤ A + w * B := by
  have e : herm θ w a b c d = (1 - θ) ^ 2 * (1 + 2 * θ) * a + θ ^ 2 * (3 - 2 * θ) * b +
      w * (θ * (1 - θ) ^ 2 * c - θ ^ 2 * (1 - θ) * d) := by unfold herm; ring
  have hA : 0 ≤ A := (abs_nonneg _).trans ha
  have hB : 0 ≤ B := (abs_nonneg _).trans hc
  have c1 : 0 ≤ (1 - θ) ^ 2 * (1 + 2 * θ) := by positivity
  have c2 : 0 ≤ θ ^ 2 * (3 - 2 * θ) := mul_nonneg (sq_nonneg _) (by linarith)
  have c3 : 0 ≤ θ * (1 - θ) ^ 2 := by positivity
  have c4 : 0 ≤ θ ^ 2 * (1 - θ) := mul_nonneg (sq_nonneg _) (by linarith)
  have s1 : |(1 - θ) ^ 2 * (1 + 2 * θ) * a| ≤ (1 - θ) ^ 2 * (1 + 2 * θ) * A := by
    rw [abs_mul, abs_of_nonneg c1]; exact mul_le_mul_of_nonneg_left ha c1
  have s2 : |θ ^ 2 * (3 - 2 * θ) * b| ≤ θ ^ 2 * (3 - 2 * θ) * A := by
    rw [abs_mul, abs_of_nonneg c2]; exact mul_le_mul_of_nonneg_left hb c2
  have s3 : |θ * (1 - θ) ^ 2 * c - θ ^ 2 * (1 - θ) * d| ≤ θ * (1 - θ) ^ 2 * B + θ ^ 2 * (1 - θ) * B := by
    refine (abs_sub _ _).trans (add_le_add ?_ ?_)
    · rw [abs_mul, abs_of_nonneg c3]; exact mul_le_mul_of_nonneg_left hc c3
    · rw [abs_mul, abs_of_nonneg c4]; exact mul_le_mul_of_nonneg_left hd c4
  have s4 : θ * (1 - θ) ^ 2 * B + θ ^ 2 * (1 - θ) * B ≤ B := by
    have : θ * (1 - θ) ^ 2 + θ ^ 2 * (1 - θ) ≤ 1 := by nlinarith
    nlinarith
  have s5 : |w * (θ * (1 - θ) ^ 2 * c - θ ^ 2 * (1 - θ) * d)| ≤ w * B := by
    rw [abs_mul, abs_of_nonneg hw]; exact mul_le_mul_of_nonneg_left (s3.trans s4) hw
  rw [e]
  calc _ ≤ (1 - θ) ^ 2 * (1 + 2 * θ) * A + θ ^ 2 * (3 - 2 * θ) * A + w * B :=
        (abs_add_le _ _).trans (add_le_add ((abs_add_le _ _).trans (add_le_add s1 s2)) s5)
    _ = _ := by ring

theorem herm_cubic {G : ℝ[X]} (hG : G.natDegree ≤ 3) {a b : ℝ} (hab : a < b) (t : ℝ) :
    herm ((t - a) / (b - a)) (b - a) (G.eval a) (G.eval b) ((derivative G).eval a) ((derivative G).eval b) = G.eval t := by
  have hd : b - a ≠ 0 := (sub_pos.mpr hab).ne'
  have hp : ∀ x, G.eval x = G.coeff 0 + G.coeff 1 * x + G.coeff 2 * x ^ 2 + G.coeff 3 * x ^ 3 := by
    intro x
    rw [eval_eq_sum_range' (Nat.lt_succ_of_le hG)]
    simp [Finset.sum_range_succ]
  have hp' : ∀ x, (derivative G).eval x = G.coeff 1 + 2 * G.coeff 2 * x + 3 * G.coeff 3 * x ^ 2 := by
    intro x
    rw [eval_eq_sum_range' (lt_of_le_of_lt (natDegree_derivative_le _) (show G.natDegree - 1 < 3 by omega))]
    simp only [coeff_derivative, Finset.sum_range_succ, Finset.sum_range_zero]
    norm_num
    ring
  rw [hp, hp, hp', hp', hp]
  unfold herm
  field_simp
  ring

/-- Hermite interpolation between two points near the solution. -/
theorem hermite_error {q : ℕ} (hq : q ≤ 3) {f : ℝ → Vec ℝ n → Vec ℝ n} {y : ℝ → Vec ℝ n} {a b t₀ T L : ℝ}
    (hf : ContDiff ℝ q (joint f)) (ha : a < t₀) (hb : T < b) (hy : ∀ t ∈ Set.Ioo a b, SolvesAt f y t) (hL0 : 0 ≤ L) :
    ∃ C, 0 ≤ C ∧ ∀ (s : St ℝ n k X) (E : ℝ), t₀ ≤ s.cache.ts (Buffer.iOld k) → s.t ≤ T →
      s.t - s.cache.ts (Buffer.iOld k) ≤ 1 →
      (∀ d, |s.cache.ys (Buffer.iOld k) d - y (s.cache.ts (Buffer.iOld k)) d| ≤ E) → (∀ d, |s.y d - y s.t d| ≤ E) →
      (∀ d, |s.cache.fs (Buffer.iOld k) d - f (s.cache.ts (Buffer.iOld k)) (y (s.cache.ts (Buffer.iOld k))) d| ≤ L * E) →
      (∀ d, |s.f d - f s.t (y s.t) d| ≤ L * E) →
      ∀ t, s.cache.ts (Buffer.iOld k) ≤ t → t ≤ s.t → ∀ r s', (hermiteInterp t : Py (St ℝ n k X) _).run s = some (.ok r, s') →
      ∀ d, |r.deref s.cache d - y t d| ≤ C * (E + (s.t - s.cache.ts (Buffer.iOld k)) ^ (q + 1)) := by
  obtain ⟨M, hM, htay⟩ := taylor_near hf ha hb hy
  refine ⟨1 + L + 3 * M, by positivity, fun s E h1 h2 hw1 e1 e2 e3 e4 t ht1 ht2 r s' hr d => ?_⟩
  have hE : 0 ≤ E := (abs_nonneg _).trans (e2 d)
  set x := s.cache.ts (Buffer.iOld k) with hx
  set w := s.t - x with hw
  have hw0 : 0 ≤ w := by rw [hw]; linarith
  have hpow : 0 ≤ w ^ (q + 1) := by positivity
  rcases (ht1.trans ht2).lt_or_eq with hlt | heq
  · obtain ⟨r', hr', hv⟩ := hermite_value (t := t) (s := s) hlt
    rw [hr'] at hr
    simp only [Option.some.injEq, Prod.mk.injEq, Except.ok.injEq] at hr
    obtain ⟨rfl, -⟩ := hr
    have hv' : r'.deref s.cache d = herm ((t - x) / w) w (s.cache.ys (Buffer.iOld k) d) (s.y d)
        (s.cache.fs (Buffer.iOld k) d) (s.f d) := by rw [hv]; rfl
    have hw' : 0 < w := sub_pos.mpr hlt
    have hθ0 : 0 ≤ (t - x) / w := div_nonneg (by linarith) hw0
    have hθ1 : (t - x) / w ≤ 1 := (div_le_one hw').mpr (by rw [hw]; linarith)
    obtain ⟨G, hG, hGw⟩ := htay x s.t h1 h2 d
    have hmx : x ∈ Set.Icc x s.t := ⟨le_rfl, hlt.le⟩
    have hms : s.t ∈ Set.Icc x s.t := ⟨hlt.le, le_rfl⟩
    have hcub := herm_cubic (hG.trans hq) hlt t
    rw [← hw] at hcub hGw
    have b1 : |r'.deref s.cache d - herm ((t - x) / w) w (y x d) (y s.t d) (f x (y x) d) (f s.t (y s.t) d)| ≤ E + w * (L * E) := by
      rw [hv', herm_sub]
      exact herm_le hθ0 hθ1 hw0 (e1 d) (e2 d) (e3 d) (e4 d)
    have b2 : |herm ((t - x) / w) w (y x d) (y s.t d) (f x (y x) d) (f s.t (y s.t) d) - G.eval t| ≤
        M * w ^ (q + 1) + w * (M * w ^ q) := by
      rw [← hcub, herm_sub]
      exact herm_le hθ0 hθ1 hw0 (hGw x hmx).1 (hGw _ hms).1 (hGw x hmx).2 (hGw _ hms).2
    have b3 := (hGw t ⟨ht1, ht2⟩).1
    rw [abs_sub_comm] at b3
    have b4 : w * (L * E) ≤ L * E := by nlinarith [mul_nonneg hL0 hE]
    have b5 : w * (M * w ^ q) = M * w ^ (q + 1) := by rw [pow_succ]; ring
    have := abs_sub_le (r'.deref s.cache d) (herm ((t - x) / w) w (y x d) (y s.t d) (f x (y x) d) (f s.t (y s.t) d)) (y t d)
    have h6 := abs_sub_le (herm ((t - x) / w) w (y x d) (y s.t d) (f x (y x) d) (f s.t (y s.t) d)) (G.eval t) (y t d)
    have h7 : 0 ≤ M * E := by positivity
    have h8 : 0 ≤ L * w ^ (q + 1) := by positivity
    calc _ ≤ (E + L * E) + (2 * (M * w ^ (q + 1)) + M * w ^ (q + 1)) := by linarith
      _ ≤ (1 + L + 3 * M) * (E + w ^ (q + 1)) := by nlinarith
  · have hts : t = x := le_antisymm (ht2.trans heq.ge) ht1
    rw [hermiteInterp_run, if_pos (by rw [hts]; exact beq_self_eq_true _)] at hr
    simp only [Option.some.injEq, Prod.mk.injEq, Except.ok.injEq] at hr
    rw [← hr.1, hts]
    refine (e1 d).trans ?_
    have h7 : 0 ≤ M * E := by positivity
    have h8 : 0 ≤ L * E := by positivity
    have h9 : 0 ≤ (1 + L + 3 * M) * w ^ (q + 1) := by positivity
    nlinarith

/-- The whole recorded history is near the solution, and no longer than its number of steps. -/
structure Near (f : ℝ → Vec ℝ n → Vec ℝ n) (y : ℝ → Vec ℝ n) (t₀ E h : ℝ) (s : St ℝ n k X) : Prop where
  start : ∀ i ≤ k + 1, t₀ ≤ ago s.cache.ts i
  recent : ∀ i ≤ k + 1, s.t - i * h ≤ ago s.cache.ts i
  past : ∀ i ≤ k + 1, ago s.cache.ts i ≤ s.t
  states : ∀ i ≤ k + 1, ∀ d, |ago s.cache.ys i d - y (ago s.cache.ts i) d| ≤ E
  derivs : ∀ i ≤ k + 1, ago s.cache.fs i = f (ago s.cache.ts i) (ago s.cache.ys i)

theorem near_push {f : ℝ → Vec ℝ n → Vec ℝ n} {y : ℝ → Vec ℝ n} {t₀ E h : ℝ} {s : St ℝ n k X} (hs : Near f y t₀ E h s)
    (hh : 0 ≤ h) {y' : Vec ℝ n} {x : X} (hy : ∀ d, |y' d - y (s.t + h) d| ≤ E) :
    Near f y t₀ E h (⟨s.cache.push (s.t + h) y' (f (s.t + h) y'), h, x⟩ : St ℝ n k X) := by
  set v : St ℝ n k X := ⟨s.cache.push (s.t + h) y' (f (s.t + h) y'), h, x⟩ with hv
  have et : v.t = s.t + h := push_t _ _ _ _
  have a0 : ago v.cache.ts 0 = s.t + h := ago_shiftIn_zero _ _
  have b0 : ago v.cache.ys 0 = y' := ago_shiftIn_zero _ _
  have c0 : ago v.cache.fs 0 = f (s.t + h) y' := ago_shiftIn_zero _ _
  have a1 : ∀ i, i + 1 ≤ k + 1 → ago v.cache.ts (i + 1) = ago s.cache.ts i := fun i hi => ago_shiftIn_succ _ _ i hi
  have b1 : ∀ i, i + 1 ≤ k + 1 → ago v.cache.ys (i + 1) = ago s.cache.ys i := fun i hi => ago_shiftIn_succ _ _ i hi
  have c1 : ∀ i, i + 1 ≤ k + 1 → ago v.cache.fs (i + 1) = ago s.cache.fs i := fun i hi => ago_shiftIn_succ _ _ i hi
  have ht0 : t₀ ≤ s.t := (hs.start 0 (Nat.zero_le _)).trans (hs.past 0 (Nat.zero_le _))
  refine ⟨fun i hi => ?_, fun i hi => ?_, fun i hi => ?_, fun i hi => ?_, fun i hi => ?_⟩ <;> cases i with
  | zero => first
    | (rw [a0]; linarith)
    | (rw [a0, et]; push_cast; linarith)
    | (rw [a0, b0]; exact hy)
    | (rw [a0, b0, c0])
  | succ i => first
    | (rw [a1 i hi, b1 i hi, c1 i hi]; exact hs.derivs i (by omega))
    | (rw [a1 i hi, b1 i hi]; exact hs.states i (by omega))
    | (rw [a1 i hi]; exact hs.start i (by omega))
    | (rw [a1 i hi, et]; have := hs.recent i (by omega); push_cast; linarith)
    | (rw [a1 i hi, et]; have := hs.past i (by omega); linarith)

theorem Near.mono {f : ℝ → Vec ℝ n → Vec ℝ n} {y : ℝ → Vec ℝ n} {t₀ E E' h : ℝ} {s : St ℝ n k X} (hs : Near f y t₀ E h s)
    (hE : E ≤ E') : Near f y t₀ E' h s :=
  ⟨hs.start, hs.recent, hs.past, fun i hi d => (hs.states i hi d).trans hE, hs.derivs⟩

/-- Along a path whose states are near the solution, so is the recorded history. -/
theorem near_path {f : ℝ → Vec ℝ n → Vec ℝ n} {y : ℝ → Vec ℝ n} {t₀ T E h : ℝ} (hh : 0 < h) {S : Solver ℝ n k X}
    (hS : ∀ u v : St ℝ n k X, u.h = h → Takes S u v →
      ∃ y' x, v = (⟨u.cache.push (u.t + h) y' (f (u.t + h) y'), h, x⟩ : St ℝ n k X))
    {lim : Bound ℝ} {s u : St ℝ n k X} {l : List (St ℝ n k X)} (hp : Path S lim s l u) (hsh : s.h = h)
    (hs : Near f y t₀ E h s) (hu : u.t ≤ T) (hl : ∀ v ∈ l, v.t ≤ T → ∀ d, |v.y d - y v.t d| ≤ E) :
    Near f y t₀ E h u ∧ u.h = h ∧ s.t ≤ u.t := by
  induction hp with
  | nil s => exact ⟨hs, hsh, le_rfl⟩
  | @cons s s1 s2 l hf ht hp ih =>
    obtain ⟨y', x, e⟩ := hS s s1 hsh ht
    have et : s1.t = s.t + h := by rw [e]; exact push_t _ _ _ _
    have ey : s1.y = y' := by rw [e]; exact push_y _ _ _ _
    -- the times increase along the rest
    have hmono : ∀ {a c : St ℝ n k X} {l' : List (St ℝ n k X)}, Path S lim a l' c → a.h = h → a.t ≤ c.t := by
      intro a c l' hp'
      induction hp' with
      | nil a => intro _; exact le_rfl
      | @cons a a1 a2 l'' _ ht' _ ih' =>
        intro hah
        obtain ⟨z, x', e'⟩ := hS a a1 hah ht'
        have e1 : a1.t = a.t + h := by rw [e']; exact push_t _ _ _ _
        have e2 : a1.h = h := by rw [e']
        have := ih' e2
        linarith
    have h1 : s1.h = h := by rw [e]
    have hT1 : s1.t ≤ T := (hmono hp h1).trans hu
    have hn : Near f y t₀ E h s1 := by
      rw [e]
      refine near_push hs hh.le fun d => ?_
      have := hl s1 List.mem_cons_self hT1 d
      rwa [ey, et] at this
    obtain ⟨g1, g2, g3⟩ := ih h1 hn hu fun v hv => hl v (List.mem_cons_of_mem _ hv)
    exact ⟨g1, g2, by linarith⟩

/-- The dense output of a state whose history is near the solution. -/
theorem near_dense {q : ℕ} {f : ℝ → Vec ℝ n → Vec ℝ n} {y : ℝ → Vec ℝ n} {t₀ T' L E h C : ℝ} (hL : 0 ≤ L)
    (hw : ((k : ℝ) + 1) * h ≤ 1) (hC : 0 ≤ C)
    (hherm : ∀ (s : St ℝ n k X) (E : ℝ), t₀ ≤ s.cache.ts (Buffer.iOld k) → s.t ≤ T' →
      s.t - s.cache.ts (Buffer.iOld k) ≤ 1 →
      (∀ d, |s.cache.ys (Buffer.iOld k) d - y (s.cache.ts (Buffer.iOld k)) d| ≤ E) → (∀ d, |s.y d - y s.t d| ≤ E) →
      (∀ d, |s.cache.fs (Buffer.iOld k) d - f (s.cache.ts (Buffer.iOld k)) (y (s.cache.ts (Buffer.iOld k))) d| ≤ L * E) →
      (∀ d, |s.f d - f s.t (y s.t) d| ≤ L * E) →
      ∀ t, s.cache.ts (Buffer.iOld k) ≤ t → t ≤ s.t → ∀ r s', (hermiteInterp t : Py (St ℝ n k X) _).run s = some (.ok r, s') →
      ∀ d, |r.deref s.cache d - y t d| ≤ C * (E + (s.t - s.cache.ts (Buffer.iOld k)) ^ (q + 1)))
    (hlip : ∀ t ∈ Set.Icc t₀ T', ∀ v : Fin n → ℝ, ‖v - y t‖ ≤ E → ∀ d, |f t v d - f t (y t) d| ≤ L * ‖v - y t‖)
    {S : Solver ℝ n k X} (hM : IsFixed S.method) (hE : 0 ≤ E) {s1 : St ℝ n k X} (hN : Near f y t₀ E h s1) (hT1 : s1.t ≤ T')
    {t : ℝ} {rr : Ref ℝ n k} {s2 : St ℝ n k X} (hint : (S.interpolate t).run s1 = some (.ok rr, s2)) (d : Fin n) :
    |rr.deref s1.cache d - y t d| ≤ C * (E + (((k : ℝ) + 1) * h) ^ (q + 1)) := by
  have hrange : s1.cache.ts (Buffer.iOld k) ≤ t ∧ t ≤ s1.t := by
    by_contra hc
    rw [C10_interpolate_outside _ _ _ hc] at hint
    simp at hint
  have eold : ∀ {β : Type} (w : Fin (k + 2) → β), w (Buffer.iOld k) = ago w (k + 1) := by
    intro β w
    unfold ago
    congr 1
    exact Fin.ext (Nat.sub_self _).symm
  have enew : ∀ {β : Type} (w : Fin (k + 2) → β), w (Buffer.iLast k) = ago w 0 := by
    intro β w
    unfold ago
    congr 1
  have hst0 : t₀ ≤ s1.cache.ts (Buffer.iOld k) := by rw [eold s1.cache.ts]; exact hN.start _ le_rfl
  have hrec : s1.t - s1.cache.ts (Buffer.iOld k) ≤ ((k : ℝ) + 1) * h := by
    have := hN.recent _ (le_refl (k + 1))
    rw [← eold] at this
    push_cast at this
    linarith
  have hwide : 0 ≤ s1.t - s1.cache.ts (Buffer.iOld k) := by linarith
  have hys : ∀ d, |s1.cache.ys (Buffer.iOld k) d - y (s1.cache.ts (Buffer.iOld k)) d| ≤ E := by
    rw [eold s1.cache.ts, eold s1.cache.ys]; exact hN.states _ le_rfl
  have hy1 : ∀ d, |s1.y d - y s1.t d| ≤ E := by
    unfold St.y St.t Buffer.y Buffer.t
    rw [enew s1.cache.ts, enew s1.cache.ys]; exact hN.states 0 (Nat.zero_le _)
  have hder : ∀ (t : ℝ) (v w : Vec ℝ n), t ∈ Set.Icc t₀ T' → w = f t v → (∀ d, |v d - y t d| ≤ E) →
      ∀ d, |w d - f t (y t) d| ≤ L * E := by
    intro t v w ht hw hv d
    have hv' : ‖(v - y t : Fin n → ℝ)‖ ≤ E := (pi_norm_le_iff_of_nonneg hE).mpr hv
    rw [hw]
    exact (hlip t ht v hv' d).trans (mul_le_mul_of_nonneg_left hv' hL)
  rw [interpolate_inside hrange.1 hrange.2, fixed_interp hM] at hint
  have key := hherm s1 E hst0 hT1 (hrec.trans hw) hys hy1
    (hder _ _ _ ⟨hst0, by linarith⟩ (by
      have := hN.derivs _ (le_refl (k + 1))
      rwa [← eold, ← eold, ← eold] at this) hys)
    (hder _ _ _ ⟨by linarith, hT1⟩ (by
      have := hN.derivs 0 (Nat.zero_le _)
      rwa [← enew, ← enew, ← enew] at this) hy1) t hrange.1 hrange.2 rr s2 hint d
  refine key.trans (mul_le_mul_of_nonneg_left ?_ hC)
  have := pow_le_pow_left₀ hwide hrec (q + 1)
  linarith

/-- What `run` returns, when the steps below `t_bound` stay near the solution. -/
theorem run_near {q : ℕ} {f : ℝ → Vec ℝ n → Vec ℝ n} {y : ℝ → Vec ℝ n} {t₀ T T' L E h C : ℝ} (hh : 0 < h) (hL : 0 ≤ L)
    (hw : ((k : ℝ) + 1) * h ≤ 1) (hC : 0 ≤ C) (hT : T + h ≤ T')
    (hherm : ∀ (s : St ℝ n k X) (E : ℝ), t₀ ≤ s.cache.ts (Buffer.iOld k) → s.t ≤ T' →
      s.t - s.cache.ts (Buffer.iOld k) ≤ 1 →
      (∀ d, |s.cache.ys (Buffer.iOld k) d - y (s.cache.ts (Buffer.iOld k)) d| ≤ E) → (∀ d, |s.y d - y s.t d| ≤ E) →
      (∀ d, |s.cache.fs (Buffer.iOld k) d - f (s.cache.ts (Buffer.iOld k)) (y (s.cache.ts (Buffer.iOld k))) d| ≤ L * E) →
      (∀ d, |s.f d - f s.t (y s.t) d| ≤ L * E) →
      ∀ t, s.cache.ts (Buffer.iOld k) ≤ t → t ≤ s.t → ∀ r s', (hermiteInterp t : Py (St ℝ n k X) _).run s = some (.ok r, s') →
      ∀ d, |r.deref s.cache d - y t d| ≤ C * (E + (s.t - s.cache.ts (Buffer.iOld k)) ^ (q + 1)))
    (hlip : ∀ t ∈ Set.Icc t₀ T', ∀ v : Fin n → ℝ, ‖v - y t‖ ≤ E → ∀ d, |f t v d - f t (y t) d| ≤ L * ‖v - y t‖)
    {S : Solver ℝ n k X} (hM : IsFixed S.method)
    (hS : ∀ u v : St ℝ n k X, u.h = h → Takes S u v →
      ∃ y' x, v = (⟨u.cache.push (u.t + h) y' (f (u.t + h) y'), h, x⟩ : St ℝ n k X))
    {bo : BisectOpts ℝ} {argsort : List ℝ → List Nat} (hA : ∀ l, IsArgsort l (argsort l)) {s0 s' : St ℝ n k X}
    (hc : Constructed S s0) (ho : Ordered s0) (h0 : s0.h = h) (hn : Near f y t₀ E h s0) (hE : 0 ≤ E) (ht0 : s0.t ≤ T')
    (hpath : ∀ l u, Path S S.tBound s0 l u → ∀ v ∈ l, v.t ≤ T' → ∀ d, |v.y d - y v.t d| ≤ E)
    {ts : List ℝ} {out : List (ℝ × Vec ℝ n)} (hrun : (S.run bo argsort ts).run s0 = some (.ok out, s')) :
    ∀ r ∈ out, r.1 ≤ T → ∀ d, |r.2 d - y r.1 d| ≤ C * (E + (((k : ℝ) + 1) * h) ^ (q + 1)) := by
  intro p hp hpT d
  obtain ⟨s1, rr, s2, hreach, hint, hval⟩ := C20_interpolant S (Or.inl hM) bo argsort hA s0 s0 hc ho (by rw [h0]; exact hh)
    (.start s0) ts out s' hrun p hp
  have hrange : s1.cache.ts (Buffer.iOld k) ≤ p.1 ∧ p.1 ≤ s1.t := by
    by_contra hc
    rw [C10_interpolate_outside _ _ _ hc] at hint
    simp at hint
  have hgood : Near f y t₀ E h s1 ∧ s1.t ≤ T' := by
    rcases reach_last hreach with rfl | ⟨l, u, hpu, hu, hfits, htakes⟩
    · exact ⟨hn, ht0⟩
    · have hT1 : u.t ≤ T' := by linarith
      obtain ⟨-, g2, -⟩ := near_path hh hS hpu h0 hn hT1 (hpath l u hpu)
      obtain ⟨y', x, e⟩ := hS u s1 g2 htakes
      have et : s1.t = u.t + h := by rw [e]; exact push_t _ _ _ _
      have hT2 : s1.t ≤ T' := by rw [et]; linarith
      have hp1 : Path S S.tBound s0 (l ++ [s1]) s1 := path_append hpu (.cons hfits htakes (.nil _))
      exact ⟨(near_path hh hS hp1 h0 hn hT2 (hpath _ _ hp1)).1, hT2⟩
  obtain ⟨hN, hT1⟩ := hgood
  have := near_dense (q := q) hL hw hC hherm hlip hM hE hN hT1 hint d
  rwa [hval] at this

/-! ### The history made by the constructor -/

theorem follows_near {p : ℕ} (hp : p ≠ 0) {f : ℝ → Vec ℝ n → Vec ℝ n} {y : ℝ → Vec ℝ n} {t₀ E h : ℝ} (h0 : 0 < h)
    {st : St ℝ n (histExtra p) Unit} (hh : st.h = h) (ht : st.t = t₀ + p * h) (hf : Follows f y E st) :
    Near f y t₀ E h st ∧ Ordered st := by
  have hk : histExtra p + 1 = p := by unfold histExtra; omega
  have hle : ∀ i : ℕ, i ≤ histExtra p + 1 → i ≤ p := fun i hi => by omega
  have htim : ∀ i ≤ p, ago st.cache.ts i = t₀ + ((p : ℝ) - i) * h := fun i hi => by
    rw [hf.times i hi, ht, hh]; ring
  have hts : ∀ i ≤ p, st.t - i * st.h = ago st.cache.ts i := fun i hi => (hf.times i hi).symm
  refine ⟨⟨fun i hi => ?_, fun i hi => ?_, fun i hi => ?_, fun i hi d => ?_, fun i hi => ?_⟩, fun i j hij => ?_⟩
  · rw [htim i (hle i hi)]
    have : (i : ℝ) ≤ p := by exact_mod_cast hle i hi
    nlinarith
  · rw [hf.times i (hle i hi), hh]
  · rw [hf.times i (hle i hi), hh]
    have : (0 : ℝ) ≤ i * h := by positivity
    linarith
  · rw [← hts i (hle i hi)]; exact hf.states i (hle i hi) d
  · rw [← hts i (hle i hi)]; exact hf.derivs i (hle i hi)
  · have e : ∀ i : Fin (histExtra p + 2), st.cache.ts i = t₀ + ((i : ℕ) : ℝ) * h := by
      intro i
      have h2 := htim (histExtra p + 1 - i) (by omega)
      have h3 : ((histExtra p + 1 - (i : ℕ) : ℕ) : ℝ) = p - (i : ℕ) := by
        rw [hk, Nat.cast_sub (by omega)]
      rw [h3] at h2
      have e2 : ago st.cache.ts (histExtra p + 1 - i) = st.cache.ts i := by
        unfold ago
        congr 1
        exact Fin.ext (by simp only; omega)
      rw [← e2, h2]; ring
    rw [e, e]
    have : ((i : ℕ) : ℝ) ≤ ((j : ℕ) : ℝ) := by exact_mod_cast hij
    nlinarith

theorem single_start_near {f : ℝ → Vec ℝ n → Vec ℝ n} {y : ℝ → Vec ℝ n} {t₀ h : ℝ} (hpos : 0 < h) {g : Buffer ℝ n (histExtra 0)}
    {bo : BisectOpts ℝ} {argsort : List ℝ → List Nat} {starter : Starter ℝ n} {st : St ℝ n (histExtra 0) Unit}
    (hs : multistepInit g bo argsort starter (pureRhs f) t₀ (y t₀) (some h) = some (.ok st)) :
    st.h = h ∧ st.t = t₀ ∧ Near f y t₀ 0 h st ∧ Ordered st := by
  unfold multistepInit at hs
  cases h0 : solverInit g () (pureRhs f) t₀ (y t₀) (some h) with
  | error e => rw [h0] at hs; simp at hs
  | ok s0 =>
    rw [h0] at hs
    simp only [if_true, Option.some.injEq, Except.ok.injEq] at hs
    obtain ⟨f0, hf0, hc, hh, -⟩ := solverInit_ok h0
    subst hs
    have e1 : s0.t = t₀ := by rw [St.t, hc]; exact init_ts _ _ _ _ _
    have e2 : s0.y = y t₀ := by rw [St.y, hc]; exact init_ys _ _ _ _ _
    have e3 : s0.f = f t₀ (y t₀) := by rw [St.f, hc, ← Except.ok.inj hf0]; exact init_fs _ _ _ _ _
    have w1 : ∀ i, (s0.cache.pushN s0.t s0.y s0.f (histExtra 0 + 1)).ts i = t₀ := by
      intro i
      rw [hc, show (Buffer.init g t₀ (y t₀) f0).pushN s0.t s0.y s0.f (histExtra 0 + 1) =
        (Buffer.init g t₀ (y t₀) f0).push s0.t s0.y s0.f from rfl]
      unfold Buffer.push shiftIn
      simp only
      split
      · exact init_ts _ _ _ _ _
      · exact e1
    have w2 : ∀ i, (s0.cache.pushN s0.t s0.y s0.f (histExtra 0 + 1)).ys i = y t₀ := by
      intro i
      rw [hc, show (Buffer.init g t₀ (y t₀) f0).pushN s0.t s0.y s0.f (histExtra 0 + 1) =
        (Buffer.init g t₀ (y t₀) f0).push s0.t s0.y s0.f from rfl]
      unfold Buffer.push shiftIn
      simp only
      split
      · exact init_ys _ _ _ _ _
      · exact e2
    have w3 : ∀ i, (s0.cache.pushN s0.t s0.y s0.f (histExtra 0 + 1)).fs i = f t₀ (y t₀) := by
      intro i
      rw [hc, show (Buffer.init g t₀ (y t₀) f0).pushN s0.t s0.y s0.f (histExtra 0 + 1) =
        (Buffer.init g t₀ (y t₀) f0).push s0.t s0.y s0.f from rfl]
      unfold Buffer.push shiftIn
      simp only
      split
      · rw [init_fs]; exact (Except.ok.inj hf0).symm
      · exact e3
    set st : St ℝ n (histExtra 0) Unit := { s0 with cache := s0.cache.pushN s0.t s0.y s0.f (histExtra 0 + 1) } with hst
    have et : st.t = t₀ := w1 _
    refine ⟨hh, et, ⟨fun i hi => ?_, fun i hi => ?_, fun i hi => ?_, fun i hi d => ?_, fun i hi => ?_⟩, fun i j _ => ?_⟩
    · exact (w1 _).ge
    · rw [et, show ago st.cache.ts i = t₀ from w1 _]
      have : (0 : ℝ) ≤ i * h := by positivity
      linarith
    · rw [et]; exact (w1 _).le
    · rw [show ago st.cache.ts i = t₀ from w1 _, show ago st.cache.ys i = y t₀ from w2 _]; simp
    · rw [show ago st.cache.ts i = t₀ from w1 _, show ago st.cache.ys i = y t₀ from w2 _]; exact w3 _
    · exact ((w1 i).trans (w1 j).symm).le

/-! ### From the convergence of the steps to that of `run` -/

/-- A constructor whose history is near the solution. -/
def StartsNear {p : ℕ} (init : Constructor n p) (q : ℕ) : Prop :=
  ∀ (f : ℝ → Vec ℝ n → Vec ℝ n) (y : ℝ → Vec ℝ n) (a b t₀ T : ℝ), ContDiff ℝ q (joint f) → a < t₀ → t₀ < T → T < b →
    (∀ t ∈ Set.Ioo a b, SolvesAt f y t) → ∃ D δ, 0 ≤ D ∧ 0 < δ ∧ ∀ (h : ℝ) (st : St ℝ n (histExtra p) Unit), 0 < h → h ≤ δ →
      init (pureRhs f) t₀ (y t₀) h = some (.ok st) → st.h = h ∧ st.t = t₀ + p * h ∧ Near f y t₀ (D * h ^ q) h st ∧ Ordered st

theorem single_starts_near (q : ℕ) (g : Buffer ℝ n (histExtra 0)) (bo : BisectOpts ℝ) (argsort : List ℝ → List Nat)
    (starter : Starter ℝ n) :
    StartsNear (p := 0) (fun rhs t y h => multistepInit g bo argsort starter rhs t y (some h)) q := by
  intro f y a b t₀ T hf ha ht hb hy
  refine ⟨0, 1, le_rfl, one_pos, fun h st h0 _ hs => ?_⟩
  obtain ⟨e1, e2, e3, e4⟩ := single_start_near h0 hs
  exact ⟨e1, by rw [e2]; simp, by rwa [zero_mul], e4⟩

theorem erk_starts_near {p m : ℕ} (hp : p ≠ 0) {q r : ℕ} (hr : 1 ≤ r) (hrq : r ≤ q) (hqr : q ≤ r + 1) {T : Tableau ℝ m}
    (hT : Explicit T) (hR : RowSums T) (hB : OrderConditions T.A T.B r) (g : Buffer ℝ n (histExtra p)) (bo : BisectOpts ℝ)
    (argsort : List ℝ → List Nat) (gs : Buffer ℝ n 0) (K : ErkAux ℝ n m) :
    StartsNear (fun rhs t y h => multistepInit g bo argsort (erkStarter T gs K) rhs t y (some h)) q := by
  intro f y a b t₀ T₁ hf ha ht hb hy
  obtain ⟨D, δ, hD, hδ, hstart⟩ := erk_start_follows hp hT hR hr hB (hf.of_le (by exact_mod_cast hrq)) ha ht hb hy
  refine ⟨D, min δ 1, hD, lt_min hδ one_pos, fun h st h0 h1 hs => ?_⟩
  obtain ⟨e1, e2, e3⟩ := hstart h g bo argsort gs K st h0 (h1.trans (min_le_left _ _)) hs
  obtain ⟨e4, e5⟩ := follows_near hp h0 e1 e2 e3
  exact ⟨e1, e2, e4.mono (mul_le_mul_of_nonneg_left (pow_le_pow_of_le_one h0.le (h1.trans (min_le_right _ _)) hqr) hD), e5⟩

theorem run_start_converges {p q : ℕ} (hq1 : 1 ≤ q) (hq : q ≤ 4) {init : Constructor n p}
    {cls : Rhs ℝ n → Solver ℝ n (histExtra p) Unit} (hM : ∀ rhs, IsFixed (cls rhs).method)
    (hc : ∀ rhs t y h s, init rhs t y h = some (.ok s) → Constructed (cls rhs) s) (hin : StartsNear init q)
    (hconv : StartConverges init cls q)
    (hS : ∀ (f : ℝ → Vec ℝ n → Vec ℝ n) (u v : St ℝ n (histExtra p) Unit), Takes (cls (pureRhs f)) u v →
      ∃ y', v = ⟨u.cache.push (u.t + u.h) y' (f (u.t + u.h) y'), u.h, ()⟩) :
    RunStartConverges init cls q := by
  intro f y a b t₀ T hf ha ht hb hy
  set T' := (T + b) / 2 with hT'
  have hTT : T < T' := by rw [hT']; linarith
  have hTb : T' < b := by rw [hT']; linarith
  obtain ⟨D, δ₁, hD, hδ₁, hnear⟩ := hin f y a b t₀ T' hf ha (ht.trans hTT) hTb hy
  obtain ⟨C₁, δ₂, hδ₂, hst⟩ := hconv f y a b t₀ T' hf ha (ht.trans hTT) hTb hy
  have hyc : ContinuousOn (fun t => (y t : Fin n → ℝ)) (Set.Icc t₀ T') := fun t ht =>
    (hy t ⟨ha.trans_le ht.1, ht.2.trans_lt hTb⟩).continuousAt.continuousWithinAt
  obtain ⟨L, hL0, hL⟩ := tube_lipschitz (hf.of_le (by exact_mod_cast hq1)) hyc
  obtain ⟨q, rfl⟩ : ∃ m, q = m + 1 := ⟨q - 1, by omega⟩
  obtain ⟨C, hC, hherm⟩ := hermite_error (k := histExtra p) (X := Unit) (q := q) (by omega)
    (hf.of_le (by exact_mod_cast Nat.le_succ q)) ha hTb hy hL0
  set M := D + |C₁| with hMdef
  have hM0 : 0 ≤ M := by positivity
  set κ : ℝ := (histExtra p : ℝ) + 1 with hκ
  have hκ0 : 0 < κ := by positivity
  have hpκ : (p : ℝ) ≤ κ := by
    rw [hκ]; unfold histExtra; exact_mod_cast (by omega : p ≤ (p - 1) + 1)
  refine ⟨C * (M + κ ^ (q + 1)), min (min δ₁ δ₂) (min (min 1 (1 / (M + 1))) (min (1 / κ) (min (T' - T) ((T' - t₀) / (p + 1))))),
    by
      have : 0 < T' - T := by linarith
      have : 0 < T' - t₀ := by linarith
      positivity, fun bo argsort hA h s s' ts out h0 h1 hs hrun r hr hrT d => ?_⟩
  have k1 : h ≤ δ₁ := h1.trans ((min_le_left _ _).trans (min_le_left _ _))
  have k2 : h ≤ δ₂ := h1.trans ((min_le_left _ _).trans (min_le_right _ _))
  have k3 : h ≤ 1 := h1.trans ((min_le_right _ _).trans ((min_le_left _ _).trans (min_le_left _ _)))
  have k4 : h ≤ 1 / (M + 1) := h1.trans ((min_le_right _ _).trans ((min_le_left _ _).trans (min_le_right _ _)))
  have k5 : h ≤ 1 / κ := h1.trans ((min_le_right _ _).trans ((min_le_right _ _).trans (min_le_left _ _)))
  have k6 : h ≤ T' - T := h1.trans ((min_le_right _ _).trans ((min_le_right _ _).trans ((min_le_right _ _).trans (min_le_left _ _))))
  have k7 : h ≤ (T' - t₀) / (p + 1) :=
    h1.trans ((min_le_right _ _).trans ((min_le_right _ _).trans ((min_le_right _ _).trans (min_le_right _ _))))
  rw [le_div_iff₀ (by positivity)] at k4 k5 k7
  obtain ⟨e1, e2, e3, e4⟩ := hnear h s h0 k1 hs
  have hpow : 0 ≤ h ^ (q + 1) := by positivity
  have hpow1 : h ^ (q + 1) ≤ h := by
    calc h ^ (q + 1) ≤ h ^ 1 := pow_le_pow_of_le_one h0.le k3 (by omega)
      _ = h := pow_one _
  have hE1 : M * h ^ (q + 1) ≤ 1 := by nlinarith
  have key := run_near (q := q) (T := T) (E := M * h ^ (q + 1)) h0 hL0 (by rw [← hκ]; linarith) hC (by linarith) hherm
    (fun t ht v hv => hL t ht v (hv.trans hE1)) (hM _)
    (fun u v hu htk => by
      obtain ⟨y', e⟩ := hS f u v htk
      exact ⟨y', (), by rw [hu] at e; exact e⟩) hA (hc _ _ _ _ _ hs) e4 e1
    (e3.mono (by rw [hMdef]; nlinarith [mul_nonneg (abs_nonneg C₁) hpow])) (by positivity) (by rw [e2]; linarith)
    (fun l u hl v hv hvT d => (hst h s u l _ h0 k2 hs hl v hv hvT d).trans (by
      refine mul_le_mul_of_nonneg_right ?_ hpow
      rw [hMdef]; linarith [le_abs_self C₁])) hrun r hr hrT d
  rw [← hκ, mul_pow] at key
  calc _ ≤ _ := key
    _ = _ := by ring

theorem run_start_converges_within {p q : ℕ} (hq1 : 1 ≤ q) (hq : q ≤ 4) {init : Constructor n p}
    {cls : ZeroOpts ℝ → Rhs ℝ n → Solver ℝ n (histExtra p) Unit} (hM : ∀ zo rhs, IsFixed (cls zo rhs).method)
    (hc : ∀ zo rhs t y h s, init rhs t y h = some (.ok s) → Constructed (cls zo rhs) s) (hin : StartsNear init q)
    (hconv : StartConvergesWithin init cls q)
    (hS : ∀ (f : ℝ → Vec ℝ n → Vec ℝ n) (L : ℝ), 0 ≤ L → (∀ t u v, (∀ d, |f t u d - f t v d| ≤ L * ‖(u - v : Fin n → ℝ)‖)) →
      ∃ δ, 0 < δ ∧ ∀ zo, RootOpts zo → ∀ (u v : St ℝ n (histExtra p) Unit), 0 < u.h → u.h ≤ δ → Takes (cls zo (pureRhs f)) u v →
      ∃ y', v = ⟨u.cache.push (u.t + u.h) y' (f (u.t + u.h) y'), u.h, ()⟩) :
    RunStartConvergesWithin init cls q := by
  intro f y a b t₀ T L' hf ha ht hb hy hLip
  set T' := (T + b) / 2 with hT'
  have hTT : T < T' := by rw [hT']; linarith
  have hTb : T' < b := by rw [hT']; linarith
  obtain ⟨D, δ₁, hD, hδ₁, hnear⟩ := hin f y a b t₀ T' hf ha (ht.trans hTT) hTb hy
  obtain ⟨C₁, δ₂, hδ₂, hst⟩ := hconv f y a b t₀ T' L' hf ha (ht.trans hTT) hTb hy hLip
  obtain ⟨L, hL0, hL⟩ : ∃ L, 0 ≤ L ∧ ∀ t u v, (∀ d, |f t u d - f t v d| ≤ L * ‖(u - v : Fin n → ℝ)‖) :=
    ⟨max L' 0, le_max_right _ _, fun t u v d =>
      (hLip t u v d).trans (mul_le_mul_of_nonneg_right (le_max_left _ _) (norm_nonneg _))⟩
  obtain ⟨δ₃, hδ₃, hS'⟩ := hS f L hL0 hL
  obtain ⟨q, rfl⟩ : ∃ m, q = m + 1 := ⟨q - 1, by omega⟩
  obtain ⟨C, hC, hherm⟩ := hermite_error (k := histExtra p) (X := Unit) (q := q) (by omega)
    (hf.of_le (by exact_mod_cast Nat.le_succ q)) ha hTb hy hL0
  set M := D + |C₁| with hMdef
  have hM0 : 0 ≤ M := by positivity
  set κ : ℝ := (histExtra p : ℝ) + 1 with hκ
  have hκ0 : 0 < κ := by positivity
  refine ⟨C * (M + κ ^ (q + 1)), min (min δ₁ δ₂) (min (min 1 δ₃) (min (1 / κ) (min (T' - T) ((T' - t₀) / (p + 1))))),
    by
      have : 0 < T' - T := by linarith
      have : 0 < T' - t₀ := by linarith
      positivity, fun zo hzo bo argsort hA h s s' ts out h0 h1 hs hrun r hr hrT d => ?_⟩
  have k1 : h ≤ δ₁ := h1.trans ((min_le_left _ _).trans (min_le_left _ _))
  have k2 : h ≤ δ₂ := h1.trans ((min_le_left _ _).trans (min_le_right _ _))
  have k4 : h ≤ δ₃ := h1.trans ((min_le_right _ _).trans ((min_le_left _ _).trans (min_le_right _ _)))
  have k5 : h ≤ 1 / κ := h1.trans ((min_le_right _ _).trans ((min_le_right _ _).trans (min_le_left _ _)))
  have k6 : h ≤ T' - T := h1.trans ((min_le_right _ _).trans ((min_le_right _ _).trans ((min_le_right _ _).trans (min_le_left _ _))))
  have k7 : h ≤ (T' - t₀) / (p + 1) :=
    h1.trans ((min_le_right _ _).trans ((min_le_right _ _).trans ((min_le_right _ _).trans (min_le_right _ _))))
  rw [le_div_iff₀ (by positivity)] at k5 k7
  obtain ⟨e1, e2, e3, e4⟩ := hnear h s h0 k1 hs
  have hpow : 0 ≤ h ^ (q + 1) := by positivity
  have htol : 0 ≤ zo.tol / h := div_nonneg hzo.2.1 h0.le
  have key := run_near (q := q) (T := T) (E := M * (h ^ (q + 1) + zo.tol / h)) h0 hL0 (by rw [← hκ]; linarith) hC (by linarith) hherm
    (fun t _ v _ => hL t v (y t)) (hM _ _)
    (fun u v hu htk => by
      obtain ⟨y', e⟩ := hS' zo hzo u v (by rw [hu]; exact h0) (by rw [hu]; exact k4) htk
      exact ⟨y', (), by rw [hu] at e; exact e⟩) hA (hc _ _ _ _ _ _ hs) e4 e1
    (e3.mono (by
      rw [hMdef]
      have a1 := mul_nonneg (abs_nonneg C₁) (add_nonneg hpow htol)
      have a2 := mul_nonneg hD htol
      nlinarith)) (by positivity) (by rw [e2]; linarith)
    (fun l u hl v hv hvT d => (hst zo hzo h s u l _ h0 k2 hs hl v hv hvT d).trans (by
      refine mul_le_mul_of_nonneg_right ?_ (add_nonneg hpow htol)
      rw [hMdef]; linarith [le_abs_self C₁])) hrun r hr hrT d
  rw [← hκ, mul_pow] at key
  have a3 : 0 ≤ C * κ ^ (q + 1) * (zo.tol / h) := by positivity
  calc _ ≤ _ := key
    _ ≤ _ := by nlinarith

end Nbkode
