import Verif.Spec.Controller
import Verif.Props.LocalErrorDop
import Verif.Props.Termination
import Verif.Props.Options
import Verif.Proofs.Convergence
import Mathlib.Analysis.SpecialFunctions.ExpDeriv

/-!
# The step-size control is matched to the order of the error estimate: C73
-/

set_option autoImplicit false
set_option linter.unusedSectionVars false

namespace Nbkode
open Py Spec Solver

variable {n s : ℕ}

/-! ### The rule -/

theorem nextSize_of_factor {lib : Lib ℝ} (hl : RealFunctions lib) {o : VarOptions ℝ} {q : ℕ} {x en r : ℝ}
    (h : StepFactor lib o (1 / ((q : ℝ) + 1)) en r) : NextSize o q x en (x * r) := by
  rcases h with ⟨h1, rfl⟩ | ⟨h1, -, rfl⟩
  · exact Or.inl ⟨h1, rfl⟩
  · rw [hl.pow]; exact Or.inr ⟨h1, rfl⟩

theorem trail_rule {lib : Lib ℝ} (hl : RealFunctions lib) {o : VarOptions ℝ} {ex : ℝ} {q : ℕ} (hq : ex = 1 / ((q : ℝ) + 1))
    {T : Tableau ℝ s} {norm : ErrNorm ℝ n s} {rhs : Rhs ℝ n} {t : ℝ} {y : Vec ℝ n} {h h' : ℝ} {l : List (Tried ℝ)}
    {K : Fin (s + 2) → Vec ℝ n} (ht : Trail lib o ex T norm rhs t y h l h' K) :
    ∃ last, l.getLast? = some last ∧ NextSize o q last.size last.norm h' := by
  subst hq
  induction ht with
  | @accept h en r K hK hn ha hr => exact ⟨⟨h, en⟩, rfl, nextSize_of_factor hl hr⟩
  | @reject h en r h' K K' l hK hn ha hr hT ih =>
    obtain ⟨last, h1, h2⟩ := ih
    refine ⟨last, ?_, h2⟩
    cases l with
    | nil => simp at h1
    | cons a l => simpa using h1

/-- The size a step of an embedded pair leaves, from the size and the error norm of the attempt it accepted. -/
theorem rule_fsal {d : ℕ} {lib : Lib ℝ} (hl : RealFunctions lib) (o : VarOptions ℝ) {c : FsalCoef ℝ s d} (hT : Explicit c.toTableau)
    {q : ℕ} (hq : c.errorExponent = 1 / ((q : ℝ) + 1)) (rhs : Rhs ℝ n) (b : Bound ℝ)
    (st st' : St ℝ n 0 (FsalAux ℝ n s (RkItp ℝ n d))) (hf : rhs st.t st.y = .ok st.f) (h : Takes ⟨fsal lib o c, rhs, b⟩ st st') :
    ∃ K, RKStages (withLast c.toTableau) rhs st.t (st'.t - st.t) st.y K ∧
      NextSize o q (st'.t - st.t) (rmsError lib o st.y st'.y fun i => (st'.t - st.t) * ∑ j, c.E j * K j i) st'.h := by
  obtain ⟨l, last, h', K, hTr, hl1, rfl⟩ := (fsal_takes_iff lib o c hT rhs b st st' hf).mp h
  obtain ⟨last', hl', hK, hn, ha⟩ := trail_last hTr
  obtain ⟨last'', hl'', hr⟩ := trail_rule hl hq hTr
  rw [hl1] at hl' hl''
  cases hl'; cases hl''
  have e : (⟨st.cache.push (st.t + last.size) (proposal c.toTableau last.size st.y K) (K (Fin.last _)), h',
      { st.aux with K := K }⟩ : St ℝ n 0 (FsalAux ℝ n s (RkItp ℝ n d))).t - st.t = last.size := by
    simp only [St.t, push_t]; ring
  rw [e]
  refine ⟨K, hK, ?_⟩
  have en := Except.ok.inj hn
  simp only [St.y, push_y]
  rw [← en] at hr
  exact hr

/-- **C73**: after a step of `RungeKutta23` of size `x` with error norm `en`, the next size is `0.9 x / en^(1/3)` (with the
options for 0.9 and the limits). -/
theorem C73_RungeKutta23 {lib : Lib ℝ} (hl : RealFunctions lib) (o : VarOptions ℝ) (rhs : Rhs ℝ n) (b : Bound ℝ)
    (st st' : St ℝ n 0 (FsalAux ℝ n 2 (RkItp ℝ n 3))) (hf : rhs st.t st.y = .ok st.f)
    (h : Takes ⟨fsal lib o RungeKutta23, rhs, b⟩ st st') :
    ∃ K, RKStages (withLast (RungeKutta23 : FsalCoef ℝ 2 3).toTableau) rhs st.t (st'.t - st.t) st.y K ∧
      NextSize o 2 (st'.t - st.t)
        (rmsError lib o st.y st'.y fun i => (st'.t - st.t) * ∑ j, (RungeKutta23 : FsalCoef ℝ 2 3).E j * K j i) st'.h :=
  rule_fsal hl o RungeKutta23_conditions.explicit (by simp [RungeKutta23, q]; norm_num) rhs b st st' hf h

/-- **C73**: `RungeKutta45`, with `en^(1/5)`. -/
theorem C73_RungeKutta45 {lib : Lib ℝ} (hl : RealFunctions lib) (o : VarOptions ℝ) (rhs : Rhs ℝ n) (b : Bound ℝ)
    (st st' : St ℝ n 0 (FsalAux ℝ n 5 (RkItp ℝ n 4))) (hf : rhs st.t st.y = .ok st.f)
    (h : Takes ⟨fsal lib o RungeKutta45, rhs, b⟩ st st') :
    ∃ K, RKStages (withLast (RungeKutta45 : FsalCoef ℝ 5 4).toTableau) rhs st.t (st'.t - st.t) st.y K ∧
      NextSize o 4 (st'.t - st.t)
        (rmsError lib o st.y st'.y fun i => (st'.t - st.t) * ∑ j, (RungeKutta45 : FsalCoef ℝ 5 4).E j * K j i) st'.h :=
  rule_fsal hl o RungeKutta45_conditions.explicit (by simp [RungeKutta45, q]; norm_num) rhs b st st' hf h

/-- **C73**: `DOP853`, with `en^(1/8)` and its own error norm. -/
theorem C73_DOP853 {lib : Lib ℝ} (hl : RealFunctions lib) (o : VarOptions ℝ) (rhs : Rhs ℝ n) (b : Bound ℝ)
    (st st' : St ℝ n 0 (FsalAux ℝ n 11 (DopItp ℝ n))) (hf : rhs st.t st.y = .ok st.f)
    (h : Takes ⟨dop853 lib o DOP853, rhs, b⟩ st st') :
    ∃ K, RKStages (withLast (DOP853 : DopCoef ℝ).toTableau) rhs st.t (st'.t - st.t) st.y K ∧
      NextSize o 7 (st'.t - st.t)
        (let e5 := rmsError lib o st.y st'.y fun i => (st'.t - st.t) * ∑ j, (DOP853 : DopCoef ℝ).E5 j * K j i
         let e3 := rmsError lib o st.y st'.y fun i => (st'.t - st.t) * ∑ j, (DOP853 : DopCoef ℝ).E3 j * K j i
         e5 / Real.sqrt (1 + (e3 / (10 * e5)) ^ 2)) st'.h := by
  obtain ⟨l, last, h', K, hTr, hl1, rfl⟩ := (dop853_takes_iff lib o DOP853 DOP853_explicit rhs b st st' hf).mp h
  obtain ⟨last', hl', hK, hn, ha⟩ := trail_last hTr
  obtain ⟨last'', hl'', hr⟩ := trail_rule hl (q := 7) (by simp [DOP853, q]; norm_num) hTr
  rw [hl1] at hl' hl''
  cases hl'; cases hl''
  have e : (⟨st.cache.push (st.t + last.size) (proposal (DOP853 : DopCoef ℝ).toTableau last.size st.y K) (K (Fin.last _)), h',
      { st.aux with K := K }⟩ : St ℝ n 0 (FsalAux ℝ n 11 (DopItp ℝ n))).t - st.t = last.size := by
    simp only [St.t, push_t]; ring
  rw [e]
  refine ⟨K, hK, ?_⟩
  unfold dopNorm at hn
  simp only [] at hn
  split at hn
  · simp at hn
  · have en := Except.ok.inj hn
    simp only [St.y, push_y]
    rw [← en, hl.sqrt] at hr
    exact hr

/-- **C73**, the aim: if the error norm of an attempt is `c` times the `(q+1)`-th power of its size, then unless the limits
intervene the next size is the one whose error norm would be `safety^(q+1)`. -/
theorem C73_target {o : VarOptions ℝ} {q : ℕ} {c x en h' : ℝ} (hen : 0 < en) (hc : en = c * x ^ (q + 1))
    (h1 : o.minFactor ≤ o.safetyFactor / en ^ (1 / ((q : ℝ) + 1))) (h2 : o.safetyFactor / en ^ (1 / ((q : ℝ) + 1)) ≤ o.maxFactor)
    (h : NextSize o q x en h') : c * h' ^ (q + 1) = o.safetyFactor ^ (q + 1) := by
  rcases h with ⟨h3, -⟩ | ⟨-, rfl⟩
  · exact absurd h3 hen.ne'
  · rw [max_eq_right h1, min_eq_right h2, mul_pow, div_pow, ← Real.rpow_natCast (en ^ _), ← Real.rpow_mul hen.le]
    have e : 1 / ((q : ℝ) + 1) * ((q + 1 : ℕ) : ℝ) = 1 := by
      push_cast; field_simp
    rw [e, Real.rpow_one, ← mul_assoc, ← hc]
    field_simp

/-! ### Step sizes and tolerances -/

theorem rms_le {lib : Lib ℝ} (hl : RealFunctions lib) {o : VarOptions ℝ} (ha : 0 < o.atol) (hr : 0 ≤ o.rtol) {y yN err : Vec ℝ n} {B : ℝ}
    (hB : 0 ≤ B) (he : ∀ i, |err i| ≤ B) : rmsError lib o y yN err ≤ B / o.atol := by
  unfold rmsError
  rw [hl.sqrt]
  refine Real.sqrt_le_iff.mpr ⟨by positivity, ?_⟩
  rcases Nat.eq_zero_or_pos n with rfl | hn
  · simp; positivity
  have hn' : (0 : ℝ) < n := by exact_mod_cast hn
  rw [div_le_iff₀ hn']
  calc ∑ i, (err i / (o.atol + o.rtol * max |yN i| |y i|)) ^ 2 ≤ ∑ _i : Fin n, (B / o.atol) ^ 2 :=
        Finset.sum_le_sum fun i _ => by
          rw [← sq_abs]
          refine pow_le_pow_left₀ (abs_nonneg _) ?_ 2
          have h1 : 0 ≤ o.rtol * max |yN i| |y i| := mul_nonneg hr (le_max_of_le_left (abs_nonneg _))
          rw [abs_div, abs_of_pos (by linarith : 0 < o.atol + o.rtol * max |yN i| |y i|)]
          exact div_le_div₀ hB (he i) ha (by linarith)
    _ = _ := by rw [Finset.sum_const, Finset.card_univ, Fintype.card_fin, nsmul_eq_mul, mul_comm]

theorem nextSize_lower {o : VarOptions ℝ} (ho : ShrinkingOptions o) {q : ℕ} {C x en h' : ℝ} (hC : 0 < C) (hx : 0 < x) (h0 : 0 ≤ en)
    (hen : en ≤ C * x ^ (q + 1) / o.atol) (h : NextSize o q x en h') :
    min x (o.safetyFactor * (o.atol / C) ^ (1 / ((q : ℝ) + 1))) ≤ h' := by
  have ha := ho.atol_pos
  have hmx : x ≤ x * o.maxFactor := le_mul_of_one_le_right hx.le ho.maxFactor_ge
  rcases h with ⟨-, rfl⟩ | ⟨h1, rfl⟩
  · exact (min_le_left _ _).trans hmx
  · have hpos : 0 < en := lt_of_le_of_ne h0 (Ne.symm h1)
    set e := 1 / ((q : ℝ) + 1) with he
    have he0 : 0 ≤ e := by positivity
    rw [mul_min_of_nonneg _ _ hx.le]
    refine le_min ((min_le_left _ _).trans hmx) ((min_le_right _ _).trans ?_)
    refine le_trans ?_ (mul_le_mul_of_nonneg_left (le_max_right _ _) hx.le)
    have k1 : en ^ e ≤ (C / o.atol) ^ e * x := by
      have k2 : en ^ e ≤ (C * x ^ (q + 1) / o.atol) ^ e := Real.rpow_le_rpow h0 hen he0
      have k3 : C * x ^ (q + 1) / o.atol = (C / o.atol) * x ^ (q + 1) := by ring
      rw [k3, Real.mul_rpow (by positivity) (by positivity)] at k2
      have k4 : (x ^ (q + 1)) ^ e = x := by
        rw [← Real.rpow_natCast, ← Real.rpow_mul hx.le]
        have : (((q + 1 : ℕ) : ℝ)) * e = 1 := by rw [he]; push_cast; field_simp
        rw [this, Real.rpow_one]
      rwa [k4] at k2
    have k5 : (0 : ℝ) < en ^ e := Real.rpow_pos_of_pos hpos e
    have k6 : (o.atol / C) ^ e * (C / o.atol) ^ e = 1 := by
      rw [← Real.mul_rpow (by positivity) (by positivity)]
      have : o.atol / C * (C / o.atol) = 1 := by field_simp
      rw [this, Real.one_rpow]
    rw [← mul_div_assoc, le_div_iff₀ k5]
    have k7 : 0 ≤ (o.atol / C) ^ e := Real.rpow_nonneg (by positivity) e
    calc o.safetyFactor * (o.atol / C) ^ e * en ^ e ≤ o.safetyFactor * (o.atol / C) ^ e * ((C / o.atol) ^ e * x) :=
          mul_le_mul_of_nonneg_left k1 (mul_nonneg ho.safety_pos.le k7)
      _ = x * o.safetyFactor * ((o.atol / C) ^ e * (C / o.atol) ^ e) := by ring
      _ = _ := by rw [k6, mul_one]

theorem rms_nonneg {lib : Lib ℝ} (hl : RealFunctions lib) (o : VarOptions ℝ) (y yN err : Vec ℝ n) : 0 ≤ rmsError lib o y yN err := by
  unfold rmsError; rw [hl.sqrt]; exact Real.sqrt_nonneg _

theorem sizes_scale {d : ℕ} {lib : Lib ℝ} (hl : RealFunctions lib) {c : FsalCoef ℝ s d} (hT : Explicit c.toTableau) {q : ℕ}
    (hq : c.errorExponent = 1 / ((q : ℝ) + 1)) (hE : EstimateOrder (n := n) c.toTableau c.E q) (b : Bound ℝ) :
    SizesScale (fun o (rhs : Rhs ℝ n) => ⟨fsal lib o c, rhs, b⟩) q := by
  intro f y t₀ hf hy
  obtain ⟨C, δ, hδ, hC⟩ := hE f y t₀ hf hy
  refine ⟨|C| + 1, δ, by positivity, hδ, fun o ho st st' hon htk hnear h0 hsm => ?_⟩
  have hC0 : 0 < |C| + 1 := by positivity
  obtain ⟨l, last, h', K, hTr, hl1, rfl⟩ := (fsal_takes_iff lib o c hT (pureRhs f) b st st' (by rw [pureRhs, hon.f])).mp htk
  set m := o.safetyFactor * (o.atol / (|C| + 1)) ^ (1 / ((q : ℝ) + 1)) with hm
  have hex : 0 ≤ c.errorExponent := by rw [hq]; positivity
  have key : ∀ {h h' : ℝ} {l : List (Tried ℝ)} {K : Fin (s + 2) → Vec ℝ n},
      Trail lib o c.errorExponent c.toTableau (fun h K yN y => .ok (rmsError lib o y yN fun i => h * ∑ j, c.E j * K j i))
        (pureRhs f) st.t st.y h l h' K → 0 < h → h < δ →
      ∀ last, l.getLast? = some last → min h m ≤ last.size ∧ min h m ≤ h' := by
    intro h h' l K hTr
    induction hTr with
    | @accept h en r K hK hn ha hr =>
      intro h0 hsm last hlast
      cases hlast
      refine ⟨min_le_left _ _, ?_⟩
      have en' := Except.ok.inj hn
      rw [hq] at hr
      refine nextSize_lower ho hC0 h0 (by rw [← en']; exact rms_nonneg hl _ _ _ _) ?_ (nextSize_of_factor hl hr)
      rw [← en']
      rw [hon.y] at hK
      refine rms_le hl ho.atol_pos ho.rtol_nonneg (by positivity) fun i => ?_
      refine (hC st.t h K hnear (by rwa [abs_of_pos h0]) hK i).trans ?_
      rw [abs_of_pos h0]
      exact mul_le_mul_of_nonneg_right ((le_abs_self C).trans (by linarith)) (by positivity)
    | @reject h en r h' K K' l hK hn ha hr hT' ih =>
      intro h0 hsm last hlast
      have en' := Except.ok.inj hn
      have hr' := hr
      rw [hq] at hr
      have low : min h m ≤ h * r := by
        refine nextSize_lower ho hC0 h0 (by rw [← en']; exact rms_nonneg hl _ _ _ _) ?_ (nextSize_of_factor hl hr)
        rw [← en']
        rw [hon.y] at hK
        refine rms_le hl ho.atol_pos ho.rtol_nonneg (by positivity) fun i => ?_
        refine (hC st.t h K hnear (by rwa [abs_of_pos h0]) hK i).trans ?_
        rw [abs_of_pos h0]
        exact mul_le_mul_of_nonneg_right ((le_abs_self C).trans (by linarith)) (by positivity)
      have hr1 : 0 < r ∧ r ≤ 1 := by
        rcases hr' with ⟨h1, -⟩ | ⟨-, -, rfl⟩
        · exact absurd h1 ha.1
        · refine ⟨lt_min (by linarith [ho.maxFactor_ge]) (lt_max_of_lt_left ho.minFactor_pos), (min_le_right _ _).trans ?_⟩
          refine max_le ho.minFactor_lt.le ?_
          rw [hl.pow]
          have := Real.one_le_rpow ha.2 hex
          rw [div_le_one (by linarith)]
          linarith [ho.safety_lt]
      have hlast' : l.getLast? = some last := by
        cases l with
        | nil => cases hT'
        | cons a l => simpa using hlast
      obtain ⟨g1, g2⟩ := ih (mul_pos h0 hr1.1) (lt_of_le_of_lt (mul_le_of_le_one_right h0.le hr1.2) hsm) last hlast'
      have : min h m ≤ min (h * r) m := le_min low (min_le_right _ _)
      exact ⟨this.trans g1, this.trans g2⟩
  obtain ⟨g1, g2⟩ := key hTr h0 hsm last hl1
  refine ⟨?_, g2⟩
  have e : (⟨st.cache.push (st.t + last.size) (proposal c.toTableau last.size st.y K) (K (Fin.last _)), h',
      { st.aux with K := K }⟩ : St ℝ n 0 (FsalAux ℝ n s (RkItp ℝ n d))).t - st.t = last.size := by
    simp only [St.t, push_t]; ring
  rw [e]
  exact g1

/-- **C73**: along smooth solutions the step sizes of `RungeKutta23` and `RungeKutta45` do not fall below a constant times
`atol^(1/3)` and `atol^(1/5)`, whatever the options. -/
theorem C73_sizes {lib : Lib ℝ} (hl : RealFunctions lib) (b : Bound ℝ) :
    SizesScale (fun o (rhs : Rhs ℝ n) => ⟨fsal lib o RungeKutta23, rhs, b⟩) 2 ∧
    SizesScale (fun o (rhs : Rhs ℝ n) => ⟨fsal lib o RungeKutta45, rhs, b⟩) 4 :=
  ⟨sizes_scale hl RungeKutta23_conditions.explicit (by simp [RungeKutta23, q]; norm_num) C65_RungeKutta23_estimate b,
    sizes_scale hl RungeKutta45_conditions.explicit (by simp [RungeKutta45, q]; norm_num) C65_RungeKutta45_estimate b⟩

/-! ### Concrete cases -/

section concrete
open Demo

theorem Demo.realLib_real : RealFunctions realLib := ⟨fun _ => rfl, fun _ _ => rfl⟩

/-- `C73_RungeKutta23`, `C73_target`: on `y' = t²` with `first_step = 1`, `atol = 1`, `rtol = 0`, RungeKutta23 takes a step whose error
norm is `1/24`, and leaves the size `h` with `h³ / 24 = 0.9³`. -/
example : ∃ st', Takes ⟨fsal realLib coarse RungeKutta23, timeRhs fun t => t ^ 2, .inf⟩ (rk23Start (fun t => t ^ 2) 1) st' ∧
    st'.t - (rk23Start (fun t => t ^ 2) 1).t = 1 ∧ st'.h ^ 3 / 24 = (9 / 10) ^ 3 := by
  have en : rkNorm realLib coarse (RungeKutta23 : FsalCoef ℝ 2 3).E 1 (rk23K (fun t => t ^ 2) 0 1)
      (proposal (RungeKutta23 : FsalCoef ℝ 2 3).toTableau 1 (fun _ => 0) (rk23K (fun t => t ^ 2) 0 1)) (fun _ => 0) =
      .ok (1 / 24) := by
    rw [rk23_norm coarse rfl rfl]
    norm_num [abs_of_neg]
  have hp : (0 : ℝ) < (1 / 24) ^ ((1 : ℝ) / (((2 : ℕ) : ℝ) + 1)) := Real.rpow_pos_of_pos (by norm_num) _
  obtain ⟨st', tk, ht, hy⟩ : ∃ st', Takes ⟨fsal realLib coarse RungeKutta23, timeRhs fun t => t ^ 2, .inf⟩
      (rk23Start (fun t => t ^ 2) 1) st' ∧ st'.t = 1 ∧
      st'.y = proposal (RungeKutta23 : FsalCoef ℝ 2 3).toTableau 1 (fun _ => 0) (rk23K (fun t => t ^ 2) 0 1) := by
    refine ⟨_, (fsal_takes_iff realLib coarse RungeKutta23 RungeKutta23_conditions.explicit _ .inf _ _ rfl).mpr
      ⟨[⟨1, 1 / 24⟩], ⟨1, 1 / 24⟩, _, rk23K (fun t => t ^ 2) 0 1, .accept (rk23_stages _ _ _ _) en
        (Or.inr (by norm_num)) (Or.inr ⟨by norm_num, (Real.rpow_pos_of_pos (by norm_num) _).ne', rfl⟩), rfl, rfl⟩, ?_, ?_⟩
    · exact (push_t _ _ _ _).trans (by simp [St.t, Buffer.t, rk23Start])
    · exact push_y _ _ _ _
  obtain ⟨K, h1, h2⟩ := C73_RungeKutta23 realLib_real coarse _ .inf _ _ rfl tk
  have e0 : (rk23Start (fun t => t ^ 2) 1).t = 0 := rfl
  rw [ht, e0, sub_zero] at h1 h2
  refine ⟨st', tk, by rw [ht, e0, sub_zero], ?_⟩
  have e3 : K = rk23K (fun t => t ^ 2) 0 1 := by
    have h3 := rk23_stages (fun t => t ^ 2) 0 1 (fun _ => 0)
    have he := withLast_explicit (RungeKutta23_conditions (α := ℝ)).explicit
    funext i
    exact (stages_unique he h1 i).trans (stages_unique he h3 i).symm
  subst e3
  have e4 := Except.ok.inj en
  rw [show rmsError realLib coarse _ _ _ = 1 / 24 from (by
    rw [hy]; exact e4)] at h2
  have := C73_target (c := 1 / 24) (by norm_num) (by norm_num) ?_ ?_ h2
  · rw [show coarse.safetyFactor = 9 / 10 by simp [coarse, VarOptions.default]] at this
    rw [← this]; ring
  · rw [le_div_iff₀ hp]
    have : ((1 : ℝ) / 24) ^ ((1 : ℝ) / (((2 : ℕ) : ℝ) + 1)) ≤ 1 := Real.rpow_le_one (by norm_num) (by norm_num) (by positivity)
    simp only [coarse, VarOptions.default]
    norm_num at this ⊢
    linarith
  · rw [div_le_iff₀ hp]
    have : ((1 : ℝ) / 1000) ^ ((1 : ℝ) / (((2 : ℕ) : ℝ) + 1)) ≤ (1 / 24) ^ ((1 : ℝ) / (((2 : ℕ) : ℝ) + 1)) :=
      Real.rpow_le_rpow (by norm_num) (by norm_num) (by positivity)
    rw [show ((1 : ℝ) / 1000) = (1 / 10) ^ (3 : ℝ) by norm_num, ← Real.rpow_mul (by norm_num)] at this
    simp only [coarse, VarOptions.default]
    norm_num at this ⊢
    linarith

/-- `C73_sizes`: on `y' = y` near `t = 0`, with the default options except `atol`, a step of RungeKutta45 that begins with the size
`h` is no shorter than `min(h, 0.9 (atol / C)^(1/5))`. -/
example : ∃ C δ : ℝ, 0 < C ∧ 0 < δ ∧ ∀ atol, 0 < atol → ∀ s s' : St ℝ 1 0 (FsalAux ℝ 1 5 (RkItp ℝ 1 4)),
    s.y = (fun _ => Real.exp s.t) → s.f = s.y →
    Takes ⟨fsal realLib { VarOptions.default with atol := atol } RungeKutta45, pureRhs fun _ y => y, .inf⟩ s s' →
    |s.t| < δ → 0 < s.h → s.h < δ → min s.h (9 / 10 * (atol / C) ^ ((1 : ℝ) / 5)) ≤ s'.t - s.t := by
  obtain ⟨C, δ, hC, hδ, h⟩ := (C73_sizes (n := 1) realLib_real .inf).2 (fun _ y => y) (fun t _ => Real.exp t) 0
    (contDiffAt_snd) (Filter.Eventually.of_forall fun t => hasDerivAt_pi.mpr fun _ => Real.hasDerivAt_exp t)
  refine ⟨C, δ, hC, hδ, fun atol ha s s' h1 h2 h3 h4 h5 h6 => ?_⟩
  have := (h { VarOptions.default with atol := atol } ?_ s s' ⟨h1, h2⟩ h3 (by simpa using h4) h5 h6).1
  · refine le_trans (le_of_eq ?_) this
    simp only [VarOptions.default]
    norm_num
  · constructor <;> simp only [VarOptions.default] <;> first | exact ha | norm_num

/-- `C73_DOP853`: the step of DOP853 on `y' = 1` leaves a size given by the rule. -/
example (K : Fin 13 → Vec ℝ 1) (itp : DopItp ℝ 1) : ∃ (s s' : St ℝ 1 0 (FsalAux ℝ 1 11 (DopItp ℝ 1))),
    Takes ⟨dop853 realLib coarse DOP853, pureRhs fun _ _ _ => 1, .inf⟩ s s' ∧ s'.t - s.t = 1 ∧ ∃ en, NextSize coarse 7 1 en s'.h := by
  obtain ⟨st', h, ht⟩ := ones_step K itp
  obtain ⟨K', -, h2⟩ := C73_DOP853 realLib_real coarse _ .inf _ _ rfl h
  have e : st'.t - (⟨⟨fun _ => 0, fun _ _ => 0, fun _ _ => 1⟩, 1, ⟨K, itp⟩⟩ : St ℝ 1 0 (FsalAux ℝ 1 11 (DopItp ℝ 1))).t = 1 := by
    rw [ht]; simp [St.t, Buffer.t]
  rw [e] at h2
  exact ⟨_, st', h, e, _, h2⟩

/-- `C73_RungeKutta45`: on `y' = 1` the estimate is zero, so a step of size 1 leaves the size 10. -/
example (st : St ℝ 1 0 (FsalAux ℝ 1 5 (RkItp ℝ 1 4))) (hf : st.f = fun _ => 1) (hh : st.h = 1) :
    ∃ st', Takes ⟨fsal realLib coarse RungeKutta45, pureRhs fun _ _ _ => 1, .inf⟩ st st' ∧ st'.t - st.t = 1 ∧ st'.h = 10 := by
  have hE : ∑ j, (RungeKutta45 : FsalCoef ℝ 5 4).E j = 0 := by
    simp [RungeKutta45, q, Fin.sum_univ_succ]; norm_num
  have hn : ∀ x (y yN : Vec ℝ 1), rmsError realLib coarse y yN (fun i => x * ∑ j, (RungeKutta45 : FsalCoef ℝ 5 4).E j * (1 : ℝ)) = 0 := by
    intro x y yN
    simp only [mul_one, hE]
    simp [rmsError, realLib]
  obtain ⟨st', tk, ht⟩ : ∃ st', Takes ⟨fsal realLib coarse RungeKutta45, pureRhs fun _ _ _ => 1, .inf⟩ st st' ∧ st'.t = st.t + 1 := by
    refine ⟨_, (fsal_takes_iff realLib coarse RungeKutta45 RungeKutta45_conditions.explicit _ .inf _ _ (by rw [hf]; rfl)).mpr
      ⟨[⟨st.h, 0⟩], ⟨st.h, 0⟩, _, fun _ _ => 1, .accept (fun _ => rfl) (congrArg Except.ok (hn _ _ _)) (Or.inl rfl)
        (Or.inl ⟨rfl, rfl⟩), rfl, rfl⟩, ?_⟩
    rw [← hh]; exact push_t _ _ _ _
  have e : st'.t - st.t = 1 := by rw [ht]; ring
  obtain ⟨K, h1, h2⟩ := C73_RungeKutta45 realLib_real coarse _ .inf st st' (by rw [hf]; rfl) tk
  have hK : K = fun _ _ => 1 := by
    funext i; exact (Except.ok.inj (h1 i)).symm
  subst hK
  rw [e, hn] at h2
  refine ⟨st', tk, e, ?_⟩
  rcases h2 with ⟨-, h⟩ | ⟨h, -⟩
  · rw [h]; simp [coarse, VarOptions.default]
  · exact absurd rfl h

end concrete

end Nbkode
