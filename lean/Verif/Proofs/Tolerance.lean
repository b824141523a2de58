import Verif.Spec.Tolerance
import Verif.Props.Controller
import Verif.Props.Convergence
import Verif.Props.RunError

/-!
# Lemmas for the proportionality of error and tolerance
-/

set_option autoImplicit false
set_option linter.unusedSectionVars false

namespace Nbkode
open Py Spec Solver

variable {n s d : ℕ}

theorem real_powLaw {lib : Lib ℝ} (hl : RealFunctions lib) : PowLaw lib where
  one_le x e hx he := by rw [hl.pow]; exact Real.one_le_rpow hx he
  pos x e hx := by rw [hl.pow]; exact Real.rpow_pos_of_pos hx e

theorem sane_of_shrinking {o : VarOptions ℝ} (ho : ShrinkingOptions o) : SaneOptions o :=
  ⟨ho.minFactor_pos, ho.minFactor_lt.le, zero_lt_one.trans_le ho.maxFactor_ge, ho.safety_lt.le⟩

/-- An error norm below one bounds every component of the error. -/
theorem component_le {lib : Lib ℝ} (hl : RealFunctions lib) {o : VarOptions ℝ} (ha : 0 < o.atol) (hr : 0 ≤ o.rtol) {y yN err : Vec ℝ n}
    (h : rmsError lib o y yN err ≤ 1) {R : ℝ} (hy : ∀ i, |y i| ≤ R) (hN : ∀ i, |yN i| ≤ R) (i : Fin n) :
    |err i| ≤ Real.sqrt n * (o.atol + o.rtol * R) := by
  unfold rmsError at h
  rw [hl.sqrt, Real.sqrt_le_iff, one_pow] at h
  replace h := h.2
  have hn : (0 : ℝ) < n := by
    have := i.pos
    exact_mod_cast this
  rw [div_le_one hn] at h
  have h1 := (Finset.single_le_sum (f := fun i => (err i / (o.atol + o.rtol * max |yN i| |y i|)) ^ 2) (fun j _ => sq_nonneg _)
    (Finset.mem_univ i)).trans h
  have hm : 0 ≤ max |yN i| |y i| := le_max_of_le_left (abs_nonneg _)
  have hs : 0 < o.atol + o.rtol * max |yN i| |y i| := by positivity
  have h2 := Real.abs_le_sqrt h1
  rw [abs_div, abs_of_pos hs, div_le_iff₀ hs] at h2
  refine h2.trans (mul_le_mul_of_nonneg_left ?_ (Real.sqrt_nonneg _))
  exact add_le_add le_rfl (mul_le_mul_of_nonneg_left (max_le (hN i) (hy i)) hr)

/-- The stages weighted with `E`. -/
noncomputable def estimator (T : Tableau ℝ s) (E : Fin (s + 2) → ℝ) : Tableau ℝ (s + 1) := { withLast T with B := E }

theorem estimate_eq {T : Tableau ℝ s} (hT : Explicit T) {E : Fin (s + 2) → ℝ} {f : ℝ → Vec ℝ n → Vec ℝ n} {t h : ℝ} {y : Vec ℝ n}
    {K : Fin (s + 2) → Vec ℝ n} (hK : RKStages (withLast T) (pureRhs f) t h y K) (i : Fin n) :
    ∑ j, E j * K j i = incr (estimator T E) f (t, h, y) i := by
  have hT' : Explicit (estimator T E) := ⟨(withLast_explicit hT).upper, (withLast_explicit hT).first⟩
  have hK' : RKStages (estimator T E) (pureRhs f) t h y K := hK
  simp only [incr, Finset.sum_apply, Pi.smul_apply, smul_eq_mul]
  exact Finset.sum_congr rfl fun j _ => by rw [stages_unique hT' hK' j]; rfl

/-- What one accepted step says about its size. -/
theorem size_bound {lib : Lib ℝ} (hl : RealFunctions lib) {c : FsalCoef ℝ s d} (hT : Explicit c.toTableau) {o : VarOptions ℝ}
    (ho : ShrinkingOptions o) {f : ℝ → Vec ℝ n → Vec ℝ n} {y : ℝ → Vec ℝ n} {t₀ t₁ κ δ L C R : ℝ} {p : ℕ} {b : Bound ℝ} (hκ : 0 < κ)
    (hsharp : ∀ (t h : ℝ) (K : Fin (s + 2) → Vec ℝ n), t ∈ Set.Icc t₀ t₁ → 0 < h → h ≤ δ →
      RKStages (withLast c.toTableau) (pureRhs f) t h (y t) K → ∃ d, κ * h ^ p ≤ |h * ∑ j, c.E j * K j d|)
    (hL : 0 ≤ L) (hlip : ∀ t ∈ Set.Icc t₀ t₁, ∀ x ∈ Set.Icc (0 : ℝ) 1, ∀ v, ‖v - y t‖ ≤ 1 →
      ‖incr (estimator c.toTableau c.E) f (t, x, v) - incr (estimator c.toTableau c.E) f (t, x, y t)‖ ≤ L * ‖v - y t‖)
    (hR : ∀ t ∈ Set.Icc t₀ t₁, ‖(y t : Fin n → ℝ)‖ ≤ R) {u v : St ℝ n 0 (FsalAux ℝ n s (RkItp ℝ n d))} (huf : u.f = f u.t u.y)
    (htk : Takes ⟨fsal lib o c, pureRhs f, b⟩ u v) (hut : u.t ∈ Set.Icc t₀ t₁) (hvt : v.t ∈ Set.Icc t₀ t₁) (hx0 : 0 < v.t - u.t)
    (hxδ : v.t - u.t ≤ δ) (hx1 : v.t - u.t ≤ 1) (hxL : (v.t - u.t) * (L * C) ≤ κ / 2)
    (hu : ‖(u.y - y u.t : Fin n → ℝ)‖ ≤ C * (v.t - u.t) ^ p) (hu1 : ‖(u.y - y u.t : Fin n → ℝ)‖ ≤ 1)
    (hv1 : ‖(v.y - y v.t : Fin n → ℝ)‖ ≤ 1) :
    (v.t - u.t) ^ p ≤ 2 / κ * (Real.sqrt n * (o.atol + o.rtol * (R + 1))) := by
  set x := v.t - u.t with hx
  obtain ⟨h0, K, hK, hrms, e1, -⟩ := C36_accepted lib o c hT (pureRhs f) b u v (congrArg Except.ok huf.symm) htk
  have e0 : h0 = x := by rw [hx, e1]; ring
  subst e0
  have hle : rmsError lib o u.y v.y (fun d => x * ∑ j, c.E j * K j d) ≤ 1 := by
    rcases hrms with h | h
    · rw [h]; exact zero_le_one
    · exact h.le
  have near : ∀ (w : Vec ℝ n) (t : ℝ), t ∈ Set.Icc t₀ t₁ → ‖(w - y t : Fin n → ℝ)‖ ≤ 1 → ∀ i, |w i| ≤ R + 1 := by
    intro w t ht h1 i
    have h2 := (norm_le_pi_norm (w - y t : Fin n → ℝ) i).trans h1
    have h3 := (norm_le_pi_norm (y t : Fin n → ℝ) i).trans (hR t ht)
    rw [Real.norm_eq_abs] at h2 h3
    have e : w i = y t i + (w i - y t i) := by ring
    rw [e]
    exact (abs_add_le _ _).trans (add_le_add h3 h2)
  have hT' : Explicit (withLast c.toTableau) := withLast_explicit hT
  obtain ⟨i, hi⟩ := hsharp u.t x _ hut hx0 hxδ (stageFn_stages hT' f u.t x (y u.t))
  rw [estimate_eq hT (stageFn_stages hT' f u.t x (y u.t)) i] at hi
  have h1 := component_le hl ho.atol_pos ho.rtol_nonneg hle (near u.y u.t hut hu1) (near v.y v.t hvt hv1) i
  simp only [estimate_eq hT hK] at h1
  have h2 := (norm_le_pi_norm (incr (estimator c.toTableau c.E) f (u.t, x, u.y) - incr (estimator c.toTableau c.E) f (u.t, x, y u.t)) i).trans
    (hlip u.t hut x ⟨hx0.le, hx1⟩ u.y hu1)
  rw [Real.norm_eq_abs, Pi.sub_apply] at h2
  have h3 : x * |incr (estimator c.toTableau c.E) f (u.t, x, u.y) i - incr (estimator c.toTableau c.E) f (u.t, x, y u.t) i| ≤
      κ / 2 * x ^ p := by
    calc x * _ ≤ x * (L * (C * x ^ p)) := mul_le_mul_of_nonneg_left (h2.trans (mul_le_mul_of_nonneg_left hu hL)) hx0.le
      _ = x * (L * C) * x ^ p := by ring
      _ ≤ _ := mul_le_mul_of_nonneg_right hxL (by positivity)
  rw [abs_mul, abs_of_pos hx0] at h1 hi
  have h4 : x * |incr (estimator c.toTableau c.E) f (u.t, x, y u.t) i| ≤ x * |incr (estimator c.toTableau c.E) f (u.t, x, u.y) i| +
      x * |incr (estimator c.toTableau c.E) f (u.t, x, u.y) i - incr (estimator c.toTableau c.E) f (u.t, x, y u.t) i| := by
    rw [← mul_add]
    refine mul_le_mul_of_nonneg_left ?_ hx0.le
    rw [abs_sub_comm]
    have e : incr (estimator c.toTableau c.E) f (u.t, x, y u.t) i = incr (estimator c.toTableau c.E) f (u.t, x, u.y) i +
      (incr (estimator c.toTableau c.E) f (u.t, x, y u.t) i - incr (estimator c.toTableau c.E) f (u.t, x, u.y) i) := by ring
    calc |incr (estimator c.toTableau c.E) f (u.t, x, y u.t) i| = |incr (estimator c.toTableau c.E) f (u.t, x, u.y) i +
      (incr (estimator c.toTableau c.E) f (u.t, x, y u.t) i - incr (estimator c.toTableau c.E) f (u.t, x, u.y) i)| := by rw [← e]
      _ ≤ _ := abs_add_le _ _
  rw [div_mul_eq_mul_div, le_div_iff₀ hκ]
  nlinarith

theorem chain_snoc {k : ℕ} {X : Type} {S : Solver ℝ n k X} {b : Bound ℝ} {r : St ℝ n k X → St ℝ n k X → Prop} {s u v : St ℝ n k X}
    {l : List (St ℝ n k X)} (hp : Path S b s l u) (hc : (s :: l).IsChain r) (h : r u v) : (s :: (l ++ [v])).IsChain r := by
  induction hp with
  | nil s => simpa using h
  | cons _ _ _ ih =>
    rw [List.isChain_cons_cons] at hc
    rw [List.cons_append, List.isChain_cons_cons]
    exact ⟨hc.1, ih hc.2 h⟩

theorem StepsUpTo.mono {k : ℕ} {X : Type} {H H' : ℝ} {l : List (St ℝ n k X)} (h : StepsUpTo H l) (hH : H ≤ H') : StepsUpTo H' l :=
  List.IsChain.imp (fun _ _ h => ⟨h.1, h.2.trans hH⟩) h

/-- One step: its size, the derivative it leaves and the size left for the next one. -/
theorem fsal_step_sizes {lib : Lib ℝ} (hl : RealFunctions lib) {c : FsalCoef ℝ s d} (hT : Explicit c.toTableau) {o : VarOptions ℝ}
    (ho : ShrinkingOptions o) {q : ℕ} (hq : c.errorExponent = 1 / ((q : ℝ) + 1)) {f : ℝ → Vec ℝ n → Vec ℝ n} {b : Bound ℝ}
    {u v : St ℝ n 0 (FsalAux ℝ n s (RkItp ℝ n d))} (huf : u.f = f u.t u.y) (hh : 0 < u.h)
    (htk : Takes ⟨fsal lib o c, pureRhs f, b⟩ u v) :
    0 < v.t - u.t ∧ v.t - u.t ≤ u.h ∧ v.f = f v.t v.y ∧ 0 < v.h ∧ v.h ≤ (v.t - u.t) * o.maxFactor := by
  have hex : 0 ≤ c.errorExponent := by rw [hq]; positivity
  have hf : pureRhs f u.t u.y = .ok u.f := congrArg Except.ok huf.symm
  obtain ⟨r, K, f', hr0, hr1, -, hf', hc, -⟩ := fsalBody_records lib o (real_powLaw hl) (sane_of_shrinking ho) _ hex _ hT _ _ u v hf htk
  have ht : v.t = u.t + u.h * r := by rw [St.t, hc, push_t]
  have hy : v.y = rkNew c.toTableau (u.h * r) u.y K := by rw [St.y, hc, push_y]
  have hff : v.f = f' := by rw [St.f, hc, push_f]
  have hx : v.t - u.t = u.h * r := by rw [ht]; ring
  have hx0 : 0 < v.t - u.t := by rw [hx]; positivity
  refine ⟨hx0, ?_, ?_, ?_⟩
  · rw [hx]; nlinarith
  · rw [hff, ht, hy]; exact (Except.ok.inj hf').symm
  obtain ⟨K', -, hN⟩ := rule_fsal hl o hT hq _ b u v hf htk
  have hM := ho.maxFactor_ge
  rcases hN with ⟨-, h⟩ | ⟨-, h⟩
  · exact ⟨by rw [h]; exact mul_pos hx0 (by linarith), h.le⟩
  · refine ⟨?_, ?_⟩
    · rw [h]
      exact mul_pos hx0 (lt_min (by linarith) (lt_max_of_lt_left ho.minFactor_pos))
    · rw [h]
      exact mul_le_mul_of_nonneg_left (min_le_left _ _) hx0.le

theorem steps_last {k : ℕ} {X : Type} {S : Solver ℝ n k X} {b : Bound ℝ} {H : ℝ} {s u v : St ℝ n k X} {l : List (St ℝ n k X)}
    (hp : Path S b s l u) (h : StepsUpTo H (s :: (l ++ [v]))) : 0 < v.t - u.t ∧ v.t - u.t ≤ H := by
  induction hp with
  | nil s => simpa [StepsUpTo] using h
  | cons _ _ _ ih =>
    unfold StepsUpTo at h
    rw [List.cons_append, List.isChain_cons_cons] at h
    exact ih h.2

/-- The steps up to `t₁` are at most `(G * (atol + rtol))^(1/p)`, and the step size stays below `δ`. -/
theorem tolerance_steps {lib : Lib ℝ} (hl : RealFunctions lib) {c : FsalCoef ℝ s d} (hT : Explicit c.toTableau) (hRows : RowSums c.toTableau)
    {p q : ℕ} (hp : 1 ≤ p) (hB : OrderConditions c.A c.B p) (hq : c.errorExponent = 1 / ((q : ℝ) + 1)) (b : Bound ℝ) {f : ℝ → Vec ℝ n → Vec ℝ n}
    {y : ℝ → Vec ℝ n} {a b' t₀ t₁ : ℝ} (M : ℝ) (hf : ContDiff ℝ p (joint f)) (ha : a < t₀) (hb : t₁ < b')
    (hy : ∀ t ∈ Set.Ioo a b', SolvesAt f y t) (hsh : SharpEstimate c.toTableau c.E p f y t₀ t₁) :
    ∃ G δ₀, 0 ≤ G ∧ 0 < δ₀ ∧ ∀ δ, 0 < δ → δ ≤ δ₀ → ∃ τ, 0 < τ ∧ ∀ o, ShrinkingOptions o → o.maxFactor ≤ M → o.atol ≤ τ → o.rtol ≤ τ →
      ∃ η, 0 ≤ η ∧ η ≤ δ ∧ η ^ p = G * (o.atol + o.rtol) ∧
      ∀ (st st' : St ℝ n 0 (FsalAux ℝ n s (RkItp ℝ n d))) (l : List (St ℝ n 0 (FsalAux ℝ n s (RkItp ℝ n d)))) (lim : Bound ℝ),
      st.t = t₀ → On f y st → 0 < st.h → st.h ≤ δ → Path ⟨fsal lib o c, pureRhs f, b⟩ lim st l st' →
      0 < st'.h ∧ st'.f = f st'.t st'.y ∧ (st'.t ≤ t₁ → st'.h ≤ δ ∧ StepsUpTo η (st :: l)) := by
  obtain ⟨κ, δ₁, hκ, hδ₁, hsharp⟩ := hsh
  have hyc : ContinuousOn (Y := Fin n → ℝ) y (Set.Icc t₀ t₁) := fun t ht =>
    (hy t ⟨ha.trans_le ht.1, ht.2.trans_lt hb⟩).continuousAt.continuousWithinAt
  obtain ⟨C, δ₀, hC, hδ₀, hconv⟩ := converges_uniform hT hRows hp hB hf ha hb hy
  obtain ⟨L, hL, hlip⟩ := incr_lipschitz (T := estimator c.toTableau c.E) (hf.of_le (by exact_mod_cast hp)) hyc
  obtain ⟨R, hR⟩ := isCompact_Icc.exists_bound_of_continuousOn hyc
  have hex : 0 ≤ c.errorExponent := by rw [hq]; positivity
  set D := C * |t₁ - t₀| with hD
  have hD0 : 0 ≤ D := by positivity
  set δm := min δ₀ (min δ₁ (min 1 (min (1 / (D + 1)) (κ / (2 * (L * D + 1)))))) with hδ
  have hδpos' : 0 < δm := by positivity
  have d0 : δm ≤ δ₀ := min_le_left _ _
  have d1 : δm ≤ δ₁ := (min_le_right _ _).trans (min_le_left _ _)
  have d2 : δm ≤ 1 := (min_le_right _ _).trans ((min_le_right _ _).trans (min_le_left _ _))
  have d3 : δm ≤ 1 / (D + 1) := (min_le_right _ _).trans ((min_le_right _ _).trans ((min_le_right _ _).trans (min_le_left _ _)))
  have d4 : δm ≤ κ / (2 * (L * D + 1)) :=
    (min_le_right _ _).trans ((min_le_right _ _).trans ((min_le_right _ _).trans (min_le_right _ _)))
  set R' := max R 0 with hR'
  have hRR : ∀ t ∈ Set.Icc t₀ t₁, ‖(y t : Fin n → ℝ)‖ ≤ R' := fun t ht => (hR t ht).trans (le_max_left _ _)
  have hR0 : 0 ≤ R' := le_max_right _ _
  set G := 2 / κ * (Real.sqrt n * (R' + 1)) with hG
  have hG0 : 0 ≤ G := by positivity
  set M' := max M 1 with hM'
  have hM1 : 1 ≤ M' := le_max_right _ _
  refine ⟨G, δm, hG0, hδpos', fun δ hδpos hδm => ⟨δ ^ p / (2 * (G + 1) * M' ^ p), by positivity, fun o ho hoM hat hrt => ?_⟩⟩
  replace d0 := hδm.trans d0
  replace d1 := hδm.trans d1
  replace d2 := hδm.trans d2
  replace d3 := hδm.trans d3
  replace d4 := hδm.trans d4
  clear_value δm
  set B := G * (o.atol + o.rtol) with hBd
  have hat0 := ho.atol_pos
  have hrt0 := ho.rtol_nonneg
  have hB0 : 0 ≤ B := by positivity
  have hBle : 2 / κ * (Real.sqrt n * (o.atol + o.rtol * (R' + 1))) ≤ B := by
    rw [hBd, hG, mul_assoc, mul_assoc]
    refine mul_le_mul_of_nonneg_left (mul_le_mul_of_nonneg_left ?_ (Real.sqrt_nonneg _)) (by positivity)
    nlinarith
  have hBM : B * M' ^ p ≤ δ ^ p := by
    have h1 : o.atol + o.rtol ≤ δ ^ p / ((G + 1) * M' ^ p) := by
      have e : δ ^ p / ((G + 1) * M' ^ p) = δ ^ p / (2 * (G + 1) * M' ^ p) + δ ^ p / (2 * (G + 1) * M' ^ p) := by
        field_simp; ring
      rw [e]; exact add_le_add hat hrt
    rw [le_div_iff₀ (by positivity)] at h1
    refine le_trans ?_ h1
    rw [hBd]
    have : 0 ≤ (o.atol + o.rtol) * M' ^ p := by positivity
    nlinarith
  have hBδ : B ≤ δ ^ p := le_trans (le_mul_of_one_le_right hB0 (one_le_pow₀ hM1)) hBM
  have hsteps : RKSteps c.toTableau (fun rhs : Rhs ℝ n => (⟨fsal lib o c, rhs, b⟩ : Solver ℝ n 0 _)) :=
    fsalBody_steps hT lib o (real_powLaw hl) (sane_of_shrinking ho) _ hex _ b _
  have hp0 : p ≠ 0 := by omega
  set η := B ^ (1 / (p : ℝ)) with hη
  have hη0 : 0 ≤ η := Real.rpow_nonneg hB0 _
  have hηp : η ^ p = B := by rw [hη, one_div, Real.rpow_inv_natCast_pow hB0 hp0]
  have hηδ : η ≤ δ := le_of_pow_le_pow_left₀ hp0 hδpos.le (hηp.le.trans hBδ)
  have hηM : η * M' ≤ δ := le_of_pow_le_pow_left₀ hp0 hδpos.le (by rw [mul_pow, hηp]; exact hBM)
  have small : ∀ x, 0 ≤ x → x ≤ δ → D * x ^ p ≤ 1 := by
    intro x hx0 hx
    have h1 : x ^ p ≤ x := pow_le_of_le_one hx0 (hx.trans d2) hp0
    have h2 : x * (D + 1) ≤ 1 := by
      rw [← le_div_iff₀ (by positivity)]; exact hx.trans d3
    nlinarith
  have smallL : ∀ x, 0 ≤ x → x ≤ δ → x * (L * D) ≤ κ / 2 := by
    intro x hx0 hx
    have h1 := hx.trans d4
    have h0 : 0 ≤ L * D := mul_nonneg hL hD0
    rw [le_div_iff₀ (by linarith)] at h1
    have h2 : x * (2 * (L * D + 1)) = 2 * (x * (L * D)) + 2 * x := by ring
    linarith
  clear_value D B η M' G R'
  refine ⟨η, hη0, hηδ, hηp, fun st st' l lim hst hon hh0 hhδ hpath => ?_⟩
  -- the error of the states visited with steps up to `H`
  have herr : ∀ (H : ℝ) (pre : List (St ℝ n 0 (FsalAux ℝ n s (RkItp ℝ n d)))) (u : St ℝ n 0 (FsalAux ℝ n s (RkItp ℝ n d))), H ≤ δ → 0 ≤ H →
      Path ⟨fsal lib o c, pureRhs f, b⟩ lim st pre u → StepsUpTo H (st :: pre) → u.t ≤ t₁ →
      ‖(u.y - y u.t : Fin n → ℝ)‖ ≤ D * H ^ p := by
    intro H pre u hH hH0 hpre hst' hut
    rcases List.eq_nil_or_concat pre with rfl | ⟨pre', v, rfl⟩
    · cases hpre
      rw [hon.y, sub_self, norm_zero]; positivity
    · have hv : u ∈ pre'.concat v := by
        rw [← path_last hpre (by simp)]; exact List.getLast_mem _
      obtain ⟨-, h1, h2⟩ := hconv hsteps H st u _ lim (hH.trans d0) hst hon hpre hst' u hv hut
      refine (pi_norm_le_iff_of_nonneg (by positivity)).mpr fun i => (h2 i).trans ?_
      rw [hD]
      refine mul_le_mul_of_nonneg_right (mul_le_mul_of_nonneg_left ?_ hC) (by positivity)
      exact (sub_le_sub_right hut _).trans (le_abs_self _)
  have main : ∀ (l pre : List (St ℝ n 0 (FsalAux ℝ n s (RkItp ℝ n d)))) (u u' : St ℝ n 0 (FsalAux ℝ n s (RkItp ℝ n d))),
      Path ⟨fsal lib o c, pureRhs f, b⟩ lim st pre u → 0 < u.h → u.f = f u.t u.y → t₀ ≤ u.t →
      (u.t ≤ t₁ → u.h ≤ δ ∧ StepsUpTo η (st :: pre)) → Path ⟨fsal lib o c, pureRhs f, b⟩ lim u l u' →
      0 < u'.h ∧ u'.f = f u'.t u'.y ∧ (u'.t ≤ t₁ → u'.h ≤ δ ∧ StepsUpTo η (st :: (pre ++ l))) := by
    intro l
    induction l with
    | nil =>
      intro pre u u' hpre hu0 huf hut hinv hp
      cases hp
      rw [List.append_nil]
      exact ⟨hu0, huf, hinv⟩
    | cons v l ih =>
      intro pre u u' hpre hu0 huf hut hinv hp
      cases hp with
      | cons hfit htk hp =>
        obtain ⟨hx0, hxu, hvf, hv0, hvM⟩ := fsal_step_sizes hl hT ho hq huf hu0 htk
        have hpre' := path_append hpre (.cons hfit htk (.nil _))
        have key : v.t ≤ t₁ → v.h ≤ δ ∧ StepsUpTo η (st :: (pre ++ [v])) := by
          intro hvt
          obtain ⟨huδ, hch⟩ := hinv (by linarith)
          have hxδ : v.t - u.t ≤ δ := hxu.trans huδ
          have hxη : v.t - u.t ≤ η := by
            by_contra hlt
            rw [not_le] at hlt
            have e1 := herr _ _ _ hxδ hx0.le hpre (StepsUpTo.mono hch hlt.le) (by linarith)
            have e2 := herr _ _ _ hxδ hx0.le hpre' (chain_snoc hpre (StepsUpTo.mono hch hlt.le) ⟨hx0, le_rfl⟩) hvt
            have e3 := small _ hx0.le hxδ
            have hxL := smallL _ hx0.le hxδ
            have := size_bound hl hT ho hκ hsharp hL hlip hRR huf htk ⟨hut, by linarith⟩ ⟨by linarith, hvt⟩ hx0 (hxδ.trans d1) (hxδ.trans d2)
              hxL e1 (e1.trans e3) (e2.trans e3)
            have h2 : (v.t - u.t) ^ p ≤ η ^ p := by rw [hηp]; exact this.trans hBle
            exact absurd (le_of_pow_le_pow_left₀ hp0 hη0 h2) (not_le.mpr hlt)
          refine ⟨?_, chain_snoc hpre hch ⟨hx0, hxη⟩⟩
          have hoM' : o.maxFactor ≤ M' := hoM.trans (hM' ▸ le_max_left _ _)
          have := ho.maxFactor_ge
          exact hvM.trans ((mul_le_mul hxη hoM' (by linarith) hη0).trans hηM)
        have := ih (pre ++ [v]) v u' hpre' hv0 hvf (by linarith) key hp
        rwa [List.append_assoc] at this
  exact main l [] st st' (.nil _) hh0 hon.f hst.ge (fun _ => ⟨hhδ, List.isChain_singleton _⟩) hpath

theorem path_free {k : ℕ} {X : Type} {S : Solver ℝ n k X} {b : Bound ℝ} {s u : St ℝ n k X} {l : List (St ℝ n k X)} (h : Path S b s l u) :
    Path S .inf s l u := by
  induction h with
  | nil s => exact .nil s
  | cons _ ht _ ih => exact .cons trivial ht ih

theorem follows_tolerance {lib : Lib ℝ} (hl : RealFunctions lib) {c : FsalCoef ℝ s d} (hT : Explicit c.toTableau) (hRows : RowSums c.toTableau)
    {p q : ℕ} (hp : 1 ≤ p) (hB : OrderConditions c.A c.B p) (hq : c.errorExponent = 1 / ((q : ℝ) + 1)) (b : Bound ℝ) :
    ErrorFollowsTolerance (fun o (rhs : Rhs ℝ n) => ⟨fsal lib o c, rhs, b⟩) (SharpEstimate c.toTableau c.E p) p := by
  intro f y a b' t₀ t₁ M hf ha hb hy hsh
  obtain ⟨C, δ₁, hC, hδ₁, hconv⟩ := converges_uniform hT hRows hp hB hf ha hb hy
  obtain ⟨G, δ₀, hG, hδ₀, hst⟩ := tolerance_steps hl hT hRows hp hB hq b M hf ha hb hy hsh
  obtain ⟨τ, hτ, hst⟩ := hst (min δ₀ δ₁) (lt_min hδ₀ hδ₁) (min_le_left _ _)
  have hex : 0 ≤ c.errorExponent := by rw [hq]; positivity
  refine ⟨C * |t₁ - t₀| * G, min δ₀ δ₁, τ, lt_min hδ₀ hδ₁, hτ, fun o ho hoM hat hrt st st' l lim ht hon hh0 hh hpath u hu hut i => ?_⟩
  obtain ⟨η, hη0, hηδ, hηp, key⟩ := hst o ho hoM hat hrt
  obtain ⟨l1, l2, rfl⟩ := List.append_of_mem hu
  obtain ⟨w, hp1, hp2⟩ := path_split hpath
  cases hp2 with
  | cons hf1 ht1 _ =>
    have hpu := path_append hp1 (.cons hf1 ht1 (.nil _))
    obtain ⟨-, h1, h2⟩ := hconv (fsalBody_steps hT lib o (real_powLaw hl) (sane_of_shrinking ho) _ hex _ b _) η st u _ lim
      (hηδ.trans (min_le_right _ _)) ht hon hpu ((key _ _ _ _ ht hon hh0 hh hpu).2.2 hut).2 u (by simp) hut
    refine (h2 i).trans ?_
    rw [hηp, ← mul_assoc]
    have h3 := ho.atol_pos
    have h4 := ho.rtol_nonneg
    refine mul_le_mul_of_nonneg_right (mul_le_mul_of_nonneg_right (mul_le_mul_of_nonneg_left ?_ hC) hG) (by linarith)
    exact (sub_le_sub_right hut _).trans (le_abs_self _)

theorem run_follows_tolerance {lib : Lib ℝ} (hl : RealFunctions lib) {c : FsalCoef ℝ s (d + 1)} (hT : Explicit c.toTableau)
    (hRows : RowSums c.toTableau) (hRows' : RowSums (withLast c.toTableau)) (hends : EndConditions c.toTableau c.P) {q r : ℕ}
    (hB : OrderConditions c.A c.B (r + 1)) (hd : r ≤ d + 1) (hP : DenseConditions (withLast c.toTableau).A c.P r)
    (hq : c.errorExponent = 1 / ((q : ℝ) + 1)) (b : Bound ℝ) :
    RunFollowsTolerance (fun o (rhs : Rhs ℝ n) => ⟨fsal lib o c, rhs, b⟩) (fsalStarts c) (SharpEstimate c.toTableau c.E (r + 1)) (r + 1) := by
  intro f y a b' t₀ t₁ t₂ M hf ha ht12 hb hy hsh
  have hex : 0 ≤ c.errorExponent := by rw [hq]; positivity
  obtain ⟨G, δ₀, hG, hδ₀, hst⟩ := tolerance_steps hl hT hRows (Nat.le_add_left 1 r) hB hq b M hf ha hb hy hsh
  obtain ⟨C, δ₁, hC, hδ₁, hrun⟩ := run_error_uniform (ι := {o : VarOptions ℝ // ShrinkingOptions o})
    (cls := fun o (rhs : Rhs ℝ n) => ⟨fsal lib o.1 c, rhs, b⟩) (starts := fun o => fsalStarts c o.1)
    (fun o _ => Or.inr ⟨lib, o.1, _, .fsal _, real_powLaw hl, sane_of_shrinking o.2, hex⟩) (fun o => fsal_startsAt _ lib o.1 b)
    (fun o => fsalBody_steps hT lib o.1 (real_powLaw hl) (sane_of_shrinking o.2) _ hex _ b _)
    (fun o => fsal_dense _ hT hends lib o.1 (real_powLaw hl) (sane_of_shrinking o.2) hex b) hT hRows (withLast_explicit hT) hRows' hB hd hP
    hf ha (ht12.trans hb) hy
  set δ := min δ₀ (min δ₁ (t₂ - t₁)) with hδ
  have hδpos : 0 < δ := lt_min hδ₀ (lt_min hδ₁ (sub_pos.mpr ht12))
  obtain ⟨τ, hτ, hst⟩ := hst δ hδpos (min_le_left _ _)
  refine ⟨C * G, δ, τ, hδpos, hτ, fun o ho hoM hat hrt bo argsort hA s0 s' ts out hs0 hh0 hh hrun' rr hrr hrt' i => ?_⟩
  obtain ⟨η, hη0, hηδ, hηp, key⟩ := hst o ho hoM hat hrt
  have hS := fsal_startsAt (n := n) c lib o b
  have ht0 : s0.t = t₀ := hS.times _ _ _ _ hs0 _
  have hy0 : s0.y = y t₀ := hS.y _ _ _ _ hs0
  have hon : On f y s0 := ⟨by rw [ht0, hy0], by rw [ht0, hy0]; exact (Except.ok.inj (hS.f _ _ _ _ hs0)).symm⟩
  have := hrun ⟨o, ho⟩ bo argsort hA η s0 s' ts out hs0 hh0 hη0 (hηδ.trans ((min_le_right _ _).trans (min_le_left _ _))) ?_ hrun' rr hrr hrt' i
  · rwa [hηp, ← mul_assoc] at this
  · intro l u v hpu hut htk
    have hp1 := path_free hpu
    obtain ⟨hu0, huf, hu1⟩ := key s0 u l .inf ht0 hon hh0 hh hp1
    have hvt := (fsal_step_sizes hl hT ho hq huf hu0 htk).2.1
    have h1 : δ ≤ t₂ - t₁ := (min_le_right _ _).trans (min_le_right _ _)
    have h2 := (hu1 (by linarith)).1
    have hp2 := path_append hp1 (.cons trivial htk (.nil _))
    have h3 := ((key s0 v _ .inf ht0 hon hh0 hh hp2).2.2 (by linarith)).2
    exact (steps_last hp1 h3).2

end Nbkode
