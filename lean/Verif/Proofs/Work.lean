import Verif.Spec.Work
import Verif.Props.Controller
import Verif.Proofs.HaltingGrowth
import Mathlib.Topology.Compactness.Compact
import Mathlib.Analysis.SpecialFunctions.Log.Basic

/-! # Bounds for the number of steps and attempts -/

set_option autoImplicit false
set_option linter.unusedSectionVars false

namespace Nbkode
open Py Spec Solver Filter Asymptotics Topology

section
variable {E : Type} [NormedAddCommGroup E] [NormedSpace ℝ E] [CompleteSpace E] {s : ℕ} {F : E → E}

/-- `local_estimate` for steps from any point near `z₀`. -/
theorem local_estimate_near {p : ℕ} {z₀ : E} (hF : ContDiffAt ℝ p F z₀) {A : Fin s → Fin s → ℝ} (hA : ∀ i j, i ≤ j → A i j = 0)
    {B : Fin s → ℝ} (hB : ∀ τ : Tree, τ.order ≤ p → ∑ i, B i * τ.weight A i = 0) :
    ∃ C r, 0 < r ∧ ∀ (z : E) (x : ℝ) (K : Fin s → E), dist z z₀ < r → |x| < r → (∀ i, K i = F (z + x • ∑ j, A i j • K j)) →
      ‖x • ∑ j, B j • K j‖ ≤ C * |x| ^ (p + 1) := by
  set l : Filter ((E × ℝ) × (Fin s → E)) :=
    ((𝓝 z₀ ×ˢ 𝓝 0) ×ˢ ⊤) ⊓ 𝓟 {ω | ∀ i, ω.2 i = F (ω.1.1 + ω.1.2 • ∑ j, A i j • ω.2 j)} with hl
  have h1 : Tendsto (fun ω : (E × ℝ) × (Fin s → E) => ω.1) l (𝓝 z₀ ×ˢ 𝓝 0) := tendsto_fst.mono_left inf_le_left
  have hz : Tendsto (fun ω : (E × ℝ) × (Fin s → E) => ω.1.1) l (𝓝 z₀) := tendsto_fst.comp h1
  have hh : Tendsto (fun ω : (E × ℝ) × (Fin s → E) => ω.1.2) l (𝓝 0) := tendsto_snd.comp h1
  have key := Tree.update_expand (G := fun (ω : (E × ℝ) × (Fin s → E)) δ => F (ω.1.1 + δ)) (q := fun ω => Tree.coeffs F p ω.1.1) (M := p) hh
    (fun k => (Tree.coeffs_isBigO hF k).comp_tendsto (k := fun ω : (E × ℝ) × (Fin s → E) => ω.1.1) hz) (Tree.taylor_of_contDiffAt hF hz) hA (K := fun ω => ω.2)
    (fun i => by
      have : ∀ᶠ ω in l, ∀ i, ω.2 i = F (ω.1.1 + ω.1.2 • ∑ j, A i j • ω.2 j) :=
        eventually_inf_principal.mpr (Eventually.of_forall fun ω h => h)
      exact this.mono fun ω h => h i) B
  obtain ⟨C, hC⟩ := key.bound
  rw [hl, eventually_inf_principal] at hC
  obtain ⟨pa, ha, pb, hb, hab⟩ := eventually_prod_iff.mp hC
  obtain ⟨pc, hc, pd, hd, hcd⟩ := eventually_prod_iff.mp ha
  obtain ⟨r1, h1, hc'⟩ := Metric.eventually_nhds_iff.mp hc
  obtain ⟨r2, h2, hd'⟩ := Metric.eventually_nhds_iff.mp hd
  rw [eventually_top] at hb
  refine ⟨C, min r1 r2, lt_min h1 h2, fun z x K ht hx hK => ?_⟩
  have := hab (hcd (hc' (ht.trans_le (min_le_left _ _))) (hd' (by rw [Real.dist_eq, sub_zero]; exact hx.trans_le (min_le_right _ _))))
    (hb K) hK
  rw [Tree.series_congr _ _ (c' := fun _ => 0) hB] at this
  simpa [Tree.series] using this

end

variable {n s d : ℕ} {f : ℝ → Vec ℝ n → Vec ℝ n}

/-- The estimate is of order `q` uniformly on compact sets of points. -/
theorem compact_estimate {T : Tableau ℝ s} (hT : Explicit T) (hR : RowSums (withLast T)) {W : Fin (s + 2) → ℝ} {q : ℕ}
    (hW : ∀ τ : Tree, τ.order ≤ q → ∑ i, W i * τ.weight (withLast T).A i = 0) (hf : ContDiff ℝ q (joint f))
    {S : Set (ℝ × (Fin n → ℝ))} (hS : IsCompact S) :
    ∃ C δ, 0 < C ∧ 0 < δ ∧ ∀ (t : ℝ) (v : Vec ℝ n) (x : ℝ) (K : Fin (s + 2) → Vec ℝ n), (t, v) ∈ S → 0 < x → x ≤ δ →
      RKStages (withLast T) (pureRhs f) t x v K → ∀ i, |x * ∑ j, W j * K j i| ≤ C * x ^ (q + 1) := by
  have hloc : ∀ z ∈ S, ∃ C r, 0 < r ∧ ∀ (t : ℝ) (v : Vec ℝ n) (x : ℝ) (K : Fin (s + 2) → Vec ℝ n),
      dist ((t, v) : ℝ × (Fin n → ℝ)) z < r → |x| < r → RKStages (withLast T) (pureRhs f) t x v K →
      ∀ i, |x * ∑ j, W j * K j i| ≤ C * |x| ^ (q + 1) := by
    intro z _
    have hF : ContDiffAt ℝ q (withTime f) z := contDiffAt_const.prodMk hf.contDiffAt
    obtain ⟨C, r, hr, h⟩ := local_estimate_near hF (withLast_explicit hT).upper hW
    refine ⟨C, r, hr, fun t v x K ht hx hK i => ?_⟩
    have h1 := h (t, v) x (fun i => (1, K i)) ht hx (withTime_stages hR hK)
    have h2 := (norm_snd_le _).trans h1
    have h3 := (norm_le_pi_norm _ i).trans h2
    rw [Real.norm_eq_abs] at h3
    refine le_trans (le_of_eq ?_) h3
    congr 1
    simp only [Prod.smul_snd, Prod.snd_sum, Pi.smul_apply, Finset.sum_apply, smul_eq_mul]
  choose! C r hr h using hloc
  obtain ⟨I, hI1, hI2⟩ := hS.elim_nhds_subcover (U := fun z => Metric.ball z (r z)) (fun z hz => Metric.ball_mem_nhds z (hr z hz))
  rcases I.eq_empty_or_nonempty with rfl | hne
  · refine ⟨1, 1, one_pos, one_pos, fun t v x K hz => ?_⟩
    have := hI2 hz
    simp at this
  set δ := I.inf' hne r with hδ
  have hδ0 : 0 < δ := (Finset.lt_inf'_iff hne).mpr fun z hz => hr z (hI1 z hz)
  refine ⟨1 + ∑ z ∈ I, |C z|, δ / 2, by positivity, half_pos hδ0, fun t v x K hz hx hxδ hK i => ?_⟩
  obtain ⟨z, hz1, hz2⟩ := Set.mem_iUnion₂.mp (hI2 hz)
  have h1 := h z (hI1 z hz1) t v x K hz2 (by
    rw [abs_of_pos hx]
    exact (hxδ.trans_lt (half_lt_self hδ0)).trans_le (Finset.inf'_le r hz1)) hK i
  rw [abs_of_pos hx] at h1
  refine h1.trans (mul_le_mul_of_nonneg_right ?_ (by positivity))
  have h2 := Finset.single_le_sum (f := fun z => |C z|) (fun _ _ => abs_nonneg _) hz1
  have := le_abs_self (C z)
  linarith

/-! ### One step -/

theorem nextSize_minFactor {o : VarOptions ℝ} (ho : ShrinkingOptions o) {q : ℕ} {x en h' : ℝ} (hx : 0 ≤ x) (h : NextSize o q x en h') :
    o.minFactor * x ≤ h' := by
  have h1 : o.minFactor ≤ o.maxFactor := ho.minFactor_lt.le.trans ho.maxFactor_ge
  rcases h with ⟨-, rfl⟩ | ⟨-, rfl⟩
  · rw [mul_comm]; exact mul_le_mul_of_nonneg_left h1 hx
  · rw [mul_comm]; exact mul_le_mul_of_nonneg_left (le_min h1 (le_max_left _ _)) hx

/-- The sizes tried in a step. -/
theorem trail_work {lib : Lib ℝ} (hl : RealFunctions lib) {o : VarOptions ℝ} (ho : ShrinkingOptions o) {T : Tableau ℝ s} {W : Fin (s + 2) → ℝ}
    {q : ℕ} {ex : ℝ} (hq : ex = 1 / ((q : ℝ) + 1)) {C δ t : ℝ} {y : Vec ℝ n} (hC : 0 < C) (hδ : 0 < δ)
    (hest : ∀ (x : ℝ) (K : Fin (s + 2) → Vec ℝ n), 0 < x → x ≤ δ →
      RKStages (withLast T) (pureRhs f) t x y K → ∀ i, |x * ∑ j, W j * K j i| ≤ C * x ^ (q + 1))
    {h h' : ℝ} {l : List (Tried ℝ)} {K : Fin (s + 2) → Vec ℝ n}
    (hTr : Trail lib o ex T (fun h K yN y => .ok (rmsError lib o y yN fun i => h * ∑ j, W j * K j i)) (pureRhs f) t y h l h' K)
    (h0 : 0 < h) :
    (∀ last, l.getLast? = some last → smallest o q C δ h ≤ last.size) ∧ smallest o q C δ h ≤ h' ∧ 0 < h' ∧
      1 ≤ l.length ∧ ((l.length : ℝ) - 1) * Real.log (1 / max o.minFactor o.safetyFactor) + Real.log h' ≤ Real.log h + Real.log o.maxFactor := by
  have hρ0 : 0 < max o.minFactor o.safetyFactor := lt_max_of_lt_left ho.minFactor_pos
  have hρ1 : max o.minFactor o.safetyFactor < 1 := max_lt ho.minFactor_lt ho.safety_lt
  have hM0 : 0 < o.maxFactor := zero_lt_one.trans_le ho.maxFactor_ge
  have low : ∀ {h en r : ℝ} {K : Fin (s + 2) → Vec ℝ n}, 0 < h → RKStages (withLast T) (pureRhs f) t h y K →
      rmsError lib o y (proposal T h y K) (fun i => h * ∑ j, W j * K j i) = en → StepFactor lib o ex en r →
      smallest o q C δ h ≤ h * r := by
    intro h en r K h0 hK hn hr
    rw [hq] at hr
    by_cases hx : h ≤ δ
    · refine le_trans ?_ (nextSize_lower ho hC h0 (by rw [← hn]; exact rms_nonneg hl _ _ _ _) ?_ (nextSize_of_factor hl hr))
      · exact min_le_min le_rfl (min_le_right _ _)
      · rw [← hn]
        exact rms_le hl ho.atol_pos ho.rtol_nonneg (by positivity) fun i => hest h K h0 hx hK i
    · refine le_trans ((min_le_right _ _).trans (min_le_left _ _)) (le_trans ?_ (nextSize_minFactor ho h0.le (nextSize_of_factor (x := h) hl hr)))
      exact mul_le_mul_of_nonneg_left (not_le.mp hx).le ho.minFactor_pos.le
  have fac : ∀ {en r : ℝ}, StepFactor lib o ex en r → 0 < r ∧ r ≤ o.maxFactor := by
    rintro en r (⟨-, rfl⟩ | ⟨-, -, rfl⟩)
    · exact ⟨hM0, le_rfl⟩
    · exact ⟨lt_min hM0 (lt_max_of_lt_left ho.minFactor_pos), min_le_left _ _⟩
  induction hTr with
  | @accept h en r K hK hn ha hr =>
    have hr' := fac hr
    refine ⟨fun last hlast => ?_, low h0 hK (Except.ok.inj hn) hr, mul_pos h0 hr'.1, le_rfl, ?_⟩
    · cases hlast
      exact min_le_left _ _
    · rw [Real.log_mul h0.ne' hr'.1.ne']
      have := Real.log_le_log hr'.1 hr'.2
      simp only [List.length_cons, List.length_nil]
      push_cast
      linarith
  | @reject h en r h' K K' l hK hn ha hr hT' ih =>
    have hr' := fac hr
    have hlow := low h0 hK (Except.ok.inj hn) hr
    obtain ⟨g1, g2, g3, g4, g5⟩ := ih (mul_pos h0 hr'.1)
    have hmono : smallest o q C δ h ≤ smallest o q C δ (h * r) := le_min hlow (min_le_right _ _)
    have hrρ : r ≤ max o.minFactor o.safetyFactor := by
      rcases hr with ⟨h1, -⟩ | ⟨-, -, rfl⟩
      · exact absurd h1 ha.1
      · refine (min_le_right _ _).trans (max_le_max le_rfl ?_)
        rw [hl.pow]
        have := Real.one_le_rpow ha.2 (show 0 ≤ ex by rw [hq]; positivity)
        exact div_le_self ho.safety_pos.le this
    refine ⟨fun last hlast => hmono.trans (g1 last ?_), hmono.trans g2, g3, by simp, ?_⟩
    · cases l with
      | nil => simp at g4
      | cons a l => simpa using hlast
    · rw [Real.log_mul h0.ne' hr'.1.ne'] at g5
      have h1 := Real.log_le_log hr'.1 hrρ
      have h2 : Real.log (1 / max o.minFactor o.safetyFactor) = -Real.log (max o.minFactor o.safetyFactor) := by
        rw [one_div, Real.log_inv]
      simp only [List.length_cons]
      push_cast
      rw [h2] at g5 ⊢
      linarith

/-- One step. -/
theorem attempt_step {lib : Lib ℝ} (hl : RealFunctions lib) {o : VarOptions ℝ} (ho : ShrinkingOptions o) {c : FsalCoef ℝ s d}
    (hT : Explicit c.toTableau) {q : ℕ} (hq : c.errorExponent = 1 / ((q : ℝ) + 1)) {C δ : ℝ} (hC : 0 < C) (hδ : 0 < δ) {b : Bound ℝ}
    {u v : St ℝ n 0 (FsalAux ℝ n s (RkItp ℝ n d))} {l : List (Tried ℝ)}
    (hest : ∀ (x : ℝ) (K : Fin (s + 2) → Vec ℝ n), 0 < x → x ≤ δ →
      RKStages (withLast c.toTableau) (pureRhs f) u.t x u.y K → ∀ i, |x * ∑ j, c.E j * K j i| ≤ C * x ^ (q + 1))
    (huf : u.f = f u.t u.y) (h0 : 0 < u.h) (hatt : Attempts lib c b o f u l v) :
    v.f = f v.t v.y ∧ smallest o q C δ u.h ≤ v.t - u.t ∧ smallest o q C δ u.h ≤ v.h ∧ 0 < v.h ∧
      (∃ K, RKStages (withLast c.toTableau) (pureRhs f) u.t (v.t - u.t) u.y K ∧ v.y = proposal c.toTableau (v.t - u.t) u.y K) ∧
      ((l.length : ℝ) - 1) * Real.log (1 / max o.minFactor o.safetyFactor) + Real.log v.h ≤ Real.log u.h + Real.log o.maxFactor := by
  obtain ⟨htk, hTr⟩ := hatt
  have h1 := trail_work hl ho hq hC hδ hest hTr h0
  obtain ⟨l', last', h', K', hTr', hl', rfl⟩ := (fsal_takes_iff lib o c hT (pureRhs f) b u v (congrArg Except.ok huf.symm)).mp htk
  obtain ⟨last, hlast, hK, -⟩ := trail_last hTr'
  rw [hl'] at hlast
  cases hlast
  have h2 := trail_work hl ho hq hC hδ hest hTr' h0
  have et : (⟨u.cache.push (u.t + last'.size) (proposal c.toTableau last'.size u.y K') (K' (Fin.last _)), h',
      { u.aux with K := K' }⟩ : St ℝ n 0 (FsalAux ℝ n s (RkItp ℝ n d))).t = u.t + last'.size := by
    simp only [St.t, push_t]
  have ey : (⟨u.cache.push (u.t + last'.size) (proposal c.toTableau last'.size u.y K') (K' (Fin.last _)), h',
      { u.aux with K := K' }⟩ : St ℝ n 0 (FsalAux ℝ n s (RkItp ℝ n d))).y = proposal c.toTableau last'.size u.y K' := by
    simp only [St.y, push_y]
  have ef : (⟨u.cache.push (u.t + last'.size) (proposal c.toTableau last'.size u.y K') (K' (Fin.last _)), h',
      { u.aux with K := K' }⟩ : St ℝ n 0 (FsalAux ℝ n s (RkItp ℝ n d))).f = K' (Fin.last _) := by
    simp only [St.f, push_f]
  rw [et, ey, ef, add_sub_cancel_left]
  refine ⟨?_, h2.1 _ hl', h2.2.1, h2.2.2.1, ⟨K', hK, rfl⟩, h1.2.2.2.2⟩
  have := ((withLast_stages _ _ _ _ _ _).mp hK).2
  exact (Except.ok.inj this).symm

/-! ### All steps -/

/-- What holds of a state reached from `s` by `N` steps and `a` attempts. -/
structure Tally (o : VarOptions ℝ) (f : ℝ → Vec ℝ n → Vec ℝ n) (m T : ℝ) {k : ℕ} {X : Type} (s u : St ℝ n k X) (N a : ℕ) : Prop where
  deriv : u.f = f u.t u.y
  pos : 0 < u.h
  least : m ≤ u.h
  time : s.t + N * m ≤ u.t
  count : (N : ℝ) * m ≤ max 0 (T - s.t) + m
  tries : ((a : ℝ) - N) * Real.log (1 / max o.minFactor o.safetyFactor) + Real.log u.h ≤ Real.log s.h + N * Real.log o.maxFactor

theorem Tally.affordable {o : VarOptions ℝ} {q : ℕ} {C δ T : ℝ} {k : ℕ} {X : Type} {s u : St ℝ n k X} {N a : ℕ}
    (h : Tally o f (smallest o q C δ s.h) T s u N a) (hm : 0 < smallest o q C δ s.h) (h0 : 0 < s.h) : Affordable o q C δ s.h s.t T N a := by
  refine ⟨?_, ?_⟩
  · have h1 : (N : ℝ) * smallest o q C δ s.h ≤ (1 + max 0 (T - s.t) / smallest o q C δ s.h) * smallest o q C δ s.h := by
      rw [add_mul, div_mul_cancel₀ _ hm.ne', one_mul, add_comm]
      exact h.count
    exact le_of_mul_le_mul_right h1 hm
  · have h1 := h.tries
    have h2 := Real.log_le_log hm h.least
    rw [Real.log_div h0.ne' hm.ne']
    linarith

theorem smallest_pos {o : VarOptions ℝ} (ho : ShrinkingOptions o) {q : ℕ} {C δ h : ℝ} (hC : 0 < C) (hδ : 0 < δ) (h0 : 0 < h) :
    0 < smallest o q C δ h :=
  lt_min h0 (lt_min (mul_pos ho.minFactor_pos hδ) (mul_pos ho.safety_pos (Real.rpow_pos_of_pos (div_pos ho.atol_pos hC) _)))

theorem tally_step {lib : Lib ℝ} (hl : RealFunctions lib) {o : VarOptions ℝ} (ho : ShrinkingOptions o) {c : FsalCoef ℝ s d}
    (hT : Explicit c.toTableau) {q : ℕ} (hq : c.errorExponent = 1 / ((q : ℝ) + 1)) {C δ : ℝ} (hC : 0 < C) (hδ : 0 < δ) {b : Bound ℝ}
    {st u v : St ℝ n 0 (FsalAux ℝ n s (RkItp ℝ n d))} {l : List (Tried ℝ)} {N a : ℕ} {T : ℝ}
    (hest : ∀ (x : ℝ) (K : Fin (s + 2) → Vec ℝ n), 0 < x → x ≤ δ →
      RKStages (withLast c.toTableau) (pureRhs f) u.t x u.y K → ∀ i, |x * ∑ j, c.E j * K j i| ≤ C * x ^ (q + 1)) (h0 : 0 < st.h)
    (h : Tally o f (smallest o q C δ st.h) T st u N a) (hlt : u.t < T) (hatt : Attempts lib c b o f u l v) :
    Tally o f (smallest o q C δ st.h) T st v (N + 1) (a + l.length) := by
  have hm := smallest_pos ho (q := q) hC hδ h0
  obtain ⟨g1, g2, g3, g4, -, g6⟩ := attempt_step hl ho hT hq hC hδ hest h.deriv h.pos hatt
  have hle : smallest o q C δ st.h ≤ smallest o q C δ u.h := le_min h.least (min_le_right _ _)
  have ht := h.time
  refine ⟨g1, g4, hle.trans g3, ?_, ?_, ?_⟩
  · push_cast; linarith
  · push_cast
    have := le_max_right 0 (T - st.t)
    linarith
  · have := h.tries
    push_cast
    linarith

theorem work_while_bounded {lib : Lib ℝ} (hl : RealFunctions lib) {c : FsalCoef ℝ s d} (hT : Explicit c.toTableau)
    (hR : RowSums (withLast c.toTableau)) {q : ℕ} (hq : c.errorExponent = 1 / ((q : ℝ) + 1))
    (hW : ∀ τ : Tree, τ.order ≤ q → ∑ i, c.E i * τ.weight (withLast c.toTableau).A i = 0) (b : Bound ℝ) :
    WorkWhileBounded (n := n) (Attempts lib c b) q := by
  intro f hf t₀ T R
  have hS : IsCompact (Set.Icc t₀ T ×ˢ Metric.closedBall (0 : Fin n → ℝ) |R|) := isCompact_Icc.prod (isCompact_closedBall _ _)
  obtain ⟨C, δ, hC, hδ, hest⟩ := compact_estimate hT hR hW hf hS
  refine ⟨C, δ, hC, hδ, fun o ho st ht hsf h0 N a u hu => ?_⟩
  subst ht
  have hm := smallest_pos ho (q := q) hC hδ h0
  refine Tally.affordable (f := f) (u := u) ?_ hm h0
  induction hu with
  | nil => exact ⟨hsf, h0, min_le_left _ _, by simp, by simp; positivity, by simp⟩
  | @step u v N a l _ hlt hatt ih =>
    have h := ih
    refine tally_step hl ho hT hq hC hδ (fun x K hx hxδ hK => hest u.t u.y x K ⟨⟨?_, hlt.le⟩, ?_⟩ hx hxδ hK) h0 h hlt hatt.2
    · have := h.time
      have : 0 ≤ (N : ℝ) * smallest o q C δ st.h := by positivity
      linarith
    · rw [mem_closedBall_zero_iff]
      exact (pi_norm_le_iff_of_nonneg (abs_nonneg R)).mpr fun i => (hatt.1 i).trans (le_abs_self R)

theorem work_follows_tolerance {lib : Lib ℝ} (hl : RealFunctions lib) {c : FsalCoef ℝ s d} (hT : Explicit c.toTableau)
    (hR : RowSums (withLast c.toTableau)) {q : ℕ} (hq : c.errorExponent = 1 / ((q : ℝ) + 1))
    (hW : ∀ τ : Tree, τ.order ≤ q → ∑ i, c.E i * τ.weight (withLast c.toTableau).A i = 0) (b : Bound ℝ) :
    WorkFollowsTolerance (n := n) (Attempts lib c b) q := by
  intro f hf hgr t₀ T R
  obtain ⟨κ, hκ, hgrow⟩ := step_growth (n := n) hT hgr t₀ T
  set w := 1 + |R| with hw
  have hw1 : 1 ≤ w := by rw [hw]; linarith [abs_nonneg R]
  set M := w * Real.exp (κ * (T - t₀)) with hM
  have hM0 : 0 ≤ M := by positivity
  have hS : IsCompact (Set.Icc t₀ T ×ˢ Metric.closedBall (0 : Fin n → ℝ) M) := isCompact_Icc.prod (isCompact_closedBall _ _)
  obtain ⟨C, δ, hC, hδ, hest⟩ := compact_estimate hT hR hW hf hS
  refine ⟨C, δ, hC, hδ, fun o ho st ht hsf hsR h0 N a u hu => ?_⟩
  subst ht
  have hm := smallest_pos ho (q := q) hC hδ h0
  suffices h : Tally o f (smallest o q C δ st.h) T st u N a ∧ (u.t ≤ T → ∀ i, 1 + |u.y i| ≤ w * Real.exp (κ * (u.t - st.t))) from
    h.1.affordable hm h0
  induction hu with
  | nil =>
    refine ⟨⟨hsf, h0, min_le_left _ _, by simp, by simp; positivity, by simp⟩, fun _ i => ?_⟩
    rw [sub_self, mul_zero, Real.exp_zero, mul_one, hw]
    linarith [hsR i, le_abs_self R]
  | @step u v N a l _ hlt hatt ih =>
    obtain ⟨h, hb⟩ := ih
    have hb := hb hlt.le
    have htu : st.t ≤ u.t := by
      have := h.time
      have : 0 ≤ (N : ℝ) * smallest o q C δ st.h := by positivity
      linarith
    have hest' : ∀ (x : ℝ) (K : Fin (s + 2) → Vec ℝ n), 0 < x → x ≤ δ →
        RKStages (withLast c.toTableau) (pureRhs f) u.t x u.y K → ∀ i, |x * ∑ j, c.E j * K j i| ≤ C * x ^ (q + 1) := by
      intro x K hx hxδ hK
      refine hest u.t u.y x K ⟨⟨htu, hlt.le⟩, ?_⟩ hx hxδ hK
      rw [mem_closedBall_zero_iff]
      refine (pi_norm_le_iff_of_nonneg hM0).mpr fun i => ?_
      have h1 := hb i
      have h2 : Real.exp (κ * (u.t - st.t)) ≤ Real.exp (κ * (T - st.t)) :=
        Real.exp_le_exp.mpr (mul_le_mul_of_nonneg_left (by linarith) hκ)
      have h3 := mul_le_mul_of_nonneg_left h2 (zero_le_one.trans hw1)
      rw [Real.norm_eq_abs, hM]
      linarith
    refine ⟨tally_step hl ho hT hq hC hδ hest' h0 h hlt hatt, fun hvT i => ?_⟩
    obtain ⟨-, g2, -, -, ⟨K, hK, hy⟩, -⟩ := attempt_step hl ho hT hq hC hδ hest' h.deriv h.pos hatt
    have hx : 0 ≤ v.t - u.t := le_trans (smallest_pos ho (q := q) hC hδ h.pos).le g2
    have h1 : 0 ≤ w * Real.exp (κ * (u.t - st.t)) - 1 := by
      have := Real.one_le_exp (x := κ * (u.t - st.t)) (by have := sub_nonneg.mpr htu; positivity)
      nlinarith
    have h2 := hgrow u.t (v.t - u.t) (w * Real.exp (κ * (u.t - st.t)) - 1) u.y K htu hx (by linarith) h1
      (fun i => by linarith [hb i]) hK i
    rw [hy]
    refine h2.trans (le_of_eq ?_)
    rw [add_sub_cancel, mul_assoc, ← Real.exp_add]
    congr 2
    ring

end Nbkode
