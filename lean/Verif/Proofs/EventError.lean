import Verif.Spec.EventError
import Verif.Proofs.RunConverges
import Verif.Props.Events

/-! # Event times and the true solution -/

set_option autoImplicit false
set_option linter.unusedSectionVars false

namespace Nbkode
open Py Spec Solver Topology

variable {n k : ℕ} {X : Type}

/-! ### The event function near the solution -/

theorem event_lipschitz {g : ℝ → Vec ℝ n → ℝ} (hg : ContDiff ℝ 1 (jointEvent g)) {y : ℝ → (Fin n → ℝ)}
    {t₀ t₁ : ℝ} (hy : ContinuousOn y (Set.Icc t₀ t₁)) :
    ∃ L, 0 ≤ L ∧ ∀ t ∈ Set.Icc t₀ t₁, ∀ v : Fin n → ℝ, ‖v - y t‖ ≤ 1 → |g t v - g t (y t)| ≤ L * ‖v - y t‖ := by
  have hK : IsCompact (Set.Icc t₀ t₁ ×ˢ Metric.closedBall (0 : Fin n → ℝ) 1) := isCompact_Icc.prod (isCompact_closedBall _ _)
  have hcont : ContinuousOn (fun ω : ℝ × (Fin n → ℝ) => fderiv ℝ (jointEvent g) (ω.1, y ω.1 + ω.2))
      (Set.Icc t₀ t₁ ×ˢ Metric.closedBall (0 : Fin n → ℝ) 1) := by
    refine (hg.continuous_fderiv one_ne_zero).comp_continuousOn ?_
    have h1 : ContinuousOn (fun ω : ℝ × (Fin n → ℝ) => y ω.1) (Set.Icc t₀ t₁ ×ˢ Metric.closedBall (0 : Fin n → ℝ) 1) :=
      hy.comp continuousOn_fst fun ω hω => hω.1
    exact continuousOn_fst.prodMk (h1.add continuousOn_snd)
  obtain ⟨L, hL⟩ := hK.exists_bound_of_continuousOn hcont
  refine ⟨max L 0, le_max_right _ _, fun t ht v hv => ?_⟩
  have hconv : Convex ℝ (Metric.closedBall (y t) 1) := convex_closedBall _ _
  have hd : ∀ w ∈ Metric.closedBall (y t) 1, HasFDerivWithinAt (fun w => jointEvent g (t, w))
      ((fderiv ℝ (jointEvent g) (t, w)).comp (ContinuousLinearMap.inr ℝ ℝ (Fin n → ℝ))) (Metric.closedBall (y t) 1) w := by
    intro w _
    have h1 : HasFDerivAt (jointEvent g) (fderiv ℝ (jointEvent g) (t, w)) (t, w) := (hg.differentiable one_ne_zero _).hasFDerivAt
    have h2 : HasFDerivAt (fun w : Fin n → ℝ => ((t, w) : ℝ × (Fin n → ℝ))) (ContinuousLinearMap.inr ℝ ℝ (Fin n → ℝ)) w :=
      hasFDerivAt_prodMk_right t w
    exact (h1.comp w h2).hasFDerivWithinAt
  have hbound : ∀ w ∈ Metric.closedBall (y t) 1,
      ‖(fderiv ℝ (jointEvent g) (t, w)).comp (ContinuousLinearMap.inr ℝ ℝ (Fin n → ℝ))‖ ≤ max L 0 := by
    intro w hw
    have h1 := hL (t, w - y t) ⟨ht, by simpa [dist_eq_norm] using hw⟩
    simp only [add_sub_cancel] at h1
    refine (ContinuousLinearMap.opNorm_comp_le _ _).trans ?_
    refine (mul_le_of_le_one_right (norm_nonneg _) (ContinuousLinearMap.norm_inr_le_one ..)).trans (h1.trans (le_max_left _ _))
  have := hconv.norm_image_sub_le_of_norm_hasFDerivWithin_le hd hbound (Metric.mem_closedBall_self zero_le_one)
    (by simpa [dist_eq_norm] using hv : v ∈ Metric.closedBall (y t) 1)
  exact this

/-- The derivative of the event along a solution. -/
noncomputable def eventSlope (f : ℝ → Vec ℝ n → Vec ℝ n) (g : ℝ → Vec ℝ n → ℝ) (y : ℝ → Vec ℝ n) (t : ℝ) : ℝ :=
  fderiv ℝ (jointEvent g) (t, y t) (1, f t (y t))

theorem event_hasDeriv {f : ℝ → Vec ℝ n → Vec ℝ n} {g : ℝ → Vec ℝ n → ℝ} (hg : ContDiff ℝ 1 (jointEvent g)) {y : ℝ → Vec ℝ n} {t : ℝ}
    (hy : SolvesAt f y t) : HasDerivAt (fun t => g t (y t)) (eventSlope f g y t) t := by
  have h1 : HasFDerivAt (jointEvent g) (fderiv ℝ (jointEvent g) (t, y t)) (t, y t) := (hg.differentiable one_ne_zero _).hasFDerivAt
  have h2 : HasDerivAt (fun t => ((t, y t) : ℝ × (Fin n → ℝ))) ((1 : ℝ), f t (y t)) t := (hasDerivAt_id t).prodMk hy
  exact h1.comp_hasDerivAt t h2

theorem eventSlope_continuous {f : ℝ → Vec ℝ n → Vec ℝ n} {g : ℝ → Vec ℝ n → ℝ} (hg : ContDiff ℝ 1 (jointEvent g))
    (hf : Continuous (joint f)) {y : ℝ → Vec ℝ n} {D : Set ℝ} (hy : ContinuousOn (Y := Fin n → ℝ) y D) :
    ContinuousOn (eventSlope f g y) D := by
  have h1 : ContinuousOn (fun t => ((t, y t) : ℝ × (Fin n → ℝ))) D := continuousOn_id.prodMk hy
  have h2 : ContinuousOn (fun t => fderiv ℝ (jointEvent g) (t, y t)) D := (hg.continuous_fderiv one_ne_zero).comp_continuousOn h1
  have h3 : ContinuousOn (fun t => ((1, f t (y t)) : ℝ × (Fin n → ℝ))) D := continuousOn_const.prodMk (hf.comp_continuousOn h1)
  exact h2.clm_apply h3

/-! ### Solvers that track a solution -/

/-- On the steps made before `T` the states and the dense output are within `E` of `y`. -/
structure Tracks (S : Solver ℝ n k X) (y : ℝ → Vec ℝ n) (s0 : St ℝ n k X) (T E : ℝ) : Prop where
  dense : ∀ l u v, Path S S.tBound s0 l u → u.t < T → Fits S.tBound u → Takes S u v → ∀ x w, u.t ≤ x → x ≤ v.t → DenseAt S v x w →
    ∀ i, |w i - y x i| ≤ E
  visited : ∀ l u, Path S S.tBound s0 l u → u.t ≤ T → ∀ i, |u.y i - y u.t i| ≤ E

theorem path_last_step {S : Solver ℝ n k X} {b : Bound ℝ} {s u : St ℝ n k X} {l : List (St ℝ n k X)} (h : Path S b s l u) :
    u = s ∨ ∃ l' w, Path S b s l' w ∧ Fits b w ∧ Takes S w u := by
  induction h with
  | nil s => exact Or.inl rfl
  | @cons s s1 s2 l hf ht hp ih =>
    right
    rcases ih with rfl | ⟨l', w, h1, h2, h3⟩
    · exact ⟨[], s, .nil s, hf, ht⟩
    · exact ⟨s1 :: l', w, .cons hf ht h1, h2, h3⟩

theorem path_consecutive {S : Solver ℝ n k X} {b : Bound ℝ} {s u v w : St ℝ n k X} {l : List (St ℝ n k X)} (h : Path S b s l w)
    (hc : Consecutive (s :: l) u v) : ∃ l', Path S b s l' u ∧ Fits b u ∧ Takes S u v := by
  induction h with
  | nil s => exact absurd hc consecutive_single
  | @cons s s1 s2 l hf ht hp ih =>
    obtain ⟨l1, l2, e⟩ := hc
    cases l1 with
    | nil =>
      simp only [List.nil_append, List.cons.injEq] at e
      obtain ⟨rfl, rfl, rfl⟩ := e
      exact ⟨[], .nil _, hf, ht⟩
    | cons x l1 =>
      simp only [List.cons_append, List.cons.injEq] at e
      obtain ⟨l', h1, h2, h3⟩ := ih ⟨l1, l2, e.2⟩
      exact ⟨s1 :: l', .cons hf ht h1, h2, h3⟩

theorem tracks_of_error {S : Solver ℝ n 0 X} (hM : WellConfigured S.method) {y : ℝ → Vec ℝ n} {s0 : St ℝ n 0 X} {T E : ℝ}
    (hh : 0 < s0.h) (hE : 0 ≤ E) (hy : s0.y = y s0.t)
    (h : ∀ l u v, Path S S.tBound s0 l u → u.t < T → Fits S.tBound u → Takes S u v →
      (∀ i, |u.y i - y u.t i| ≤ E) ∧ ∀ t r v', u.t < t → t ≤ v.t → (S.interpolate t).run v = some (.ok r, v') →
        ∀ i, |r.deref v.cache i - y t i| ≤ E) : Tracks S y s0 T E := by
  have ends : ∀ l u v, Path S S.tBound s0 l u → Takes S u v → u.t < v.t ∧
      (∀ w, DenseAt S v u.t w → w = u.y) ∧ DenseAt S v v.t v.y := by
    intro l u v hp ht
    have hlt := (C11_step_increases _ hM _ _ (path_pos hM hp hh).1 ht).1
    obtain ⟨t', y', f', e, -⟩ := hM.library.shaped.body_ok _ _ _ ht
    have o1 : v.cache.ts (Buffer.iOld 0) = u.t := by rw [e]; rfl
    have o2 : v.cache.ys (Buffer.iOld 0) = u.y := by rw [e]; rfl
    obtain ⟨⟨r, v1, h1, h2⟩, ⟨r2, v2, h3, h4⟩⟩ := C22_ends S hM.library v (by rw [o1]; exact hlt)
    refine ⟨hlt, fun w hw => ?_, r2, v2, h3, h4⟩
    obtain ⟨r', v', h5, h6⟩ := hw
    rw [o1, h5] at h1
    simp only [Option.some.injEq, Prod.mk.injEq, Except.ok.injEq] at h1
    rw [← h6, h1.1, h2, o2]
  refine ⟨fun l u v hp hu hfit ht x w h1 h2 hw => ?_, fun l u hp hu => ?_⟩
  · obtain ⟨g1, g2⟩ := h l u v hp hu hfit ht
    rcases h1.eq_or_lt with rfl | h1
    · rw [(ends l u v hp ht).2.1 w hw]; exact g1
    · obtain ⟨r, v', h5, rfl⟩ := hw
      exact g2 x r v' h1 h2 h5
  · rcases path_last_step hp with rfl | ⟨l', w, h1, h2, h3⟩
    · intro i; rw [hy]; simpa using hE
    · obtain ⟨hlt, -, r, v', h4, h5⟩ := ends l' w u h1 h3
      obtain ⟨-, g2⟩ := h l' w u h1 (hlt.trans_le hu) h2 h3
      intro i
      rw [← h5]
      exact g2 u.t r v' hlt le_rfl h4 i

/-! ### Recorded times -/

section times
variable {S : Solver ℝ n k X} {y : ℝ → Vec ℝ n} {s0 : St ℝ n k X} {T T₁ E L M t₀ H : ℝ} {g : ℝ → Vec ℝ n → ℝ}

/-- The values of the event along the dense output are close to those along the solution. -/
theorem value_close (hE0 : 0 ≤ E) (hE : E ≤ 1) (hL : 0 ≤ L)
    (hlip : ∀ t ∈ Set.Icc t₀ T₁, ∀ v : Fin n → ℝ, ‖(v - y t : Fin n → ℝ)‖ ≤ 1 → |g t v - g t (y t)| ≤ L * ‖(v - y t : Fin n → ℝ)‖)
    {x : ℝ} {w : Vec ℝ n} (hx : x ∈ Set.Icc t₀ T₁) (hw : ∀ i, |w i - y x i| ≤ E) : |g x w - g x (y x)| ≤ L * E := by
  have h1 : ‖(w - y x : Fin n → ℝ)‖ ≤ E := (pi_norm_le_iff_of_nonneg hE0).mpr hw
  exact (hlip x hx w (h1.trans hE)).trans (mul_le_mul_of_nonneg_left h1 hL)

theorem record_small (hT : Tracks S y s0 T E) (hE0 : 0 ≤ E) (hE : E ≤ 1) (hL : 0 ≤ L) (hM : 0 ≤ M)
    (hlip : ∀ t ∈ Set.Icc t₀ T₁, ∀ v : Fin n → ℝ, ‖(v - y t : Fin n → ℝ)‖ ≤ 1 → |g t v - g t (y t)| ≤ L * ‖(v - y t : Fin n → ℝ)‖)
    (hG : ∀ t ∈ Set.Icc t₀ T₁, ∀ t' ∈ Set.Icc t₀ T₁, |g t (y t) - g t' (y t')| ≤ M * |t - t'|)
    (hlarge : LargestStep S s0 T H) (hHT : T + H ≤ T₁) {l : List (St ℝ n k X)} {c a b : St ℝ n k X} (hp : Path S S.tBound s0 l c)
    (hab : Consecutive (s0 :: l) a b) (ha0 : t₀ ≤ a.t) {bo : BisectOpts ℝ} (htol : 0 ≤ bo.tol) {e : EventSpec ℝ n} (he : e.func = g) {τ : ℝ}
    (h1 : a.t ≤ τ) (h2 : τ ≤ b.t) (hτ : τ < T) (hloc : (τ = b.t ∧ value e b = 0) ∨ Located bo (ValueAt S e b) a.t b.t τ) :
    |g τ (y τ)| ≤ bo.tol + (L * E + M * (H / 2 ^ bo.maxiter)) := by
  obtain ⟨l', hpa, hfit, htk⟩ := path_consecutive hp hab
  have haT : a.t < T := h1.trans_lt hτ
  have hlen := hlarge l' a b hpa haT htk
  have hmem : ∀ x, a.t ≤ x → x ≤ b.t → x ∈ Set.Icc t₀ T₁ := fun x h3 h4 => ⟨ha0.trans h3, by linarith⟩
  have close : ∀ x v, a.t ≤ x → x ≤ b.t → ValueAt S e b x v → |v - g x (y x)| ≤ L * E := by
    rintro x v h3 h4 ⟨w, hw, rfl⟩
    rw [he]
    exact value_close hE0 hE hL hlip (hmem x h3 h4) (hT.dense l' a b hpa haT hfit htk x w h3 h4 hw)
  have hH0 : 0 ≤ H := by linarith
  have hLE : 0 ≤ L * E := mul_nonneg hL hE0
  have hMH : 0 ≤ M * (H / 2 ^ bo.maxiter) := by positivity
  rcases hloc with ⟨rfl, hv⟩ | hloc
  · have := value_close hE0 hE hL hlip (hmem b.t h1 le_rfl) (hT.visited _ b (path_append hpa (.cons hfit htk (.nil _))) hτ.le)
    unfold value at hv
    rw [he] at hv
    rw [hv, zero_sub, abs_neg] at this
    linarith
  · rcases hloc with ⟨v, h3, h4⟩ | ⟨lo, hi, vlo, vhi, h3, h4, h5, h6, h7, h8, h9, h10⟩
    · have := close τ v h1 h2 h3
      have h5 := abs_sub_abs_le_abs_sub (g τ (y τ)) v
      rw [abs_sub_comm] at h5
      linarith
    · have c1 := abs_le.mp (close lo vlo h3 (h4.le.trans h5) h7)
      have c2 := abs_le.mp (close hi vhi (h3.trans h4.le) h5 h8)
      have c3 := abs_le.mp (hG hi (hmem hi (h3.trans h4.le) h5) lo (hmem lo h3 (h4.le.trans h5)))
      have hw : |hi - lo| ≤ H / 2 ^ bo.maxiter := by
        rw [abs_of_pos (by linarith), le_div_iff₀ (by positivity), h6]; exact hlen
      have c4 : M * |hi - lo| ≤ M * (H / 2 ^ bo.maxiter) := mul_le_mul_of_nonneg_left hw hM
      rw [abs_le]
      rcases h9 with ⟨h9, h11⟩ | ⟨h9, h11⟩ <;> rcases h10 with rfl | rfl <;> constructor <;> linarith [c1.1, c1.2, c2.1, c2.2, c3.1, c3.2]

/-- Somewhere on the way to `d` the value of the event changes its sign from that of `-σ` to that of `σ`. -/
theorem finds_step {σ c z d η : ℝ} {ev : St ℝ n k X → ℝ} (hη : 0 < η) (hH : 0 ≤ H) (hsteps : ∀ l u v, Path S S.tBound s0 l u → u.t ≤ d → Takes S u v → u.t < v.t ∧ v.t - u.t ≤ H)
    (hneg : ∀ l u, Path S S.tBound s0 l u → c < u.t → u.t ≤ c + H → σ * ev u < 0)
    (hpos : ∀ l u, Path S S.tBound s0 l u → z + η ≤ u.t → u.t ≤ d → 0 < σ * ev u)
    (hc : c + H ≤ z) (hd : z + η + H ≤ d) {l : List (St ℝ n k X)} {q : St ℝ n k X} (h0 : s0.t ≤ c)
    (hp : Path S S.tBound s0 l q) (hq : d ≤ q.t) :
    ∃ a b, Consecutive (s0 :: l) a b ∧ σ * ev a < 0 ∧ 0 ≤ σ * ev b ∧ c ≤ a.t ∧ b.t ≤ d := by
  have main : ∀ (u q : St ℝ n k X) (m l' : List (St ℝ n k X)), Path S S.tBound s0 l' u → Path S S.tBound u m q → d ≤ q.t → c ≤ u.t → u.t < z + η →
      σ * ev u < 0 → ∃ a b, Consecutive (u :: m) a b ∧ σ * ev a < 0 ∧ 0 ≤ σ * ev b ∧ c ≤ a.t ∧ b.t ≤ d := by
    clear hp hq
    intro u q m l' hpu hm
    induction hm generalizing l' with
    | nil u =>
      intro hq h1 h2 _
      linarith
    | @cons u u1 q m hf ht hm ih =>
      intro hq h1 h2 h3
      have hpu1 := path_append hpu (.cons hf ht (.nil _))
      obtain ⟨g1, g2⟩ := hsteps _ _ _ hpu (by linarith) ht
      rcases le_or_gt 0 (σ * ev u1) with h4 | h4
      · exact ⟨u, u1, ⟨[], m, rfl⟩, h3, h4, h1, by linarith⟩
      · have h5 : u1.t < z + η := by
          by_contra h5
          exact absurd (hpos _ _ hpu1 (not_lt.mp h5) (by linarith)) (not_lt.mpr h4.le)
        obtain ⟨a, b, ⟨l1, l2, e⟩, h6⟩ := ih _ hpu1 hq (by linarith) h5 h4
        exact ⟨a, b, ⟨u :: l1, l2, by rw [e]; rfl⟩, h6⟩
  have pre : ∀ (u q : St ℝ n k X) (m l' : List (St ℝ n k X)), Path S S.tBound s0 l' u → Path S S.tBound u m q → d ≤ q.t → u.t ≤ c →
      ∃ a b, Consecutive (u :: m) a b ∧ σ * ev a < 0 ∧ 0 ≤ σ * ev b ∧ c ≤ a.t ∧ b.t ≤ d := by
    clear hp hq
    intro u q m l' hpu hm
    induction hm generalizing l' with
    | nil u => intro hq h1; linarith
    | @cons u u1 q m hf ht hm ih =>
      intro hq h1
      have hpu1 := path_append hpu (.cons hf ht (.nil _))
      obtain ⟨g1, g2⟩ := hsteps _ _ _ hpu (by linarith) ht
      have : ∃ a b, Consecutive (u1 :: m) a b ∧ σ * ev a < 0 ∧ 0 ≤ σ * ev b ∧ c ≤ a.t ∧ b.t ≤ d := by
        rcases le_or_gt u1.t c with h4 | h4
        · exact ih _ hpu1 hq h4
        · exact main u1 q m _ hpu1 hm hq h4.le (by linarith) (hneg _ _ hpu1 h4 (by linarith))
      obtain ⟨a, b, ⟨l1, l2, e⟩, h6⟩ := this
      exact ⟨a, b, ⟨u :: l1, l2, by rw [e]; rfl⟩, h6⟩
  exact pre s0 q l [] (.nil _) hp hq h0

end times

/-! ### Classes that track the solutions of smooth problems -/

/-- With steps of size at most `H`, the states and the dense output stay within `C * H^p` of the solution. -/
def TracksAll (cls : Rhs ℝ n → Solver ℝ n k X) (starts : Rhs ℝ n → ℝ → Vec ℝ n → St ℝ n k X → Prop) (p : ℕ) : Prop :=
  ∀ (f : ℝ → Vec ℝ n → Vec ℝ n) (y : ℝ → Vec ℝ n) (a b t₀ T : ℝ), ContDiff ℝ p (joint f) → a < t₀ → T < b →
    (∀ t ∈ Set.Ioo a b, SolvesAt f y t) → ∃ C δ, 0 ≤ C ∧ 0 < δ ∧ ∀ (H : ℝ) (s0 : St ℝ n k X), starts (pureRhs f) t₀ (y t₀) s0 → 0 < s0.h →
      0 ≤ H → H ≤ δ → LargestStep (cls (pureRhs f)) s0 T H → Tracks (cls (pureRhs f)) y s0 T (C * H ^ p)

theorem tracks_all {s d : ℕ} {T : Tableau ℝ s} {T' : Tableau ℝ (s + 1)} {P : Fin (s + 2) → Fin d → ℝ}
    {cls : Rhs ℝ n → Solver ℝ n 0 X} {starts : Rhs ℝ n → ℝ → Vec ℝ n → St ℝ n 0 X → Prop}
    (hM : ∀ rhs, WellConfigured (cls rhs).method) (h0 : StartsAt cls starts) (hS : RKSteps T cls)
    (hD : DenseSteps T' P cls starts) (hT : Explicit T) (hR : RowSums T) (hT' : Explicit T') (hR' : RowSums T')
    {q : ℕ} (hB : OrderConditions T.A T.B (q + 1)) (hd : q ≤ d) (hP : DenseConditions T'.A P q) : TracksAll cls starts (q + 1) := by
  intro f y a b t₀ T₁ hf ha hb hy
  obtain ⟨C, δ, hC, hδ, hE⟩ := steps_error hM h0 hS hD hT hR hT' hR' hB hd hP hf ha hb hy
  refine ⟨C, δ, hC, hδ, fun H s0 hs0 hh hH0 hH hlarge => ?_⟩
  have ht0 : s0.t = t₀ := h0.times _ _ _ _ hs0 _
  have hy0 : s0.y = y t₀ := h0.y _ _ _ _ hs0
  exact tracks_of_error (hM _) hh (by positivity) (by rw [hy0, ht0]) fun l u v hp hu hfit ht =>
    hE H s0 u v l hs0 hh hH0 hH hlarge hp hu hfit ht

section classes
variable {cls : Rhs ℝ n → Solver ℝ n 0 X} {starts : Rhs ℝ n → ℝ → Vec ℝ n → St ℝ n 0 X → Prop} {p : ℕ}

theorem solution_continuous {f : ℝ → Vec ℝ n → Vec ℝ n} {y : ℝ → Vec ℝ n} {a b t₀ T : ℝ} (ha : a < t₀) (hb : T < b)
    (hy : ∀ t ∈ Set.Ioo a b, SolvesAt f y t) : ContinuousOn (Y := Fin n → ℝ) y (Set.Icc t₀ T) := fun t ht =>
  (hy t ⟨ha.trans_le ht.1, ht.2.trans_lt hb⟩).continuousAt.continuousWithinAt

theorem scale_small {C H : ℝ} (hp : 1 ≤ p) (hC : 0 ≤ C) (hH0 : 0 ≤ H) (hH1 : H ≤ 1) {κ : ℝ} (hκ : 0 < κ) (hH : H ≤ κ / (C + 1)) :
    C * H ^ p < κ := by
  have h1 : H ^ p ≤ H := by simpa using pow_le_pow_of_le_one hH0 hH1 hp
  have h2 : C * H ^ p ≤ C * (κ / (C + 1)) := mul_le_mul_of_nonneg_left (h1.trans hH) hC
  have h3 : C * (κ / (C + 1)) < κ := by
    rw [mul_div_assoc', div_lt_iff₀ (by linarith)]; nlinarith
  linarith

/-! ### A given problem -/

/-- What is recorded are almost zeros along the solution, for every solver which tracks it. -/
theorem records_tracked {f : ℝ → Vec ℝ n → Vec ℝ n} {y : ℝ → Vec ℝ n} {a b t₀ T : ℝ} {g : ℝ → Vec ℝ n → ℝ} (hf : Continuous (joint f))
    (ha : a < t₀) (hb : T < b) (hy : ∀ t ∈ Set.Ioo a b, SolvesAt f y t) (hg : ContDiff ℝ 1 (jointEvent g)) :
    ∃ L M, 0 ≤ L ∧ 0 ≤ M ∧ ∀ (S : Solver ℝ n k X) (bo : BisectOpts ℝ) (argsort : List ℝ → List Nat), WellConfigured S.method →
      0 ≤ bo.tol → (∀ l, IsArgsort l (argsort l)) →
      ∀ (E H : ℝ) (s0 s' : St ℝ n k X) (ts : List ℝ) (es : List (EventSpec ℝ n)) (o : RunOut ℝ n k),
        Constructed S s0 → Ordered s0 → 0 < s0.h → t₀ ≤ s0.t → 0 ≤ E → E ≤ 1 → H ≤ (b - T) / 2 → LargestStep S s0 T H →
        Tracks S y s0 T E → (S.runEvents bo argsort ts (some es)).run s0 = some (.ok o, s') →
        ∀ (i : Nat) e tl, es[i]? = some e → e.func = g → o.tEvents[i]? = some tl →
          ∀ τ ∈ tl, τ < T → |g τ (y τ)| ≤ bo.tol + (L * E + M * (H / 2 ^ bo.maxiter)) := by
  have hT1 : (T + b) / 2 < b := by linarith
  have hyc := solution_continuous ha hT1 hy
  obtain ⟨L, hL, hlip⟩ := event_lipschitz hg hyc
  obtain ⟨M, hMb⟩ := isCompact_Icc.exists_bound_of_continuousOn (eventSlope_continuous hg hf hyc)
  have hGl : ∀ t ∈ Set.Icc t₀ ((T + b) / 2), ∀ t' ∈ Set.Icc t₀ ((T + b) / 2), |g t (y t) - g t' (y t')| ≤ |M| * |t - t'| := by
    intro t ht t' ht'
    exact (convex_Icc _ _).norm_image_sub_le_of_norm_hasDerivWithin_le (f := fun t => g t (y t)) (f' := eventSlope f g y)
      (fun x hx => (event_hasDeriv hg (hy x ⟨ha.trans_le hx.1, hx.2.trans_lt hT1⟩)).hasDerivWithinAt)
      (fun x hx => (hMb x hx).trans (le_abs_self M)) ht' ht
  refine ⟨L, |M|, hL, abs_nonneg M, ?_⟩
  intro S bo argsort hM htol hA E H s0 s' ts es o hc ho hh h0 hE0 hE hH hlarge htr hrun i e tl hie he htl τ hτ hτT
  have hes : es ≠ [] := by rintro rfl; simp at hie
  obtain ⟨l, q, h1, -, h3⟩ := C43_located S hM bo htol argsort hA s0 s0 hc ho hh (.start s0) ts es hes o s' hrun
  obtain ⟨u, v, huv, h4, h5, h6⟩ := h3 i e tl hie htl τ hτ
  obtain ⟨l', hpu, -, -⟩ := path_consecutive h1 huv
  exact record_small htr hE0 hE hL (abs_nonneg M) hlip hGl hlarge (by linarith) h1 huv (h0.trans (path_pos hM hpu hh).2) htol he h4 h5
    hτT h6

/-- The crossings along the solution are found by every solver which tracks it closely and begins early enough. -/
theorem finds_tracked {f : ℝ → Vec ℝ n → Vec ℝ n} {y : ℝ → Vec ℝ n} {a b t₀ T : ℝ} {g : ℝ → Vec ℝ n → ℝ} {c z d σ : ℝ}
    (hf : Continuous (joint f)) (ha : a < t₀) (hb : T < b) (hy : ∀ t ∈ Set.Ioo a b, SolvesAt f y t) (hg : ContDiff ℝ 1 (jointEvent g))
    (hc : t₀ ≤ c) (hcz : c < z) (hzd : z < d) (hdT : d < T) (hz : g z (y z) = 0) (hσ : σ = 1 ∨ σ = -1)
    (hslope : ∀ t ∈ Set.Icc c d, 0 < σ * deriv (fun t => g t (y t)) t) :
    ∃ K ε, 0 ≤ K ∧ 0 < ε ∧ ∀ (S : Solver ℝ n k X) (bo : BisectOpts ℝ) (argsort : List ℝ → List Nat), WellConfigured S.method →
      0 ≤ bo.tol → (∀ l, IsArgsort l (argsort l)) →
      ∀ (E H : ℝ) (s0 s' : St ℝ n k X) (ts : List ℝ) (es : List (EventSpec ℝ n)) (o : RunOut ℝ n k),
        Constructed S s0 → Ordered s0 → 0 < s0.h → t₀ ≤ s0.t → 0 ≤ E → E ≤ ε → 0 ≤ H → H ≤ ε → LargestStep S s0 T H →
        Tracks S y s0 T E → (S.runEvents bo argsort ts (some es)).run s0 = some (.ok o, s') →
        ∀ (i : Nat) e tl, es[i]? = some e → e.func = g → o.tEvents[i]? = some tl →
          (s0.t ≤ c → d ≤ s'.t → (∀ x, e.direction = some x → 0 ≤ σ * x) → ∃ τ ∈ tl, c ≤ τ ∧ τ ≤ d) ∧
          ∀ τ ∈ tl, c ≤ τ → τ ≤ d → |τ - z| ≤ K * (bo.tol + E + H / 2 ^ bo.maxiter) := by
  obtain ⟨L1, M1, hL1, hM1, hrec⟩ := records_tracked (k := k) (X := X) hf ha hb hy hg
  have hyc := solution_continuous ha hb hy
  obtain ⟨L, hL, hlip⟩ := event_lipschitz hg hyc
  have hin : ∀ x ∈ Set.Icc c d, x ∈ Set.Ioo a b := fun x hx => ⟨by linarith [hx.1], by linarith [hx.2]⟩
  have hd1 : ∀ x ∈ Set.Icc c d, HasDerivAt (fun t => g t (y t)) (eventSlope f g y x) x := fun x hx => event_hasDeriv hg (hy x (hin x hx))
  -- the slope is bounded below
  obtain ⟨m, hm, hslope'⟩ : ∃ m, 0 < m ∧ ∀ x ∈ Set.Icc c d, m ≤ σ * eventSlope f g y x := by
    have hcont : ContinuousOn (fun x => σ * eventSlope f g y x) (Set.Icc c d) := continuousOn_const.mul
      (eventSlope_continuous hg hf (hyc.mono (Set.Icc_subset_Icc hc hdT.le)))
    obtain ⟨x0, hx0, hmin⟩ := isCompact_Icc.exists_isMinOn ⟨c, le_rfl, (hcz.trans hzd).le⟩ hcont
    refine ⟨σ * eventSlope f g y x0, ?_, fun x hx => hmin hx⟩
    rw [← (hd1 x0 hx0).deriv]
    exact hslope x0 hx0
  have grow : ∀ x ∈ Set.Icc c d, ∀ x' ∈ Set.Icc c d, x ≤ x' → m * (x' - x) ≤ σ * g x' (y x') - σ * g x (y x) := by
    intro x hx x' hx' hxx
    refine (convex_Icc c d).mul_sub_le_image_sub_of_le_deriv (f := fun t => σ * g t (y t)) ?_ ?_ ?_ x hx x' hx' hxx
    · exact fun t ht => ((hd1 t ht).const_mul σ).continuousAt.continuousWithinAt
    · exact fun t ht => ((hd1 t (interior_subset ht)).const_mul σ).differentiableAt.differentiableWithinAt
    · intro t ht
      rw [((hd1 t (interior_subset ht)).const_mul σ).deriv]
      exact hslope' t (interior_subset ht)
  have habs : |σ| = 1 := by rcases hσ with rfl | rfl <;> simp
  have hz' : z ∈ Set.Icc c d := ⟨hcz.le, hzd.le⟩
  set κ := m * min (z - c) (d - z) / 2 with hκ
  have hmin : 0 < min (z - c) (d - z) := lt_min (by linarith) (by linarith)
  have hκ0 : 0 < κ := by positivity
  refine ⟨(1 + L1 + M1) / m, min (min 1 (κ / (L + 1) / 2)) (min (min (z - c) (d - z) / 2) ((b - T) / 2)), by positivity, by
    have : 0 < (b - T) / 2 := by linarith
    positivity, ?_⟩
  intro S bo argsort hM htol hA E H s0 s' ts es o hcon ho hh h0 hE0 hE hH0 hH hlarge hTr hrun i e tl hie he htl
  have hE1 : E ≤ 1 := hE.trans ((min_le_left _ _).trans (min_le_left _ _))
  have hE2 : E ≤ κ / (L + 1) / 2 := hE.trans ((min_le_left _ _).trans (min_le_right _ _))
  have hH4 : H ≤ min (z - c) (d - z) / 2 := hH.trans ((min_le_right _ _).trans (min_le_left _ _))
  have hH5 : H ≤ (b - T) / 2 := hH.trans ((min_le_right _ _).trans (min_le_right _ _))
  have hHc : H ≤ (z - c) / 2 := hH4.trans (by linarith [min_le_left (z - c) (d - z)])
  have hHd : H ≤ (d - z) / 2 := hH4.trans (by linarith [min_le_right (z - c) (d - z)])
  refine ⟨fun hstart hreach hdir => ?_, fun τ hτ h1 h2 => ?_⟩
  · have hes : es ≠ [] := by rintro rfl; simp at hie
    obtain ⟨l, q, hpath, hq, -, -, hrest⟩ := C41_records S hM bo htol argsort hA s0 s0 hcon ho hh (.start s0) ts es hes o s' hrun
    obtain ⟨hcomp, -, -⟩ := hrest i e tl hie htl
    have hLE : L * E < κ := by
      rw [div_div, le_div_iff₀ (by positivity)] at hE2
      nlinarith [mul_nonneg hL hE0]
    have near : ∀ l u, Path S S.tBound s0 l u → c ≤ u.t → u.t ≤ d →
        |σ * value e u - σ * g u.t (y u.t)| < κ := by
      intro l u hpu hu1 hu2
      rw [← mul_sub, abs_mul, habs, one_mul]
      refine lt_of_le_of_lt ?_ hLE
      unfold value
      rw [he]
      exact value_close hE0 hE1 hL hlip ⟨hc.trans hu1, hu2.trans hdT.le⟩ (hTr.visited l u hpu (hu2.trans hdT.le))
    have k1 : κ ≤ m * ((z - c) / 2) := by
      rw [hκ, mul_div_assoc]; exact mul_le_mul_of_nonneg_left (by linarith [min_le_left (z - c) (d - z)]) hm.le
    have k2 : κ ≤ m * ((d - z) / 2) := by
      rw [hκ, mul_div_assoc]; exact mul_le_mul_of_nonneg_left (by linarith [min_le_right (z - c) (d - z)]) hm.le
    obtain ⟨u, v, huv, h1, h2, h3, h4⟩ := finds_step (S := S) (s0 := s0) (H := H) (σ := σ) (c := c) (z := z) (d := d)
      (η := (d - z) / 2) (ev := value e) (by linarith) hH0
      (fun l u v hpu hu ht => ⟨(C11_step_increases _ hM _ _ (path_pos hM hpu hh).1 ht).1, hlarge l u v hpu (by linarith) ht⟩)
      (fun l u hpu hu1 hu2 => by
        have := (abs_lt.mp (near l u hpu hu1.le (by linarith))).2
        have g1 := grow u.t ⟨hu1.le, by linarith⟩ z hz' (by linarith)
        rw [hz, mul_zero] at g1
        have g2 : m * ((z - c) / 2) ≤ m * (z - u.t) := mul_le_mul_of_nonneg_left (by linarith) hm.le
        linarith)
      (fun l u hpu hu1 hu2 => by
        have := (abs_lt.mp (near l u hpu (by linarith) hu2)).1
        have g1 := grow z hz' u.t ⟨by linarith, hu2⟩ (by linarith)
        rw [hz, mul_zero] at g1
        have g2 : m * ((d - z) / 2) ≤ m * (u.t - z) := mul_le_mul_of_nonneg_left (by linarith) hm.le
        linarith)
      (by linarith) (by linarith) hstart hpath (by rw [← hq]; exact hreach)
    obtain ⟨τ, hτ, g1, g2⟩ := hcomp u v huv (by
      unfold CrossesOn Crosses Upward Downward
      cases hdd : e.direction with
      | none =>
        rcases hσ with rfl | rfl
        · left; constructor <;> linarith
        · right; constructor <;> linarith
      | some x =>
        have hx := hdir x hdd
        rcases hσ with rfl | rfl
        · rcases (show 0 ≤ x by linarith).lt_or_eq with hx | rfl
          · left; exact ⟨hx, by linarith, by linarith⟩
          · right; right; exact ⟨rfl, Or.inl ⟨by linarith, by linarith⟩⟩
        · rcases (show x ≤ 0 by linarith).lt_or_eq with hx | rfl
          · right; left; exact ⟨hx, by linarith, by linarith⟩
          · right; right; exact ⟨rfl, Or.inr ⟨by linarith, by linarith⟩⟩)
    exact ⟨τ, hτ, by linarith, by linarith⟩
  · have hb1 := hrec S bo argsort hM htol hA E H s0 s' ts es o hcon ho hh h0 hE0 hE1 hH5 hlarge hTr hrun i e tl hie he htl τ hτ (by linarith)
    have hb2 : m * |τ - z| ≤ |g τ (y τ)| := by
      have : |g τ (y τ)| = |σ * g τ (y τ)| := by rw [abs_mul, habs, one_mul]
      rw [this]
      rcases le_total τ z with hle | hle
      · have g1 := grow τ ⟨h1, h2⟩ z hz' hle
        rw [hz, mul_zero] at g1
        rw [abs_of_nonpos (by linarith)]
        have := neg_abs_le (σ * g τ (y τ))
        linarith
      · have g1 := grow z hz' τ ⟨h1, h2⟩ hle
        rw [hz, mul_zero] at g1
        rw [abs_of_nonneg (by linarith)]
        have := le_abs_self (σ * g τ (y τ))
        linarith
    rw [div_mul_eq_mul_div, le_div_iff₀ hm]
    have e2 : 0 ≤ H / 2 ^ bo.maxiter := by positivity
    have e3 : 0 ≤ L1 * bo.tol := by positivity
    have e4 : 0 ≤ M1 * bo.tol := by positivity
    have e5 : 0 ≤ L1 * (H / 2 ^ bo.maxiter) := by positivity
    have e6 : 0 ≤ M1 * E := by positivity
    linarith

/-! ### Runge-Kutta classes -/

theorem records_zeros (hM : ∀ rhs, WellConfigured (cls rhs).method) (h0 : StartsAt cls starts) (hp : 1 ≤ p)
    (h : TracksAll cls starts p) : RecordsZeros cls starts p := by
  intro f y a b t₀ T g hf ha hb hy hg
  obtain ⟨C, δ, hC, hδ, hE⟩ := h f y a b t₀ T hf ha hb hy
  obtain ⟨L, M, hL, hM0, hrec⟩ := records_tracked (k := 0) (X := X) hf.continuous ha hb hy hg
  refine ⟨L * C + M, min δ (min 1 (min (1 / (C + 1)) ((b - T) / 2))), ?_, ?_⟩
  · have : 0 < (b - T) / 2 := by linarith
    positivity
  intro bo argsort htol hA H s0 s' ts es o hs0 hh hH0 hH hlarge hrun i e tl hie he htl τ hτ hτT
  have hH1 : H ≤ δ := hH.trans (min_le_left _ _)
  have hH2 : H ≤ 1 := hH.trans ((min_le_right _ _).trans (min_le_left _ _))
  have hH3 : H ≤ 1 / (C + 1) := hH.trans ((min_le_right _ _).trans ((min_le_right _ _).trans (min_le_left _ _)))
  have hH4 : H ≤ (b - T) / 2 := hH.trans ((min_le_right _ _).trans ((min_le_right _ _).trans (min_le_right _ _)))
  have := hrec _ bo argsort (hM _) htol hA (C * H ^ p) H s0 s' ts es o (h0.constructed _ _ _ _ hs0)
    (fun i j _ => by rw [h0.times _ _ _ _ hs0, h0.times _ _ _ _ hs0]) hh (h0.times _ _ _ _ hs0 _).ge (by positivity)
    (scale_small hp hC hH0 hH2 one_pos hH3).le hH4 hlarge (hE H s0 hs0 hh hH0 hH1 hlarge) hrun i e tl hie he htl τ hτ hτT
  refine this.trans ?_
  have e1 : 0 ≤ M * H ^ p := by positivity
  have e2 : 0 ≤ L * C * (H / 2 ^ bo.maxiter) := by positivity
  linarith

theorem finds_crossings (hM : ∀ rhs, WellConfigured (cls rhs).method) (h0 : StartsAt cls starts) (hp : 1 ≤ p)
    (h : TracksAll cls starts p) : FindsCrossings cls starts p := by
  intro f y a b t₀ T g c z d σ hf ha hb hy hg hc hcz hzd hdT hz hσ hslope
  obtain ⟨C, δ, hC, hδ, hE⟩ := h f y a b t₀ T hf ha hb hy
  obtain ⟨K, ε, hK, hε, hfind⟩ := finds_tracked (k := 0) (X := X) hf.continuous ha hb hy hg hc hcz hzd hdT hz hσ hslope
  refine ⟨K * (1 + C), min (min δ 1) (min (ε / (C + 1)) ε), by positivity, ?_⟩
  intro bo argsort htol hA H s0 s' ts es o hs0 hh hH0 hH hlarge hrun i e tl hie he htl
  have hH1 : H ≤ δ := hH.trans ((min_le_left _ _).trans (min_le_left _ _))
  have hH2 : H ≤ 1 := hH.trans ((min_le_left _ _).trans (min_le_right _ _))
  have hH3 : H ≤ ε / (C + 1) := hH.trans ((min_le_right _ _).trans (min_le_left _ _))
  have hH4 : H ≤ ε := hH.trans ((min_le_right _ _).trans (min_le_right _ _))
  have ht0 : s0.t = t₀ := h0.times _ _ _ _ hs0 _
  obtain ⟨g1, g2⟩ := hfind _ bo argsort (hM _) htol hA (C * H ^ p) H s0 s' ts es o (h0.constructed _ _ _ _ hs0)
    (fun i j _ => by rw [h0.times _ _ _ _ hs0, h0.times _ _ _ _ hs0]) hh ht0.ge (by positivity)
    (scale_small hp hC hH0 hH2 hε hH3).le hH0 hH4 hlarge (hE H s0 hs0 hh hH0 hH1 hlarge) hrun i e tl hie he htl
  refine ⟨g1 (by rw [ht0]; exact hc), fun τ hτ h1 h2 => (g2 τ hτ h1 h2).trans ?_⟩
  rw [mul_assoc]
  refine mul_le_mul_of_nonneg_left ?_ hK
  have e1 : 0 ≤ C * bo.tol := by positivity
  have e2 : 0 ≤ C * (H / 2 ^ bo.maxiter) := by positivity
  have e3 : 0 ≤ H ^ p := by positivity
  linarith

end classes

end Nbkode
