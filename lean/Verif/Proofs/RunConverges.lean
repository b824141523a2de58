import Verif.Spec.RunError
import Verif.Proofs.DenseOrder
import Verif.Props.DenseOutput
import Verif.Props.Convergence

/-! # Convergence of `run` -/

set_option autoImplicit false
set_option linter.unusedSectionVars false

namespace Nbkode
open Py Spec Solver Topology

variable {n s d : ℕ} {X : Type}

/-- What a constructor leaves behind: a history which is the initial point only, and `interpolate` gives it back. -/
structure StartsAt (cls : Rhs ℝ n → Solver ℝ n 0 X) (starts : Rhs ℝ n → ℝ → Vec ℝ n → St ℝ n 0 X → Prop) : Prop where
  constructed : ∀ rhs t0 y0 s0, starts rhs t0 y0 s0 → Constructed (cls rhs) s0
  times : ∀ rhs t0 y0 s0, starts rhs t0 y0 s0 → ∀ i, s0.cache.ts i = t0
  y : ∀ rhs t0 y0 s0, starts rhs t0 y0 s0 → s0.y = y0
  f : ∀ rhs t0 y0 s0, starts rhs t0 y0 s0 → rhs t0 y0 = .ok s0.f
  interp : ∀ rhs t0 y0 s0, starts rhs t0 y0 s0 → ∀ r s', ((cls rhs).interpolate t0).run s0 = some (.ok r, s') →
    r.deref s0.cache = y0

/-- Inside the last step `interpolate` is a continuous extension of the Runge-Kutta step. -/
def DenseSteps (T : Tableau ℝ s) (P : Fin (s + 1) → Fin d → ℝ) (cls : Rhs ℝ n → Solver ℝ n 0 X)
    (starts : Rhs ℝ n → ℝ → Vec ℝ n → St ℝ n 0 X → Prop) : Prop :=
  ∀ (f : ℝ → Vec ℝ n → Vec ℝ n) (t0 : ℝ) (y0 : Vec ℝ n) (s0 u v : St ℝ n 0 X) (l : List (St ℝ n 0 X)),
    starts (pureRhs f) t0 y0 s0 → 0 < s0.h → Path (cls (pureRhs f)) (cls (pureRhs f)).tBound s0 l u →
    Fits (cls (pureRhs f)).tBound u → Takes (cls (pureRhs f)) u v →
    u.f = f u.t u.y → u.t < v.t →
    ∃ K, RKStages T (pureRhs f) u.t (v.t - u.t) u.y K ∧ ∀ t r v', u.t < t → t ≤ v.t →
      ((cls (pureRhs f)).interpolate t).run v = some (.ok r, v') →
      r.deref v.cache = denseNew P (v.t - u.t) ((t - u.t) / (v.t - u.t)) u.y K

theorem reach_last {k : Nat} {S : Solver ℝ n k X} {b : Bound ℝ} {ti : ℝ} {s s' : St ℝ n k X} (h : Reach S b ti s s') :
    s' = s ∨ ∃ l u, Path S b s l u ∧ u.t < ti ∧ Fits b u ∧ Takes S u s' := by
  induction h with
  | here _ => exact Or.inl rfl
  | @step s s1 s2 h1 h2 h3 h4 ih =>
    right
    rcases ih with rfl | ⟨l, u, hp, hu⟩
    · exact ⟨[], s, .nil s, h1, h2, h3⟩
    · exact ⟨s1 :: l, u, .cons h2 h3 hp, hu⟩

theorem path_pos {k : Nat} {S : Solver ℝ n k X} (hM : WellConfigured S.method) {b : Bound ℝ} {s u : St ℝ n k X}
    {l : List (St ℝ n k X)} (hp : Path S b s l u) (hh : 0 < s.h) : 0 < u.h ∧ s.t ≤ u.t := by
  induction hp with
  | nil s => exact ⟨hh, le_rfl⟩
  | cons _ ht _ ih =>
    obtain ⟨h1, h2⟩ := C11_step_increases S hM _ _ hh ht
    exact ⟨(ih h2).1, h1.le.trans (ih h2).2⟩

theorem path_steps {k : Nat} {S : Solver ℝ n k X} (hM : WellConfigured S.method) {T H : ℝ} {s0 : St ℝ n k X}
    (hL : LargestStep S s0 T H) {s u : St ℝ n k X} {l : List (St ℝ n k X)} (hp : Path S S.tBound s l u) (hh : 0 < s.h)
    (hu : u.t ≤ T) {l0 : List (St ℝ n k X)} (h0 : Path S S.tBound s0 l0 s) : StepsUpTo H (s :: l) := by
  induction hp generalizing l0 with
  | nil s => exact List.isChain_singleton _
  | @cons s s1 s2 l hf ht hp ih =>
    obtain ⟨h1, h2⟩ := C11_step_increases S hM _ _ hh ht
    have h3 := (path_pos hM hp h2).2
    refine List.isChain_cons_cons.mpr ⟨⟨by linarith, hL l0 s s1 h0 (by linarith) ht⟩, ih h2 hu (l0 := l0 ++ [s1]) ?_⟩
    exact path_append h0 (.cons hf ht (.nil _))

theorem path_deriv {k : Nat} {T : Tableau ℝ s} {cls : Rhs ℝ n → Solver ℝ n k X} (hS : RKSteps T cls)
    {f : ℝ → Vec ℝ n → Vec ℝ n} {b : Bound ℝ} {s0 u : St ℝ n k X} {l : List (St ℝ n k X)}
    (hp : Path (cls (pureRhs f)) b s0 l u) (hf : s0.f = f s0.t s0.y) : u.f = f u.t u.y := by
  induction hp with
  | nil s => exact hf
  | cons _ ht _ ih => exact ih ((hS f _ _ hf ht).choose_spec.choose_spec.2.2.2)

theorem path_mem {k : Nat} {S : Solver ℝ n k X} {b : Bound ℝ} {s u : St ℝ n k X} {l : List (St ℝ n k X)}
    (hp : Path S b s l u) : u = s ∨ u ∈ l := by
  induction hp with
  | nil s => exact Or.inl rfl
  | cons _ _ _ ih =>
    right
    rcases ih with rfl | h
    · exact List.mem_cons_self
    · exact List.mem_cons_of_mem _ h

/-- The error along the steps made before `T₁`, with the dense output inside them, for a family of solvers. -/
theorem steps_error_uniform {ι : Type} {T : Tableau ℝ s} {T' : Tableau ℝ (s + 1)} {P : Fin (s + 2) → Fin d → ℝ}
    {cls : ι → Rhs ℝ n → Solver ℝ n 0 X} {starts : ι → Rhs ℝ n → ℝ → Vec ℝ n → St ℝ n 0 X → Prop}
    (hM : ∀ o rhs, WellConfigured (cls o rhs).method) (h0 : ∀ o, StartsAt (cls o) (starts o)) (hS : ∀ o, RKSteps T (cls o))
    (hD : ∀ o, DenseSteps T' P (cls o) (starts o)) (hT : Explicit T) (hR : RowSums T) (hT' : Explicit T') (hR' : RowSums T')
    {q : ℕ} (hB : OrderConditions T.A T.B (q + 1)) (hd : q ≤ d) (hP : DenseConditions T'.A P q)
    {f : ℝ → Vec ℝ n → Vec ℝ n} {y : ℝ → Vec ℝ n} {a b t₀ T₁ : ℝ} (hf : ContDiff ℝ (q + 1 : ℕ) (joint f)) (ha : a < t₀) (hb : T₁ < b)
    (hy : ∀ t ∈ Set.Ioo a b, SolvesAt f y t) :
    ∃ C δ, 0 ≤ C ∧ 0 < δ ∧ ∀ (o : ι) (H : ℝ) (s0 u v : St ℝ n 0 X) (l : List (St ℝ n 0 X)), starts o (pureRhs f) t₀ (y t₀) s0 → 0 < s0.h →
      0 ≤ H → H ≤ δ → LargestStep (cls o (pureRhs f)) s0 T₁ H → Path (cls o (pureRhs f)) (cls o (pureRhs f)).tBound s0 l u → u.t < T₁ →
      Fits (cls o (pureRhs f)).tBound u → Takes (cls o (pureRhs f)) u v →
      (∀ i, |u.y i - y u.t i| ≤ C * H ^ (q + 1)) ∧ ∀ t r v', u.t < t → t ≤ v.t →
        ((cls o (pureRhs f)).interpolate t).run v = some (.ok r, v') → ∀ i, |r.deref v.cache i - y t i| ≤ C * H ^ (q + 1) := by
  obtain ⟨C0, δ1, hC0, hδ1, h1⟩ := converges_uniform hT hR (by omega) hB hf ha hb hy
  set C1 := C0 * |T₁ - t₀| with hC1
  have hyc : ContinuousOn (Y := Fin n → ℝ) y (Set.Icc t₀ T₁) := fun t ht =>
    (hy t ⟨ha.trans_le ht.1, ht.2.trans_lt hb⟩).continuousAt.continuousWithinAt
  obtain ⟨L, hL, hlip⟩ := dense_lipschitz T' P (hf.of_le (by exact_mod_cast (by omega : 1 ≤ q + 1))) hyc
  obtain ⟨C2, r, hC2, hr, hloc⟩ := uniform_dense_error (hf.of_le (by exact_mod_cast (by omega : q ≤ q + 1))) hy ha hb hT' hR' hd hP
  refine ⟨(L + 1) * |C1| + C2, min δ1 (min (r / 2) (min 1 (1 / (|C1| + 1)))), by positivity, by positivity,
    fun o H s0 u s1 l hs0 hh hH0 hH hlarge hpath huT hfits htakes => ?_⟩
  have hH1 : H ≤ δ1 := hH.trans (min_le_left _ _)
  have hHr : H < r := by
    have : H ≤ r / 2 := hH.trans ((min_le_right _ _).trans (min_le_left _ _)); linarith
  have hHone : H ≤ 1 := hH.trans ((min_le_right _ _).trans ((min_le_right _ _).trans (min_le_left _ _)))
  have hHC : H ≤ 1 / (|C1| + 1) := hH.trans ((min_le_right _ _).trans ((min_le_right _ _).trans (min_le_right _ _)))
  have ht0 : s0.t = t₀ := (h0 o).times _ _ _ _ hs0 _
  have hy0 : s0.y = y t₀ := (h0 o).y _ _ _ _ hs0
  have hf0 : s0.f = f s0.t s0.y := by
    rw [ht0, hy0]; exact (Except.ok.inj ((h0 o).f _ _ _ _ hs0)).symm
  have hpow : (0 : ℝ) ≤ H ^ (q + 1) := by positivity
  obtain ⟨huh, hut⟩ := path_pos (hM o _) hpath hh
  rw [ht0] at hut
  have hsteps := path_steps (hM o _) hlarge hpath hh huT.le (.nil s0)
  have herr : ∀ d, |u.y d - y u.t d| ≤ |C1| * H ^ (q + 1) := by
    intro d
    rcases path_mem hpath with rfl | hmem
    · rw [hy0, ht0]; simp only [sub_self, abs_zero]; positivity
    · refine ((h1 (hS o) H s0 u l _ hH1 ht0 ⟨by rw [hy0, ht0], hf0⟩ hpath hsteps u hmem huT.le).2.2 d).trans ?_
      refine mul_le_mul_of_nonneg_right (le_trans ?_ (le_abs_self _)) (by positivity)
      exact mul_le_mul_of_nonneg_left ((sub_le_sub_right huT.le _).trans (le_abs_self _)) hC0
  refine ⟨fun i => (herr i).trans (mul_le_mul_of_nonneg_right (by nlinarith [abs_nonneg C1]) hpow), fun t rr v' hu hv' hint i => ?_⟩
  have herr' : ‖(u.y - y u.t : Fin n → ℝ)‖ ≤ |C1| * H ^ (q + 1) :=
    (pi_norm_le_iff_of_nonneg (by positivity)).mpr herr
  have hsmall : |C1| * H ^ (q + 1) ≤ 1 := by
    have e1 : H ^ (q + 1) ≤ H := by
      calc H ^ (q + 1) ≤ H ^ 1 := pow_le_pow_of_le_one hH0 hHone (by omega)
        _ = H := pow_one _
    have e2 : |C1| * (1 / (|C1| + 1)) ≤ 1 := by
      rw [mul_one_div, div_le_one (by positivity)]; linarith
    exact (mul_le_mul_of_nonneg_left (e1.trans hHC) (by positivity)).trans e2
  have hlt := (C11_step_increases _ (hM o _) _ _ huh htakes).1
  have hx0 : 0 < s1.t - u.t := sub_pos.mpr hlt
  have hxH := hlarge l u s1 hpath huT htakes
  obtain ⟨K, hK, hdense⟩ := hD o f _ _ s0 u s1 l hs0 hh hpath hfits htakes (path_deriv (hS o) hpath hf0) hlt
  have hv := hdense t rr v' hu hv' hint
  have hK' : K = fun i => stageFn T' f i (u.t, s1.t - u.t, u.y) := funext fun i => stages_unique hT' hK i
  have hθ0 : 0 ≤ (t - u.t) / (s1.t - u.t) := div_nonneg (by linarith) hx0.le
  have hθ1 : (t - u.t) / (s1.t - u.t) ≤ 1 := (div_le_one hx0).mpr (by linarith)
  have hmem : u.t ∈ Set.Icc t₀ T₁ := ⟨hut, huT.le⟩
  have e1 := hlip u.t hmem (s1.t - u.t) ⟨hx0.le, hxH.trans hHone⟩ u.y (herr'.trans hsmall) _ ⟨hθ0, hθ1⟩ i
  have e2 := hloc u.t (s1.t - u.t) _ hmem (by rw [abs_of_pos hx0]; exact hxH.trans_lt hHr) hθ0 hθ1 i
  rw [div_mul_cancel₀ _ hx0.ne', add_sub_cancel, abs_of_pos hx0] at e2
  rw [hv, hK']
  refine (abs_sub_le _ (denseNew P (s1.t - u.t) ((t - u.t) / (s1.t - u.t)) (y u.t)
    (fun j => stageFn T' f j (u.t, s1.t - u.t, y u.t)) i) _).trans ?_
  have e3 : L * ‖(u.y - y u.t : Fin n → ℝ)‖ ≤ L * (|C1| * H ^ (q + 1)) := mul_le_mul_of_nonneg_left herr' hL
  have e4 : C2 * (s1.t - u.t) ^ (q + 1) ≤ C2 * H ^ (q + 1) := mul_le_mul_of_nonneg_left (pow_le_pow_left₀ hx0.le hxH _) hC2
  have e5 : 0 ≤ |C1| * H ^ (q + 1) := by positivity
  calc _ ≤ L * (|C1| * H ^ (q + 1)) + C2 * H ^ (q + 1) := add_le_add (e1.trans e3) (e2.trans e4)
    _ ≤ ((L + 1) * |C1| + C2) * H ^ (q + 1) := by nlinarith

/-- The error along the steps made before `T₁`, with the dense output inside them. -/
theorem steps_error {T : Tableau ℝ s} {T' : Tableau ℝ (s + 1)} {P : Fin (s + 2) → Fin d → ℝ}
    {cls : Rhs ℝ n → Solver ℝ n 0 X} {starts : Rhs ℝ n → ℝ → Vec ℝ n → St ℝ n 0 X → Prop}
    (hM : ∀ rhs, WellConfigured (cls rhs).method) (h0 : StartsAt cls starts) (hS : RKSteps T cls)
    (hD : DenseSteps T' P cls starts) (hT : Explicit T) (hR : RowSums T) (hT' : Explicit T') (hR' : RowSums T')
    {q : ℕ} (hB : OrderConditions T.A T.B (q + 1)) (hd : q ≤ d) (hP : DenseConditions T'.A P q)
    {f : ℝ → Vec ℝ n → Vec ℝ n} {y : ℝ → Vec ℝ n} {a b t₀ T₁ : ℝ} (hf : ContDiff ℝ (q + 1 : ℕ) (joint f)) (ha : a < t₀) (hb : T₁ < b)
    (hy : ∀ t ∈ Set.Ioo a b, SolvesAt f y t) :
    ∃ C δ, 0 ≤ C ∧ 0 < δ ∧ ∀ (H : ℝ) (s0 u v : St ℝ n 0 X) (l : List (St ℝ n 0 X)), starts (pureRhs f) t₀ (y t₀) s0 → 0 < s0.h →
      0 ≤ H → H ≤ δ → LargestStep (cls (pureRhs f)) s0 T₁ H → Path (cls (pureRhs f)) (cls (pureRhs f)).tBound s0 l u → u.t < T₁ →
      Fits (cls (pureRhs f)).tBound u → Takes (cls (pureRhs f)) u v →
      (∀ i, |u.y i - y u.t i| ≤ C * H ^ (q + 1)) ∧ ∀ t r v', u.t < t → t ≤ v.t →
        ((cls (pureRhs f)).interpolate t).run v = some (.ok r, v') → ∀ i, |r.deref v.cache i - y t i| ≤ C * H ^ (q + 1) := by
  obtain ⟨C, δ, hC, hδ, h⟩ := steps_error_uniform (ι := Unit) (fun _ => hM) (fun _ => h0) (fun _ => hS) (fun _ => hD) hT hR hT' hR' hB hd hP hf
    ha hb hy
  exact ⟨C, δ, hC, hδ, h ()⟩

theorem run_error_uniform {ι : Type} {T : Tableau ℝ s} {T' : Tableau ℝ (s + 1)} {P : Fin (s + 2) → Fin d → ℝ}
    {cls : ι → Rhs ℝ n → Solver ℝ n 0 X} {starts : ι → Rhs ℝ n → ℝ → Vec ℝ n → St ℝ n 0 X → Prop}
    (hM : ∀ o rhs, WellConfigured (cls o rhs).method) (h0 : ∀ o, StartsAt (cls o) (starts o)) (hS : ∀ o, RKSteps T (cls o))
    (hD : ∀ o, DenseSteps T' P (cls o) (starts o)) (hT : Explicit T) (hR : RowSums T) (hT' : Explicit T') (hR' : RowSums T')
    {q : ℕ} (hB : OrderConditions T.A T.B (q + 1)) (hd : q ≤ d) (hP : DenseConditions T'.A P q)
    {f : ℝ → Vec ℝ n → Vec ℝ n} {y : ℝ → Vec ℝ n} {a b t₀ T₁ : ℝ} (hf : ContDiff ℝ (q + 1 : ℕ) (joint f)) (ha : a < t₀) (hb : T₁ < b)
    (hy : ∀ t ∈ Set.Ioo a b, SolvesAt f y t) :
    ∃ C δ, 0 ≤ C ∧ 0 < δ ∧ ∀ (o : ι) (bo : BisectOpts ℝ) (argsort : List ℝ → List Nat), (∀ l, IsArgsort l (argsort l)) →
      ∀ (H : ℝ) (s0 s' : St ℝ n 0 X) (ts : List ℝ) (out : List (ℝ × Vec ℝ n)),
        starts o (pureRhs f) t₀ (y t₀) s0 → 0 < s0.h → 0 ≤ H → H ≤ δ → LargestStep (cls o (pureRhs f)) s0 T₁ H →
        ((cls o (pureRhs f)).run bo argsort ts).run s0 = some (.ok out, s') →
        ∀ r ∈ out, r.1 ≤ T₁ → ∀ d, |r.2 d - y r.1 d| ≤ C * H ^ (q + 1) := by
  obtain ⟨C, δ, hC, hδ, hE⟩ := steps_error_uniform hM h0 hS hD hT hR hT' hR' hB hd hP hf ha hb hy
  refine ⟨C, δ, hC, hδ, fun o bo argsort hA H s0 s' ts out hs0 hh hH0 hH hlarge hrun p hp hpT i => ?_⟩
  have ht0 : s0.t = t₀ := (h0 o).times _ _ _ _ hs0 _
  obtain ⟨s1, rr, s2, hreach, hint, hval⟩ := C20_interpolant (cls o (pureRhs f)) (hM o _) bo argsort hA s0 s0
    ((h0 o).constructed _ _ _ _ hs0) (fun i j _ => by rw [(h0 o).times _ _ _ _ hs0, (h0 o).times _ _ _ _ hs0]) hh (.start s0) ts out s'
    hrun p hp
  have hnn : 0 ≤ C * H ^ (q + 1) := by positivity
  -- the range of the times answered
  have hrange : s1.cache.ts (Buffer.iOld 0) ≤ p.1 ∧ p.1 ≤ s1.t := by
    by_contra hc
    rw [C10_interpolate_outside _ _ _ hc] at hint
    simp at hint
  rcases reach_last hreach with rfl | ⟨l, u, hpath, hu, hfits, htakes⟩
  · have e : p.1 = t₀ := by
      have h1 := hrange.1
      rw [(h0 o).times _ _ _ _ hs0] at h1
      exact le_antisymm (by rw [← ht0]; exact hrange.2) h1
    rw [e] at hint
    rw [← hval, (h0 o).interp _ _ _ _ hs0 rr s2 hint, e]
    simpa using hnn
  · have := (hE o H s0 u s1 l hs0 hh hH0 hH hlarge hpath (hu.trans_le hpT) hfits htakes).2 p.1 rr s2 hu hrange.2 hint i
    rw [hval] at this
    exact this

theorem run_converges {T : Tableau ℝ s} {T' : Tableau ℝ (s + 1)} {P : Fin (s + 2) → Fin d → ℝ}
    {cls : Rhs ℝ n → Solver ℝ n 0 X} {starts : Rhs ℝ n → ℝ → Vec ℝ n → St ℝ n 0 X → Prop}
    (hM : ∀ rhs, WellConfigured (cls rhs).method) (h0 : StartsAt cls starts) (hS : RKSteps T cls)
    (hD : DenseSteps T' P cls starts) (hT : Explicit T) (hR : RowSums T) (hT' : Explicit T') (hR' : RowSums T')
    {q : ℕ} (hB : OrderConditions T.A T.B (q + 1)) (hd : q ≤ d) (hP : DenseConditions T'.A P q) :
    RunConverges cls starts (q + 1) := by
  intro f y a b t₀ T₁ hf ha hb hy
  obtain ⟨C, δ, -, hδ, h⟩ := run_error_uniform (ι := Unit) (fun _ => hM) (fun _ => h0) (fun _ => hS) (fun _ => hD) hT hR hT' hR' hB hd hP hf
    ha hb hy
  exact ⟨C, δ, hδ, h ()⟩

end Nbkode
