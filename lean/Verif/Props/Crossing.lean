import Verif.Spec.Crossing
import Verif.Props.Nearby

/-!
# C115: solutions of one scalar equation do not cross

`nbkode/core.py` (`Solver.run`), `nbkode/runge_kutta/explicit.py`, `nbkode/euler.py`. The distance of two solutions changes in a step
of length `h` by `O(h)` times itself, so it keeps its sign if `h` is small; the same holds inside the step, for the dense output.
-/

set_option autoImplicit false
set_option linter.unusedSectionVars false

namespace Nbkode
open Py Spec Solver

variable {s d : ℕ} {X : Type}

theorem within_one {D : ℝ} {v w : Vec ℝ 1} : Within D v w ↔ |v 0 - w 0| ≤ D :=
  ⟨fun h => h 0, fun h i => by rw [Subsingleton.elim i 0]; exact h⟩

/-- A combination of the stages keeps the order if the step is short. -/
theorem sum_order {m : ℕ} {W : Fin m → ℝ} {K K' : Fin m → Vec ℝ 1} {x M : ℝ} {v w : Vec ℝ 1} (hx : 0 ≤ x) (hv : v 0 < w 0)
    (hK : ∀ j, Within (M * (w 0 - v 0)) (K j) (K' j)) (hs : x * ((∑ j, |W j|) * M) < 1) :
    v 0 + x * ∑ j, W j * K j 0 < w 0 + x * ∑ j, W j * K' j 0 := by
  have h1 : |∑ j, W j * K j 0 - ∑ j, W j * K' j 0| ≤ (∑ j, |W j|) * (M * (w 0 - v 0)) := by
    rw [← Finset.sum_sub_distrib, Finset.sum_mul]
    refine (Finset.abs_sum_le_sum_abs _ _).trans (Finset.sum_le_sum fun j _ => ?_)
    rw [← mul_sub, abs_mul]
    exact mul_le_mul_of_nonneg_left (hK j 0) (abs_nonneg _)
  have h2 : x * (∑ j, W j * K j 0 - ∑ j, W j * K' j 0) ≤ x * ((∑ j, |W j|) * (M * (w 0 - v 0))) :=
    mul_le_mul_of_nonneg_left ((le_abs_self _).trans h1) hx
  have h3 : x * ((∑ j, |W j|) * M) * (w 0 - v 0) < 1 * (w 0 - v 0) := mul_lt_mul_of_pos_right hs (by linarith)
  nlinarith

/-- The states of two solutions after the same number of steps. -/
theorem path_order {k : ℕ} {T : Tableau ℝ s} {cls : Rhs ℝ 1 → Solver ℝ 1 k X} (hM : ∀ rhs, IsFixed (cls rhs).method) (hS : RKSteps T cls)
    {H M : ℝ} {f : ℝ → Vec ℝ 1 → Vec ℝ 1}
    (hst : ∀ (t x : ℝ) (v w : Vec ℝ 1) (K K' : Fin (s + 1) → Vec ℝ 1), v 0 < w 0 → 0 ≤ x → x ≤ H →
      RKStages T (pureRhs f) t x v K → RKStages T (pureRhs f) t x w K' → ∀ i, Within (M * (w 0 - v 0)) (K i) (K' i))
    {b b' : Bound ℝ} {p u : St ℝ 1 k X} {l : List (St ℝ 1 k X)} (hp : Path (cls (pureRhs f)) b p l u) :
    ∀ {q v : St ℝ 1 k X} {l' : List (St ℝ 1 k X)}, Path (cls (pureRhs f)) b' q l' v → l.length = l'.length → p.t = q.t → p.h = q.h → 0 ≤ p.h →
      p.h ≤ H → p.h * ((∑ j, |T.B j|) * M) < 1 → p.f = f p.t p.y → q.f = f q.t q.y → p.y 0 < q.y 0 →
      u.t = v.t ∧ u.h = p.h ∧ v.h = p.h ∧ u.f = f u.t u.y ∧ v.f = f v.t v.y ∧ u.y 0 < v.y 0 := by
  induction hp with
  | nil p =>
    intro q v l' hq hl ht hh h0 hHH hs hf hg hw
    cases hq with
    | nil => exact ⟨ht, rfl, hh.symm, hf, hg, hw⟩
    | cons => simp at hl
  | @cons p p1 u l hfit htk hp ih =>
    intro q v l' hq hl ht hh h0 hHH hs hf hg hw
    cases hq with
    | nil => simp at hl
    | @cons _ q1 _ l' hfit' htk' hq =>
      obtain ⟨x, K, hK, a1, a2, a3⟩ := hS f _ _ hf htk
      obtain ⟨x', K', hK', b1, b2, b3⟩ := hS f _ _ hg htk'
      have c1 := (IsFixed.shaped (hM (pureRhs f))).body_fixed _ _ _ htk
      have c2 := (IsFixed.shaped (hM (pureRhs f))).body_fixed _ _ _ htk'
      have hx : x = p.h := by rw [a1] at c1; exact add_left_cancel c1
      have hx' : x' = p.h := by rw [b1] at c2; exact (add_left_cancel c2).trans hh.symm
      have c3 : p1.h = p.h := (IsFixed.shaped (hM _)).body_h _ _ _ _ htk
      have c4 : q1.h = q.h := (IsFixed.shaped (hM _)).body_h _ _ _ _ htk'
      rw [hx] at hK a1 a2
      rw [hx', ← ht] at hK'
      rw [hx'] at b1 b2
      have hKK := hst _ _ _ _ K K' hw h0 hHH hK hK'
      have hw1 : p1.y 0 < q1.y 0 := by
        rw [a2, b2]
        exact sum_order h0 hw hKK hs
      obtain ⟨r1, r3, r4, r5, r6, r7⟩ := ih hq (by simpa using hl) (by rw [a1, b1, ht]) (by rw [c3, c4, hh]) (by rw [c3]; exact h0)
        (by rw [c3]; exact hHH) (by rw [c3]; exact hs) a3 b3 hw1
      exact ⟨r1, by rw [r3, c3], by rw [r4, c3], r5, r6, r7⟩

theorem keepsOrder {T : Tableau ℝ s} {T' : Tableau ℝ (s + 1)} {P : Fin (s + 2) → Fin d → ℝ} {cls : Rhs ℝ 1 → Solver ℝ 1 0 X}
    {starts : Rhs ℝ 1 → ℝ → Vec ℝ 1 → St ℝ 1 0 X → Prop} (hM : ∀ rhs, IsFixed (cls rhs).method) (h0 : StartsAt cls starts) (hS : RKSteps T cls)
    (hD : DenseSteps T' P cls starts) (hT : Explicit T) (hT' : Explicit T') : KeepsOrder cls starts := by
  intro L hL
  obtain ⟨M, hM0, h1⟩ := stages_near (n := 1) hT hL zero_le_one
  obtain ⟨M', hM0', h2⟩ := stages_near (n := 1) hT' hL zero_le_one
  set B := ∑ j, |T.B j| with hB
  have hB0 : 0 ≤ B := Finset.sum_nonneg fun j _ => abs_nonneg _
  set W := ∑ j, ∑ m, |P j m| with hW
  have hW0 : 0 ≤ W := Finset.sum_nonneg fun j _ => Finset.sum_nonneg fun m _ => abs_nonneg _
  have hQ : 0 < B * M + W * M' + 2 := by positivity
  refine ⟨1 / (B * M + W * M' + 2), by positivity, fun f t0 y0 z0 hf hyz bo argsort hA s s' u u' hs hu hh hpos hhH ts ts' out out'
    hrun hrun' p hp q hq hpq => ?_⟩
  have hhQ : s.h * (B * M + W * M' + 2) ≤ 1 := by rwa [le_div_iff₀ hQ] at hhH
  have hhB : s.h * (B * M) < 1 := by nlinarith [mul_nonneg hpos.le (mul_nonneg hW0 hM0')]
  have hhW : s.h * (W * M') < 1 := by nlinarith [mul_nonneg hpos.le (mul_nonneg hB0 hM0)]
  have hh1 : s.h ≤ 1 := by nlinarith [mul_nonneg hpos.le (mul_nonneg hB0 hM0), mul_nonneg hpos.le (mul_nonneg hW0 hM0')]
  have hff : ∀ t y, Within 0 (f t y) (f t y) := fun t y i => by simp
  have near : ∀ {m : ℕ} {T : Tableau ℝ m} {M : ℝ}, (∀ (f g : ℝ → Vec ℝ 1 → Vec ℝ 1) (t x D ε : ℝ) (v w : Vec ℝ 1) (K K' : Fin (m + 1) → Vec ℝ 1), 0 ≤ ε → SlopeBound L f →
      (∀ t y, Within ε (f t y) (g t y)) → 0 ≤ D → Within D v w → 0 ≤ x → x ≤ 1 → RKStages T (pureRhs f) t x v K →
      RKStages T (pureRhs g) t x w K' → ∀ i, Within (M * (D + ε)) (K i) (K' i)) →
      ∀ (t x : ℝ) (v w : Vec ℝ 1) (K K' : Fin (m + 1) → Vec ℝ 1), v 0 < w 0 → 0 ≤ x → x ≤ 1 →
      RKStages T (pureRhs f) t x v K → RKStages T (pureRhs f) t x w K' → ∀ i, Within (M * (w 0 - v 0)) (K i) (K' i) := by
    intro m T M h t x v w K K' hvw e1 e2 e3 e4 i
    have := h f f t x (w 0 - v 0) 0 v w K K' le_rfl hf hff (by linarith) (within_one.mpr (by rw [abs_sub_comm, abs_of_pos (by linarith)]))
      e1 e2 e3 e4 i
    rwa [add_zero] at this
  have hWC : ∀ rhs, WellConfigured (cls rhs).method := fun rhs => Or.inl (hM rhs)
  have hst0 : s.t = t0 := h0.times _ _ _ _ hs _
  have hut0 : u.t = t0 := h0.times _ _ _ _ hu _
  have hsf : s.f = f s.t s.y := by rw [hst0, h0.y _ _ _ _ hs]; exact (Except.ok.inj (h0.f _ _ _ _ hs)).symm
  have huf : u.f = f u.t u.y := by rw [hut0, h0.y _ _ _ _ hu]; exact (Except.ok.inj (h0.f _ _ _ _ hu)).symm
  have hw0 : s.y 0 < u.y 0 := by rw [h0.y _ _ _ _ hs, h0.y _ _ _ _ hu]; exact hyz
  rcases answer_origin hWC h0 hA hs hpos hrun hp with ⟨a1, a2⟩ | ⟨l, x, v, r, v', a1, a2, a3, a4, a5, a6, a7⟩ <;>
    rcases answer_origin hWC h0 hA hu (hh ▸ hpos) hrun' hq with ⟨b1, b2⟩ | ⟨l', x', w, r', w', b1, b2, b3, b4, b5, b6, b7⟩
  · rw [a2, b2]
    exact hyz
  · have := (path_pos (hWC _) b1 (hh ▸ hpos)).2
    rw [hut0] at this
    rw [← hpq, a1] at b2
    linarith
  · have := (path_pos (hWC _) a1 hpos).2
    rw [hst0] at this
    rw [hpq, b1] at a2
    linarith
  · have t1 : ∀ {rhs : Rhs ℝ 1} {s0 y : St ℝ 1 0 X} {l : List (St ℝ 1 0 X)}, Path (cls rhs) (cls rhs).tBound s0 l y →
        y.t = s0.t + l.length * s0.h ∧ y.h = s0.h := by
      intro rhs s0 y l hp
      induction hp with
      | nil => simp
      | @cons p p1 y l hf ht hp ih =>
        have c1 := (IsFixed.shaped (hM rhs)).body_fixed _ _ _ ht
        have c2 : p1.h = p.h := (IsFixed.shaped (hM rhs)).body_h _ _ _ _ ht
        rw [ih.1, ih.2, c1, c2]
        refine ⟨?_, rfl⟩
        push_cast [List.length_cons]; ring
    have c1 := (IsFixed.shaped (hM (pureRhs f))).body_fixed _ _ _ a5
    have c2 := (IsFixed.shaped (hM (pureRhs f))).body_fixed _ _ _ b5
    have hlen : l.length = l'.length := by
      have e1 := t1 a1
      have e2 := t1 b1
      rw [e1.1, e1.2] at c1
      rw [e2.1, e2.2] at c2
      rw [e1.1] at a2
      rw [e2.1] at b2
      rw [c1] at a3
      rw [c2] at b3
      rw [hut0, ← hst0, ← hh, ← hpq] at b2 b3
      have k1 : (l.length : ℝ) < l'.length + 1 := by
        by_contra hc
        have := mul_le_mul_of_nonneg_right (not_lt.1 hc) hpos.le
        linarith
      have k2 : (l'.length : ℝ) < l.length + 1 := by
        by_contra hc
        have := mul_le_mul_of_nonneg_right (not_lt.1 hc) hpos.le
        linarith
      have k1' : l.length < l'.length + 1 := by exact_mod_cast k1
      have k2' : l'.length < l.length + 1 := by exact_mod_cast k2
      omega
    obtain ⟨r1, r3, r4, r5, r6, r7⟩ := path_order hM hS (H := 1) (M := M) (f := f) (near h1) a1 b1 hlen (hst0.trans hut0.symm) hh hpos.le hh1
      hhB hsf huf hw0
    obtain ⟨K, hK, hKv⟩ := hD f t0 y0 s x v l hs hpos a1 a4 a5 r5 (by rw [c1, r3]; linarith)
    obtain ⟨K', hK', hKw⟩ := hD f t0 z0 u x' w l' hu (hh ▸ hpos) b1 b4 b5 r6 (by rw [c2, r4]; linarith)
    have d1 : v.t - x.t = s.h := by rw [c1, r3]; ring
    have d2 : w.t - x'.t = s.h := by rw [c2, r4]; ring
    have v1 := hKv p.1 r v' a2 a3 a6
    have v2 := hKw q.1 r' w' b2 b3 b6
    rw [a7, d1] at v1
    rw [b7, d2, ← r1, ← hpq] at v2
    rw [d1] at hK
    rw [d2, ← r1] at hK'
    have hθ0 : 0 ≤ (p.1 - x.t) / s.h := div_nonneg (by linarith) hpos.le
    have hθ1 : (p.1 - x.t) / s.h ≤ 1 := (div_le_one hpos).mpr (by rw [← d1]; linarith)
    have hKK := near h2 x.t s.h x.y x'.y K K' r7 hpos.le hh1 hK hK'
    have hwt : ∑ j, |denseWeight P ((p.1 - x.t) / s.h) j| ≤ W := Finset.sum_le_sum fun j _ => denseWeight_le P hθ0 hθ1 j
    have hsm : s.h * ((∑ j, |denseWeight P ((p.1 - x.t) / s.h) j|) * M') < 1 :=
      (mul_le_mul_of_nonneg_left (mul_le_mul_of_nonneg_right hwt hM0') hpos.le).trans_lt hhW
    rw [v1, v2]
    exact sum_order hpos.le r7 hKK hsm

/-- **C115** (partial) The explicit fixed-step Runge-Kutta classes, `Runge2`, `Runge3`, `Heun3`, `RungeKutta4`, `RungeKutta3_8`, keep the order
of the solutions of a scalar equation for ever, if the step is small compared with the slope of the right-hand side. Missing: large
steps, see the refutation. -/
theorem C115_erk_partial {T : Tableau ℝ s} (hT : Explicit T) (b : Bound ℝ) :
    KeepsOrder (fun rhs : Rhs ℝ 1 => (⟨erk T, rhs, b⟩ : Solver ℝ 1 0 (ErkAux ℝ 1 s))) erkStarts :=
  keepsOrder (fun _ => .erk _) (erk_startsAt T b) (erk_steps hT b) (hermite_dense hT (fun _ => .erk _) (fun _ => rfl) (erk_steps hT b) _) hT
    (withLast_explicit hT)

/-- **C115** (partial) `ForwardEuler`. -/
theorem C115_ForwardEuler_partial (b : Bound ℝ) :
    KeepsOrder (fun rhs : Rhs ℝ 1 => (⟨explicitMultistep ForwardEuler, rhs, b⟩ : Solver ℝ 1 0 Unit)) eulerStarts :=
  keepsOrder (fun _ => .explicitMultistep _) (euler_startsAt b) (euler_steps b)
    (hermite_dense eulerTableau_explicit (fun _ => .explicitMultistep _) (fun _ => rfl) (euler_steps b) _) eulerTableau_explicit
    (withLast_explicit eulerTableau_explicit)

/-- **C115** (partial) For the steps of `ForwardEuler`, `h L < 1` is enough: after any number of steps the states are in the order in which they
started. By `C115_refuted` the bound is the best possible. Missing: larger steps, and the dense output between the steps. -/
theorem C115_ForwardEuler_steps_partial (b : Bound ℝ) {L : ℝ} {f : ℝ → Vec ℝ 1 → Vec ℝ 1} (hf : SlopeBound L f) (t0 : ℝ) (y0 z0 : Vec ℝ 1)
    (hyz : y0 0 < z0 0) (s u : St ℝ 1 0 Unit) (hs : eulerStarts (pureRhs f) t0 y0 s) (hu : eulerStarts (pureRhs f) t0 z0 u) (hh : s.h = u.h)
    (h0 : 0 ≤ s.h) (hl : s.h * L < 1) (l l' : List (St ℝ 1 0 Unit)) (v w : St ℝ 1 0 Unit)
    (hv : Path ⟨explicitMultistep ForwardEuler, pureRhs f, b⟩ b s l v) (hw : Path ⟨explicitMultistep ForwardEuler, pureRhs f, b⟩ b u l' w)
    (hn : l.length = l'.length) : v.t = w.t ∧ v.y 0 < w.y 0 := by
  have hi := euler_startsAt (n := 1) b
  have hst : s.t = t0 := hi.times _ _ _ _ hs _
  have hut : u.t = t0 := hi.times _ _ _ _ hu _
  have hsy : s.y = y0 := hi.y _ _ _ _ hs
  have huy : u.y = z0 := hi.y _ _ _ _ hu
  have hsf : s.f = f s.t s.y := by rw [hst, hsy]; exact (Except.ok.inj (hi.f _ _ _ _ hs)).symm
  have huf : u.f = f u.t u.y := by rw [hut, huy]; exact (Except.ok.inj (hi.f _ _ _ _ hu)).symm
  have hK : ∀ {t x : ℝ} {y : Vec ℝ 1} {K : Fin 1 → Vec ℝ 1}, RKStages eulerTableau (pureRhs f) t x y K → ∀ i, K i = f t y := by
    intro t x y K hK i
    have := Except.ok.inj (hK i)
    rw [← this]
    congr 1
    · simp [eulerTableau]
    · funext d
      rw [Finset.sum_eq_zero fun j _ => by simp [eulerTableau], mul_zero, add_zero]
  have hlt : s.y 0 < u.y 0 := by rw [hsy, huy]; exact hyz
  have hB : (∑ j, |eulerTableau.B j|) = 1 := by simp [eulerTableau]
  obtain ⟨r1, -, -, -, -, r2⟩ := path_order (T := eulerTableau) (cls := fun rhs => ⟨explicitMultistep ForwardEuler, rhs, b⟩)
    (fun _ => .explicitMultistep _) (euler_steps b) (H := s.h) (M := L) (f := f) (by
      intro t x v w K K' hvw _ _ e1 e2 i
      rw [hK e1, hK e2]
      exact hf t v w _ (within_one.mpr (by rw [abs_sub_comm, abs_of_pos (by linarith)]))) hv hw hn (hst.trans hut.symm) hh h0 le_rfl
    (by rw [hB, one_mul]; exact hl) hsf huf hlt
  exact ⟨r1, r2⟩

/-- **C115, refuted** for steps that are not small: on `y' = -lam y`, whose solutions never meet, the first step of `ForwardEuler` reverses
the order of any two solutions if `h lam > 1`. -/
theorem C115_refuted (lam : ℝ) (t0 : ℝ) (y0 z0 : Vec ℝ 1) (hyz : y0 0 < z0 0) (b : Bound ℝ) (s u : St ℝ 1 0 Unit)
    (hs : eulerStarts (pureRhs fun _ y i => -lam * y i) t0 y0 s) (hu : eulerStarts (pureRhs fun _ y i => -lam * y i) t0 z0 u)
    (hh : s.h = u.h) (hl : 1 < s.h * lam) :
    ∃ s' u', Takes ⟨explicitMultistep ForwardEuler, pureRhs fun _ y i => -lam * y i, b⟩ s s' ∧
      Takes ⟨explicitMultistep ForwardEuler, pureRhs fun _ y i => -lam * y i, b⟩ u u' ∧ s'.t = u'.t ∧ u'.y 0 < s'.y 0 := by
  have h0 := euler_startsAt (n := 1) b
  have hst : s.t = t0 := h0.times _ _ _ _ hs _
  have hut : u.t = t0 := h0.times _ _ _ _ hu _
  have hsy : s.y = y0 := h0.y _ _ _ _ hs
  have huy : u.y = z0 := h0.y _ _ _ _ hu
  have hsf : s.f = fun i => -lam * s.y i := by rw [hsy]; exact (Except.ok.inj (h0.f _ _ _ _ hs)).symm
  have huf : u.f = fun i => -lam * u.y i := by rw [huy]; exact (Except.ok.inj (h0.f _ _ _ _ hu)).symm
  have key : ∀ v : St ℝ 1 0 Unit, (v.f = fun i => -lam * v.y i) → ∃ v', Takes ⟨explicitMultistep ForwardEuler, pureRhs fun _ y i => -lam * y i, b⟩ v v' ∧
      v'.t = v.t + v.h ∧ v'.y 0 = v.y 0 * (1 - v.h * lam) := by
    intro v hv
    have hT : ∃ v', Takes ⟨explicitMultistep ForwardEuler, pureRhs fun _ y i => -lam * y i, b⟩ v v' := ⟨_, rfl⟩
    obtain ⟨v', hT⟩ := hT
    have c1 := (IsFixed.shaped (IsFixed.explicitMultistep (n := 1) (ForwardEuler : MultistepCoef ℝ 0))).body_fixed _ _ _ hT
    obtain ⟨x, K, hK, e1, e2, -⟩ := euler_steps b (fun _ y i => -lam * y i) v v' hv hT
    have hx : x = v.h := by rw [e1] at c1; exact add_left_cancel c1
    have hK0 : K 0 = fun i => -lam * v.y i := by
      have := Except.ok.inj (hK 0)
      rw [← this]
      funext i
      show -lam * (v.y i + x * ∑ j, eulerTableau.A 0 j * K j i) = _
      rw [Finset.sum_eq_zero fun j _ => by simp [eulerTableau], mul_zero, add_zero]
    refine ⟨v', hT, c1, ?_⟩
    have e3 : v'.y 0 = v.y 0 + v.h * K 0 0 := by
      rw [e2, hx]
      simp [rkNew, eulerTableau]
      rfl
    rw [e3, congrFun hK0 0]
    ring
  obtain ⟨s', a1, a2, a3⟩ := key s hsf
  obtain ⟨u', b1, b2, b3⟩ := key u huf
  refine ⟨s', u', a1, b1, by rw [a2, b2, hst, hut, hh], ?_⟩
  rw [a3, b3, ← hh, hsy, huy]
  nlinarith

namespace Demo

/-- Non-vacuity: `ForwardEuler` solvers with a given step size can be constructed. -/
theorem euler_started (rhs : ℝ → Vec ℝ 1 → Vec ℝ 1) (t0 h : ℝ) (y0 : Vec ℝ 1) :
    ∃ s : St ℝ 1 0 Unit, eulerStarts (pureRhs rhs) t0 y0 s ∧ s.h = h :=
  ⟨_, ⟨⟨0, 0, 0⟩, .std, fun _ => [], .none, some h, rfl⟩, rfl⟩

/-- On `y' = -3 y` with `h = 1/4`, from 1 and 2, for ever. -/
example (l l' : List (St ℝ 1 0 Unit)) (s u v w : St ℝ 1 0 Unit) (hs : eulerStarts (pureRhs fun _ y i => -3 * y i) 0 (fun _ => 1) s)
    (hu : eulerStarts (pureRhs fun _ y i => -3 * y i) 0 (fun _ => 2) u) (h1 : s.h = 1/4) (h2 : u.h = 1/4)
    (hv : Path ⟨explicitMultistep ForwardEuler, pureRhs fun _ y i => -3 * y i, .inf⟩ .inf s l v)
    (hw : Path ⟨explicitMultistep ForwardEuler, pureRhs fun _ y i => -3 * y i, .inf⟩ .inf u l' w) (hn : l.length = l'.length) :
    v.t = w.t ∧ v.y 0 < w.y 0 :=
  C115_ForwardEuler_steps_partial .inf (L := 3) (f := fun _ y i => -3 * y i) (by
    intro t y z D hD i
    show |-3 * y i - -3 * z i| ≤ 3 * D
    rw [← mul_sub, abs_mul]
    norm_num
    exact hD i) 0 _ _ (by norm_num) s u hs hu (h1.trans h2.symm) (by rw [h1]; norm_num) (by rw [h1]; norm_num) l l' v w hv hw hn

/-- On `y' = -3 y` with `h = 1`, from 1 and 2. -/
example : ∃ s u s' u' : St ℝ 1 0 Unit, s.y 0 < u.y 0 ∧
    Takes ⟨explicitMultistep ForwardEuler, pureRhs fun _ y i => -3 * y i, .inf⟩ s s' ∧
    Takes ⟨explicitMultistep ForwardEuler, pureRhs fun _ y i => -3 * y i, .inf⟩ u u' ∧ s'.t = u'.t ∧ u'.y 0 < s'.y 0 := by
  obtain ⟨s, hs, h1⟩ := euler_started (fun _ y i => -3 * y i) 0 1 fun _ => 1
  obtain ⟨u, hu, h2⟩ := euler_started (fun _ y i => -3 * y i) 0 1 fun _ => 2
  obtain ⟨s', u', a, b, c, d⟩ := C115_refuted 3 0 (fun _ => 1) (fun _ => 2) (by norm_num) .inf s u hs hu (h1.trans h2.symm) (by rw [h1]; norm_num)
  have h0 := euler_startsAt (n := 1) .inf
  exact ⟨s, u, s', u', by rw [h0.y _ _ _ _ hs, h0.y _ _ _ _ hu]; norm_num, a, b, c, d⟩

/-- C115 applies to `y' = -sin y`: with `RungeKutta4` and a small step, what starts at 0 stays below what starts at 1. -/
example (b : Bound ℝ) : ∃ H : ℝ, 0 < H ∧ ∀ (bo : BisectOpts ℝ) (argsort : List ℝ → List Nat), (∀ l, IsArgsort l (argsort l)) →
    ∀ s s' u u' : St ℝ 1 0 (ErkAux ℝ 1 3), erkStarts (pureRhs fun _ y i => -Real.sin (y i)) 0 (fun _ => 0) s →
    erkStarts (pureRhs fun _ y i => -Real.sin (y i)) 0 (fun _ => 1) u → s.h = u.h → 0 < s.h → s.h ≤ H →
    ∀ (ts ts' : List ℝ) (out out' : List (ℝ × Vec ℝ 1)),
      (Solver.run ⟨erk RungeKutta4, pureRhs fun _ y i => -Real.sin (y i), b⟩ bo argsort ts).run s = some (.ok out, s') →
      (Solver.run ⟨erk RungeKutta4, pureRhs fun _ y i => -Real.sin (y i), b⟩ bo argsort ts').run u = some (.ok out', u') →
      ∀ p ∈ out, ∀ q ∈ out', p.1 = q.1 → p.2 0 < q.2 0 := by
  obtain ⟨H, h0, hH⟩ := C115_erk_partial RungeKutta4_conditions.explicit b 1 zero_le_one
  refine ⟨H, h0, hH _ 0 _ _ ?_ (by norm_num)⟩
  intro t y z D hD i
  show |-Real.sin (y i) - -Real.sin (z i)| ≤ 1 * D
  have h3 := Real.abs_sin_sub_sin_le (y i) (z i)
  rw [neg_sub_neg, abs_sub_comm, one_mul]
  exact h3.trans (hD i)

end Demo
end Nbkode
