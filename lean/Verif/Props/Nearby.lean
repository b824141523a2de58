import Verif.Spec.Nearby
import Verif.Props.RunError
import Verif.Props.Controller
import Verif.Props.Tolerance
import Verif.Props.RealLib
import Mathlib.LinearAlgebra.Lagrange

/-!
# C107: nearby problems get nearby answers

`nbkode/core.py` (`Solver.run`, `Solver.interpolate`), `nbkode/runge_kutta/explicit.py`, `nbkode/euler.py`. `NearbyAnswers` and `AnswersJump` are in
`Spec/Nearby.lean`.

* With a fixed step, the answers of an explicit Runge-Kutta method depend on the problem in a Lipschitz way, and the constant does not depend on the step
  (`C107_erk`, `C107_ForwardEuler`): one step moves two nearby solutions apart by a factor `1 + O(h)`, and `run` looks at both at the same place of the
  same step.
* With a variable step they need not depend on it even continuously (`C107_refuted_RungeKutta45`, `C107_refuted_RungeKutta23`). The right-hand side of the
  counterexample depends on time only, so the exact solutions of the two problems differ by a constant. The error of the first step is put at the boundary
  between accepting and rejecting, and the initial state decides on which side it falls. Both answers are within what the tolerances promise: this says
  that the answers of these solvers cannot be differentiated numerically at a scale below the tolerance.
-/

set_option autoImplicit false
set_option linter.unusedSectionVars false

namespace Nbkode
open Py Spec Solver

variable {n s d : ℕ} {X : Type}

/-- The stages of two nearby problems. -/
theorem stages_near {T : Tableau ℝ s} (hT : Explicit T) {L H : ℝ} (hL : 0 ≤ L) (hH : 0 ≤ H) :
    ∃ M, 0 ≤ M ∧ ∀ (f g : ℝ → Vec ℝ n → Vec ℝ n) (t x D ε : ℝ) (v w : Vec ℝ n) (K K' : Fin (s + 1) → Vec ℝ n), 0 ≤ ε → SlopeBound L f →
      (∀ t y, Within ε (f t y) (g t y)) → 0 ≤ D → Within D v w → 0 ≤ x → x ≤ H → RKStages T (pureRhs f) t x v K →
      RKStages T (pureRhs g) t x w K' → ∀ i, Within (M * (D + ε)) (K i) (K' i) := by
  set a := ∑ i, ∑ j, |T.A i j| with ha
  have ha0 : 0 ≤ a := Finset.sum_nonneg fun i _ => Finset.sum_nonneg fun j _ => abs_nonneg _
  suffices h : ∀ m : ℕ, ∃ M, 0 ≤ M ∧ ∀ (f g : ℝ → Vec ℝ n → Vec ℝ n) (t x D ε : ℝ) (v w : Vec ℝ n) (K K' : Fin (s + 1) → Vec ℝ n), 0 ≤ ε →
      SlopeBound L f → (∀ t y, Within ε (f t y) (g t y)) → 0 ≤ D → Within D v w → 0 ≤ x → x ≤ H → RKStages T (pureRhs f) t x v K →
      RKStages T (pureRhs g) t x w K' → ∀ i : Fin (s + 1), i.val < m → Within (M * (D + ε)) (K i) (K' i) by
    obtain ⟨M, h0, h⟩ := h (s + 1)
    exact ⟨M, h0, fun f g t x D ε v w K K' e1 e2 e3 e4 e5 e6 e7 e8 e9 i => h f g t x D ε v w K K' e1 e2 e3 e4 e5 e6 e7 e8 e9 i i.isLt⟩
  intro m
  induction m with
  | zero => exact ⟨0, le_rfl, fun _ _ _ _ _ _ _ _ _ _ _ _ _ _ _ _ _ _ _ i hi => absurd hi (Nat.not_lt_zero _)⟩
  | succ m ih =>
    obtain ⟨M, hM, ih⟩ := ih
    refine ⟨L * (1 + H * (a * M)) + 1 + M, by positivity, fun f g t x D ε v w K K' e1 e2 e3 e4 e5 e6 e7 e8 e9 i hi => ?_⟩
    have hE : 0 ≤ D + ε := by positivity
    have ih' := ih f g t x D ε v w K K' e1 e2 e3 e4 e5 e6 e7 e8 e9
    have hrow : ∑ j, |T.A i j| ≤ a := Finset.single_le_sum (f := fun i => ∑ j, |T.A i j|) (fun i _ => Finset.sum_nonneg fun j _ => abs_nonneg _) (Finset.mem_univ i)
    have hy : Within ((1 + H * (a * M)) * (D + ε)) (fun d => v d + x * ∑ j, T.A i j * K j d) (fun d => w d + x * ∑ j, T.A i j * K' j d) := by
      intro d
      have h1 : |∑ j, T.A i j * K j d - ∑ j, T.A i j * K' j d| ≤ a * (M * (D + ε)) := by
        rw [← Finset.sum_sub_distrib]
        calc |∑ j, (T.A i j * K j d - T.A i j * K' j d)| ≤ ∑ j, |T.A i j| * (M * (D + ε)) := by
              refine (Finset.abs_sum_le_sum_abs _ _).trans (Finset.sum_le_sum fun j _ => ?_)
              rw [← mul_sub, abs_mul]
              by_cases hj : j < i
              · exact mul_le_mul_of_nonneg_left (ih' j (by have : j.val < i.val := hj; omega) d) (abs_nonneg _)
              · rw [hT.upper i j (not_lt.1 hj), abs_zero, zero_mul, zero_mul]
          _ = (∑ j, |T.A i j|) * (M * (D + ε)) := (Finset.sum_mul ..).symm
          _ ≤ a * (M * (D + ε)) := mul_le_mul_of_nonneg_right hrow (by positivity)
      have h2 : v d + x * ∑ j, T.A i j * K j d - (w d + x * ∑ j, T.A i j * K' j d) =
          (v d - w d) + x * (∑ j, T.A i j * K j d - ∑ j, T.A i j * K' j d) := by ring
      rw [h2]
      refine (abs_add_le _ _).trans ?_
      rw [abs_mul, abs_of_nonneg e6]
      have h3 : x * |∑ j, T.A i j * K j d - ∑ j, T.A i j * K' j d| ≤ H * (a * (M * (D + ε))) :=
        mul_le_mul e7 h1 (abs_nonneg _) hH
      have h4 := e5 d
      nlinarith
    have k1 : f (t + T.C i * x) (fun d => v d + x * ∑ j, T.A i j * K j d) = K i := Except.ok.inj (e8 i)
    have k2 : g (t + T.C i * x) (fun d => w d + x * ∑ j, T.A i j * K' j d) = K' i := Except.ok.inj (e9 i)
    intro d
    have h5 := e2 (t + T.C i * x) _ _ _ hy d
    have h6 := e3 (t + T.C i * x) (fun d => w d + x * ∑ j, T.A i j * K' j d) d
    rw [k1] at h5
    rw [k2] at h6
    have h7 := abs_sub_le (K i d) (f (t + T.C i * x) (fun d => w d + x * ∑ j, T.A i j * K' j d) d) (K' i d)
    have h8 : 0 ≤ M * (D + ε) := by positivity
    nlinarith

/-- A combination of the stages. -/
theorem sum_near {m : ℕ} {W : Fin m → ℝ} {K K' : Fin m → Vec ℝ n} {x D E : ℝ} {v w : Vec ℝ n} (hx : 0 ≤ x) (hv : Within D v w)
    (hK : ∀ j, Within E (K j) (K' j)) :
    Within (D + x * ((∑ j, |W j|) * E)) (fun d => v d + x * ∑ j, W j * K j d) (fun d => w d + x * ∑ j, W j * K' j d) := by
  intro d
  have h1 : |∑ j, W j * K j d - ∑ j, W j * K' j d| ≤ (∑ j, |W j|) * E := by
    rw [← Finset.sum_sub_distrib, Finset.sum_mul]
    refine (Finset.abs_sum_le_sum_abs _ _).trans (Finset.sum_le_sum fun j _ => ?_)
    rw [← mul_sub, abs_mul]
    exact mul_le_mul_of_nonneg_left (hK j d) (abs_nonneg _)
  have h2 : v d + x * ∑ j, W j * K j d - (w d + x * ∑ j, W j * K' j d) = (v d - w d) + x * (∑ j, W j * K j d - ∑ j, W j * K' j d) := by ring
  show |v d + x * ∑ j, W j * K j d - (w d + x * ∑ j, W j * K' j d)| ≤ _
  rw [h2]
  refine (abs_add_le _ _).trans (add_le_add (hv d) ?_)
  rw [abs_mul, abs_of_nonneg hx]
  exact mul_le_mul_of_nonneg_left h1 hx

/-- The states of two nearby problems after the same number of steps. -/
theorem path_near {k : ℕ} {T : Tableau ℝ s} {cls : Rhs ℝ n → Solver ℝ n k X} (hM : ∀ rhs, IsFixed (cls rhs).method) (hS : RKSteps T cls) {L H M : ℝ}
    (hH : 0 ≤ H) (hM0 : 0 ≤ M) {f g : ℝ → Vec ℝ n → Vec ℝ n} {ε : ℝ} (hε : 0 ≤ ε)
    (hst : ∀ (t x D : ℝ) (v w : Vec ℝ n) (K K' : Fin (s + 1) → Vec ℝ n), 0 ≤ D → Within D v w → 0 ≤ x → x ≤ H →
      RKStages T (pureRhs f) t x v K → RKStages T (pureRhs g) t x w K' → ∀ i, Within (M * (D + ε)) (K i) (K' i))
    {b b' : Bound ℝ} {p u : St ℝ n k X} {l : List (St ℝ n k X)} (hp : Path (cls (pureRhs f)) b p l u) :
    ∀ {q v : St ℝ n k X} {l' : List (St ℝ n k X)} {D : ℝ}, Path (cls (pureRhs g)) b' q l' v → l.length = l'.length → p.t = q.t → p.h = q.h → 0 ≤ p.h →
      p.h ≤ H → p.f = f p.t p.y → q.f = g q.t q.y → 0 ≤ D → Within D p.y q.y →
      u.t = v.t ∧ u.t = p.t + l.length * p.h ∧ u.h = p.h ∧ v.h = p.h ∧ u.f = f u.t u.y ∧ v.f = g v.t v.y ∧
        ∃ D', 0 ≤ D' ∧ Within D' u.y v.y ∧ D' + ε ≤ Real.exp ((∑ j, |T.B j|) * M * (l.length * p.h)) * (D + ε) := by
  induction hp with
  | nil p =>
    intro q v l' D hq hl ht hh h0 hHH hf hg hD hw
    cases hq with
    | nil => exact ⟨ht, by simp, rfl, hh.symm, hf, hg, D, hD, hw, by simp⟩
    | cons => simp at hl
  | @cons p p1 u l hfit htk hp ih =>
    intro q v l' D hq hl ht hh h0 hHH hf hg hD hw
    cases hq with
    | nil => simp at hl
    | @cons _ q1 _ l' hfit' htk' hq =>
      obtain ⟨x, K, hK, a1, a2, a3⟩ := hS f _ _ hf htk
      obtain ⟨x', K', hK', b1, b2, b3⟩ := hS g _ _ hg htk'
      have c1 := (IsFixed.shaped (hM (pureRhs f))).body_fixed _ _ _ htk
      have c2 := (IsFixed.shaped (hM (pureRhs g))).body_fixed _ _ _ htk'
      have hx : x = p.h := by rw [a1] at c1; exact add_left_cancel c1
      have hx' : x' = p.h := by rw [b1] at c2; exact (add_left_cancel c2).trans hh.symm
      have c3 : p1.h = p.h := (IsFixed.shaped (hM _)).body_h _ _ _ _ htk
      have c4 : q1.h = q.h := (IsFixed.shaped (hM _)).body_h _ _ _ _ htk'
      rw [hx] at hK a1 a2
      rw [hx', ← ht] at hK' 
      rw [hx'] at b1 b2
      have hKK := hst _ _ D _ _ K K' hD hw h0 hHH hK hK'
      have hw1 : Within (D + p.h * ((∑ j, |T.B j|) * (M * (D + ε)))) p1.y q1.y := by
        rw [a2, b2]
        exact sum_near h0 hw hKK
      have hS0 : 0 ≤ ∑ j, |T.B j| := Finset.sum_nonneg fun j _ => abs_nonneg _
      obtain ⟨r1, r2, r3, r4, r5, r6, D', r7, r8, r9⟩ := ih hq (by simpa using hl) (by rw [a1, b1, ht]) (by rw [c3, c4, hh]) (by rw [c3]; exact h0)
        (by rw [c3]; exact hHH) a3 b3 (by positivity) hw1
      refine ⟨r1, ?_, by rw [r3, c3], by rw [r4, c3], r5, r6, D', r7, r8, r9.trans ?_⟩
      · rw [r2, a1, c3]; push_cast [List.length_cons]; ring
      · rw [c3]
        have e1 : D + p.h * ((∑ j, |T.B j|) * (M * (D + ε))) + ε = (1 + (∑ j, |T.B j|) * M * p.h) * (D + ε) := by ring
        have e2 : 1 + (∑ j, |T.B j|) * M * p.h ≤ Real.exp ((∑ j, |T.B j|) * M * p.h) := by
          have := Real.add_one_le_exp ((∑ j, |T.B j|) * M * p.h); linarith
        have e3 : (∑ j, |T.B j|) * M * (((l.length + 1 : ℕ) : ℝ) * p.h) = (∑ j, |T.B j|) * M * (l.length * p.h) + (∑ j, |T.B j|) * M * p.h := by
          push_cast; ring
        rw [e1, List.length_cons, e3, Real.exp_add, mul_assoc (Real.exp _)]
        exact mul_le_mul_of_nonneg_left (mul_le_mul_of_nonneg_right e2 (add_nonneg hD hε)) (Real.exp_pos _).le

/-- Where an answer of `run` comes from: the initial state, or the dense output of the step that reaches its time. -/
theorem answer_origin {cls : Rhs ℝ n → Solver ℝ n 0 X} {starts : Rhs ℝ n → ℝ → Vec ℝ n → St ℝ n 0 X → Prop}
    (hM : ∀ rhs, WellConfigured (cls rhs).method) (h0 : StartsAt cls starts) {f : ℝ → Vec ℝ n → Vec ℝ n} {t0 : ℝ} {y0 : Vec ℝ n} {bo : BisectOpts ℝ}
    {argsort : List ℝ → List Nat} (hA : ∀ l, IsArgsort l (argsort l)) {s0 s' : St ℝ n 0 X} {ts : List ℝ} {out : List (ℝ × Vec ℝ n)}
    (hs0 : starts (pureRhs f) t0 y0 s0) (hh : 0 < s0.h) (hrun : ((cls (pureRhs f)).run bo argsort ts).run s0 = some (.ok out, s'))
    {p : ℝ × Vec ℝ n} (hp : p ∈ out) :
    (p.1 = t0 ∧ p.2 = y0) ∨ ∃ l u v r v', Path (cls (pureRhs f)) (cls (pureRhs f)).tBound s0 l u ∧ u.t < p.1 ∧ p.1 ≤ v.t ∧
      Fits (cls (pureRhs f)).tBound u ∧ Takes (cls (pureRhs f)) u v ∧
      ((cls (pureRhs f)).interpolate p.1).run v = some (.ok r, v') ∧ r.deref v.cache = p.2 := by
  have ht0 : s0.t = t0 := h0.times _ _ _ _ hs0 _
  obtain ⟨s1, rr, s2, hreach, hint, hval⟩ := C20_interpolant (cls (pureRhs f)) (hM _) bo argsort hA s0 s0
    (h0.constructed _ _ _ _ hs0) (fun i j _ => by rw [h0.times _ _ _ _ hs0, h0.times _ _ _ _ hs0]) hh (.start s0) ts out s' hrun p hp
  have hrange : s1.cache.ts (Buffer.iOld 0) ≤ p.1 ∧ p.1 ≤ s1.t := by
    by_contra hc
    rw [C10_interpolate_outside _ _ _ hc] at hint
    simp at hint
  rcases reach_last hreach with rfl | ⟨l, u, hpath, hu, hfits, htakes⟩
  · have e : p.1 = t0 := by
      have h1 := hrange.1
      rw [h0.times _ _ _ _ hs0] at h1
      exact le_antisymm (by rw [← ht0]; exact hrange.2) h1
    left
    rw [e] at hint
    exact ⟨e, by rw [← hval, h0.interp _ _ _ _ hs0 rr s2 hint]⟩
  · exact Or.inr ⟨l, u, s1, rr, s2, hpath, hu, hrange.2, hfits, htakes, hint, hval⟩

theorem denseWeight_le (P : Fin s → Fin d → ℝ) {θ : ℝ} (h0 : 0 ≤ θ) (h1 : θ ≤ 1) (j : Fin s) : |denseWeight P θ j| ≤ ∑ m, |P j m| := by
  refine (Finset.abs_sum_le_sum_abs _ _).trans (Finset.sum_le_sum fun m _ => ?_)
  rw [abs_mul, abs_of_nonneg (pow_nonneg h0 _)]
  exact mul_le_of_le_one_right (abs_nonneg _) (pow_le_one₀ h0 h1)

theorem nearby {T : Tableau ℝ s} {T' : Tableau ℝ (s + 1)} {P : Fin (s + 2) → Fin d → ℝ} {cls : Rhs ℝ n → Solver ℝ n 0 X}
    {starts : Rhs ℝ n → ℝ → Vec ℝ n → St ℝ n 0 X → Prop} (hM : ∀ rhs, IsFixed (cls rhs).method) (h0 : StartsAt cls starts) (hS : RKSteps T cls)
    (hD : DenseSteps T' P cls starts) (hT : Explicit T) (hT' : Explicit T') : NearbyAnswers cls starts := by
  intro L T₁ H hL hT0 hH
  obtain ⟨M, hM0, h1⟩ := stages_near (n := n) hT hL hH
  obtain ⟨M', hM0', h2⟩ := stages_near (n := n) hT' hL hH
  set B := ∑ j, |T.B j| with hB
  have hB0 : 0 ≤ B := Finset.sum_nonneg fun j _ => abs_nonneg _
  set W := ∑ j, ∑ m, |P j m| with hW
  have hW0 : 0 ≤ W := Finset.sum_nonneg fun j _ => Finset.sum_nonneg fun m _ => abs_nonneg _
  refine ⟨(1 + H * (W * M')) * (Real.exp (B * M * T₁) * 2), fun f g t0 y0 z0 ε hε hf hfg hyz bo argsort hA s s' u u' hs hu hh hpos hhH ts out out'
    hrun hrun' p hp q hq hpq hpT => ?_⟩
  have hWC : ∀ rhs, WellConfigured (cls rhs).method := fun rhs => Or.inl (hM rhs)
  have hC1 : 1 ≤ (1 + H * (W * M')) * (Real.exp (B * M * T₁) * 2) := by
    have e1 : 1 ≤ 1 + H * (W * M') := by have : 0 ≤ H * (W * M') := by positivity
                                         linarith
    have e2 : 1 ≤ Real.exp (B * M * T₁) * 2 := by
      have : 1 ≤ Real.exp (B * M * T₁) := Real.one_le_exp (by positivity)
      linarith
    exact one_le_mul_of_one_le_of_one_le e1 e2
  have hst0 : s.t = t0 := h0.times _ _ _ _ hs _
  have hut0 : u.t = t0 := h0.times _ _ _ _ hu _
  have hsf : s.f = f s.t s.y := by rw [hst0, h0.y _ _ _ _ hs]; exact (Except.ok.inj (h0.f _ _ _ _ hs)).symm
  have huf : u.f = g u.t u.y := by rw [hut0, h0.y _ _ _ _ hu]; exact (Except.ok.inj (h0.f _ _ _ _ hu)).symm
  have hw0 : Within ε s.y u.y := by rw [h0.y _ _ _ _ hs, h0.y _ _ _ _ hu]; exact hyz
  rcases answer_origin hWC h0 hA hs hpos hrun hp with ⟨a1, a2⟩ | ⟨l, x, v, r, v', a1, a2, a3, a4, a5, a6, a7⟩ <;>
    rcases answer_origin hWC h0 hA hu (hh ▸ hpos) hrun' hq with ⟨b1, b2⟩ | ⟨l', x', w, r', w', b1, b2, b3, b4, b5, b6, b7⟩
  · rw [a2, b2]
    intro i
    exact (hyz i).trans (le_mul_of_one_le_left hε hC1)
  · have := (path_pos (hWC _) b1 (hh ▸ hpos)).2
    rw [hut0] at this
    rw [← hpq, a1] at b2
    linarith
  · have := (path_pos (hWC _) a1 hpos).2
    rw [hst0] at this
    rw [hpq, b1] at a2
    linarith
  · have t1 : ∀ {rhs : Rhs ℝ n} {s0 y : St ℝ n 0 X} {l : List (St ℝ n 0 X)}, Path (cls rhs) (cls rhs).tBound s0 l y →
        y.t = s0.t + l.length * s0.h ∧ y.h = s0.h := by
      intro rhs s0 y l hp
      induction hp with
      | nil => simp
      | @cons p p1 y l hf ht hp ih =>
        have c1 := (IsFixed.shaped (hM rhs)).body_fixed _ _ _ ht
        have c2 : p1.h = p.h := (IsFixed.shaped (hM rhs)).body_h _ _ _ _ ht
        rw [ih.1, ih.2, c1, c2]
        refine ⟨?_, rfl⟩
        push_cast [List.length_cons]; ring
    have c1 := (IsFixed.shaped (hM (pureRhs f))).body_fixed _ _ _ a5
    have c2 := (IsFixed.shaped (hM (pureRhs g))).body_fixed _ _ _ b5
    have hlen : l.length = l'.length := by
      have e1 := t1 a1
      have e2 := t1 b1
      rw [e1.1, e1.2] at c1
      rw [e2.1, e2.2] at c2
      rw [e1.1] at a2
      rw [e2.1] at b2
      rw [c1] at a3
      rw [c2] at b3
      rw [hut0, ← hst0, ← hh, ← hpq] at b2 b3
      have k1 : (l.length : ℝ) < l'.length + 1 := by
        by_contra hc
        have := mul_le_mul_of_nonneg_right (not_lt.1 hc) hpos.le
        linarith
      have k2 : (l'.length : ℝ) < l.length + 1 := by
        by_contra hc
        have := mul_le_mul_of_nonneg_right (not_lt.1 hc) hpos.le
        linarith
      have k1' : l.length < l'.length + 1 := by exact_mod_cast k1
      have k2' : l'.length < l.length + 1 := by exact_mod_cast k2
      omega
    obtain ⟨r1, r2, r3, r4, r5, r6, D, r7, r8, r9⟩ := path_near hM hS (L := L) hH hM0 hε
      (fun t x D v w K K' e4 e5 e6 e7 e8 e9 => h1 f g t x D ε v w K K' hε hf hfg e4 e5 e6 e7 e8 e9) a1 b1 hlen (hst0.trans hut0.symm) hh hpos.le hhH
      hsf huf hε hw0
    obtain ⟨K, hK, hKv⟩ := hD f t0 y0 s x v l hs hpos a1 a4 a5 r5 (by rw [c1, r3]; linarith)
    obtain ⟨K', hK', hKw⟩ := hD g t0 z0 u x' w l' hu (hh ▸ hpos) b1 b4 b5 r6 (by rw [c2, r4]; linarith)
    have d1 : v.t - x.t = s.h := by rw [c1, r3]; ring
    have d2 : w.t - x'.t = s.h := by rw [c2, r4]; ring
    have v1 := hKv p.1 r v' a2 a3 a6
    have v2 := hKw q.1 r' w' b2 b3 b6
    rw [a7, d1] at v1
    rw [b7, d2, ← r1, ← hpq] at v2
    rw [d1] at hK
    rw [d2, ← r1] at hK'
    have hθ0 : 0 ≤ (p.1 - x.t) / s.h := div_nonneg (by linarith) hpos.le
    have hθ1 : (p.1 - x.t) / s.h ≤ 1 := (div_le_one hpos).mpr (by rw [← d1]; linarith)
    have hKK := h2 f g x.t s.h D ε x.y x'.y K K' hε hf hfg r7 r8 hpos.le hhH hK hK'
    have hnear := sum_near (W := denseWeight P ((p.1 - x.t) / s.h)) hpos.le r8 hKK
    have hwt : ∑ j, |denseWeight P ((p.1 - x.t) / s.h) j| ≤ W := Finset.sum_le_sum fun j _ => denseWeight_le P hθ0 hθ1 j
    have hle : s.h * ((∑ j, |denseWeight P ((p.1 - x.t) / s.h) j|) * (M' * (D + ε))) ≤ H * (W * (M' * (D + ε))) :=
      mul_le_mul hhH (mul_le_mul_of_nonneg_right hwt (by positivity)) (by positivity) hH
    have htl : (l.length : ℝ) * s.h ≤ T₁ := by
      have := r2; rw [hst0] at this; linarith
    have hexp : D + ε ≤ Real.exp (B * M * T₁) * 2 * ε := by
      refine r9.trans ?_
      have : Real.exp (B * M * (l.length * s.h)) ≤ Real.exp (B * M * T₁) :=
        Real.exp_le_exp.2 (mul_le_mul_of_nonneg_left htl (by positivity))
      nlinarith
    intro i
    rw [v1, v2]
    refine (hnear i).trans ?_
    have h9 : D + H * (W * (M' * (D + ε))) ≤ (1 + H * (W * M')) * (D + ε) := by nlinarith
    calc D + s.h * ((∑ j, |denseWeight P ((p.1 - x.t) / s.h) j|) * (M' * (D + ε))) ≤ (1 + H * (W * M')) * (D + ε) := by linarith
      _ ≤ (1 + H * (W * M')) * (Real.exp (B * M * T₁) * 2 * ε) := mul_le_mul_of_nonneg_left hexp (by positivity)
      _ = _ := by ring

/-- **C107**, fixed-step Runge-Kutta classes: `Runge2`, `Runge3`, `Heun3`, `RungeKutta4`, `RungeKutta3_8`. -/
theorem C107_erk {T : Tableau ℝ s} (hT : Explicit T) (b : Bound ℝ) :
    NearbyAnswers (fun rhs : Rhs ℝ n => (⟨erk T, rhs, b⟩ : Solver ℝ n 0 (ErkAux ℝ n s))) erkStarts :=
  nearby (fun _ => .erk _) (erk_startsAt T b) (erk_steps hT b) (hermite_dense hT (fun _ => .erk _) (fun _ => rfl) (erk_steps hT b) _) hT
    (withLast_explicit hT)

/-- **C107**, `Runge2`. -/
theorem C107_Runge2 (b : Bound ℝ) :
    NearbyAnswers (fun rhs : Rhs ℝ n => (⟨erk Runge2, rhs, b⟩ : Solver ℝ n 0 (ErkAux ℝ n 1))) erkStarts :=
  C107_erk Runge2_conditions.explicit b

/-- **C107**, `Runge3`. -/
theorem C107_Runge3 (b : Bound ℝ) :
    NearbyAnswers (fun rhs : Rhs ℝ n => (⟨erk Runge3, rhs, b⟩ : Solver ℝ n 0 (ErkAux ℝ n 3))) erkStarts :=
  C107_erk Runge3_conditions.explicit b

/-- **C107**, `Heun3`. -/
theorem C107_Heun3 (b : Bound ℝ) :
    NearbyAnswers (fun rhs : Rhs ℝ n => (⟨erk Heun3, rhs, b⟩ : Solver ℝ n 0 (ErkAux ℝ n 2))) erkStarts :=
  C107_erk Heun3_conditions.explicit b

/-- **C107**, `RungeKutta4`. -/
theorem C107_RungeKutta4 (b : Bound ℝ) :
    NearbyAnswers (fun rhs : Rhs ℝ n => (⟨erk RungeKutta4, rhs, b⟩ : Solver ℝ n 0 (ErkAux ℝ n 3))) erkStarts :=
  C107_erk RungeKutta4_conditions.explicit b

/-- **C107**, `RungeKutta3_8`. -/
theorem C107_RungeKutta3_8 (b : Bound ℝ) :
    NearbyAnswers (fun rhs : Rhs ℝ n => (⟨erk RungeKutta3_8, rhs, b⟩ : Solver ℝ n 0 (ErkAux ℝ n 3))) erkStarts :=
  C107_erk RungeKutta3_8_conditions.explicit b

/-- **C107**, `ForwardEuler`. -/
theorem C107_ForwardEuler (b : Bound ℝ) :
    NearbyAnswers (fun rhs : Rhs ℝ n => (⟨explicitMultistep ForwardEuler, rhs, b⟩ : Solver ℝ n 0 Unit)) eulerStarts :=
  nearby (fun _ => .explicitMultistep _) (euler_startsAt b) (euler_steps b)
    (hermite_dense eulerTableau_explicit (fun _ => .explicitMultistep _) (fun _ => rfl) (euler_steps b) _) eulerTableau_explicit
    (withLast_explicit eulerTableau_explicit)

/-! ### Solvers with step size control -/

/-- Stages of a problem whose derivative depends on time only. -/
theorem time_stages {m : ℕ} {T : Tableau ℝ m} {φ : ℝ → ℝ} {t x : ℝ} {y : Vec ℝ 1} {K : Fin (m + 1) → Vec ℝ 1} :
    RKStages T (pureRhs fun t _ _ => φ t) t x y K ↔ K = fun i _ => φ (t + T.C i * x) := by
  constructor
  · intro h
    funext i
    exact (Except.ok.inj (h i)).symm
  · rintro rfl i
    rfl

/-- What `interpolate` gives after a step with the given size, on a problem whose derivative depends on time only. -/
theorem time_dense {lib : Lib ℝ} (hl : RealFunctions lib) {o : VarOptions ℝ} (ho : SaneOptions o) {c : FsalCoef ℝ s (d + 1)} (hT : Explicit c.toTableau)
    (hE : EndConditions c.toTableau c.P) (hex : 0 ≤ c.errorExponent) {φ : ℝ → ℝ} {y0 : Vec ℝ 1}
    {st st' : St ℝ 1 0 (FsalAux ℝ 1 s (RkItp ℝ 1 (d + 1)))} (hs : fsalStarts c o (pureRhs fun t _ _ => φ t) 0 y0 st) (hh : 0 < st.h)
    (ht : Takes ⟨fsal lib o c, pureRhs fun t _ _ => φ t, .inf⟩ st st') {x : ℝ} (hx : 1/2 < x) (hx' : st'.t = x) :
    ∃ r v, (Solver.interpolate ⟨fsal lib o c, pureRhs fun t _ _ => φ t, .inf⟩ (1/2)).run st' = some (.ok r, v) ∧
      r.deref st'.cache 0 = y0 0 + x * ∑ j, denseWeight c.P ((1/2) / x) j * φ ((withLast c.toTableau).C j * x) := by
  have hst := fsal_startsAt (n := 1) c lib o .inf
  have e1 : st.t = 0 := hst.times _ _ _ _ hs _
  have e2 : st.y = y0 := hst.y _ _ _ _ hs
  have e3 : st.f = fun _ => φ st.t := by rw [e1]; exact (Except.ok.inj (hst.f _ _ _ _ hs)).symm
  have hlt : st.t < st'.t := by rw [e1, hx']; linarith
  obtain ⟨q, K1, f', -, -, hK1, hf', h2, -⟩ := fsalBody_records lib o (real_powLaw hl) ho _ hex _ hT _ _ st st' (congrArg Except.ok e3.symm) ht
  have o1 : st'.cache.ts (Buffer.iOld 0) = st.t := by rw [h2]; rfl
  obtain ⟨r, v, hr⟩ := (C22_succeeds_iff (⟨fsal lib o c, pureRhs fun t _ _ => φ t, .inf⟩ : Solver ℝ 1 0 _) (Or.inr ⟨lib, o, _, .fsal c⟩)
    (fun _ _ => ⟨_, rfl⟩) (1/2) st').2 ⟨by rw [o1, e1]; norm_num, by rw [hx']; exact hx.le⟩
  refine ⟨r, v, hr, ?_⟩
  obtain ⟨K, hK, hv⟩ := fsal_dense c hT hE lib o (real_powLaw hl) ho hex .inf _ 0 y0 st st st' [] hs hh (.nil st) trivial ht e3 hlt
  rw [hv (1/2) r v (by rw [e1]; norm_num) (by rw [hx']; exact hx.le) hr, time_stages.1 hK, hx', e1, e2]
  simp [denseNew]

theorem answers_jump {lib : Lib ℝ} (hl : RealFunctions lib) {c : FsalCoef ℝ s (d + 1)} (hT : Explicit c.toTableau)
    (hE : EndConditions c.toTableau c.P) (hex : 0 ≤ c.errorExponent) (j : Fin (s + 1)) (a : ℝ)
    (hj : ∀ i, (withLast c.toTableau).C i = (withLast c.toTableau).C j.castSucc ↔ i = j.castSucc)
    (hs : ∀ i, (withLast c.toTableau).C i * (9/10) ≠ (withLast c.toTableau).C j.castSucc)
    (ha : |c.E j.castSucc * a| = 1001/1000000) (hB : c.B j * a ≤ 0) (hB' : -1 ≤ c.B j * a) (hw : denseWeight c.P (1/2) j.castSucc ≠ 0) :
    AnswersJump (fun rhs => (⟨fsal lib .default c, rhs, .inf⟩ : Solver ℝ 1 0 (FsalAux ℝ 1 s (RkItp ℝ 1 (d + 1))))) (fsalStarts c .default) := by
  set N := (withLast c.toTableau).C with hN
  set Z : Finset ℝ := Finset.univ.image N ∪ Finset.univ.image (fun i => N i * (9/10)) with hZ
  set p := Lagrange.interpolate Z id (fun t => if t = N j.castSucc then a else 0) with hp
  have hp1 : ∀ i, p.eval (N i) = if i = j.castSucc then a else 0 := by
    intro i
    have := Lagrange.eval_interpolate_at_node (s := Z) (v := id) (fun t => if t = N j.castSucc then a else 0) (Set.injOn_id _)
      (Finset.mem_union_left _ (Finset.mem_image_of_mem N (Finset.mem_univ i)))
    simp only [id, hj] at this
    exact this
  have hp2 : ∀ i, p.eval (N i * (9/10)) = 0 := by
    intro i
    have := Lagrange.eval_interpolate_at_node (s := Z) (v := id) (fun t => if t = N j.castSucc then a else 0) (Set.injOn_id _)
      (Finset.mem_union_right _ (Finset.mem_image_of_mem (fun i => N i * (9/10)) (Finset.mem_univ i)))
    simp only [id, hs, if_false] at this
    exact this
  have ha0 : a ≠ 0 := by rintro rfl; norm_num at ha
  set g := |a * denseWeight c.P (1/2) j.castSucc| with hg
  have hg0 : 0 < g := abs_pos.2 (mul_ne_zero ha0 hw)
  refine ⟨p, 1, g / 2, by positivity, fun δ hδ => ⟨1 + min (δ / 2) (g / 2), ?_, fun st u h1 h2 h3 h4 => ?_⟩⟩
  · have : 0 < min (δ / 2) (g / 2) := by positivity
    rw [show (1 : ℝ) - (1 + min (δ / 2) (g / 2)) = -min (δ / 2) (g / 2) by ring, abs_neg, abs_of_pos this]
    exact (min_le_left _ _).trans_lt (by linarith)
  set e := min (δ / 2) (g / 2) with he
  have he0 : 0 < e := by positivity
  have hst := fsal_startsAt (n := 1) c lib (VarOptions.default : VarOptions ℝ) .inf
  have ho : SaneOptions (VarOptions.default : VarOptions ℝ) := Demo.default_sane
  -- the error norm of the step of size 1
  have hnorm : ∀ y : ℝ, 1 ≤ y → rmsError lib .default (fun _ => y) (proposal c.toTableau 1 (fun _ => y) fun i _ => p.eval (0 + N i * 1))
      (fun d => 1 * ∑ i, c.E i * (fun (i : Fin (s + 2)) (_ : Fin 1) => p.eval (0 + N i * 1)) i d) = (1001/1000000) / (1/1000000 + 1/1000 * y) := by
    intro y hy
    have k1 : ∑ i, c.E i * p.eval (0 + N i * 1) = c.E j.castSucc * a := by
      simp only [zero_add, mul_one, hp1, mul_ite, mul_zero, Finset.sum_ite_eq', Finset.mem_univ, if_true]
    have k2 : proposal c.toTableau 1 (fun _ => y) (fun i (_ : Fin 1) => p.eval (0 + N i * 1)) 0 = y + c.B j * a := by
      simp only [proposal, rkNew, zero_add, mul_one, hp1, one_mul, Fin.castSucc_inj, mul_ite, mul_zero, Finset.sum_ite_eq', Finset.mem_univ, if_true]
    have k3 : max |y + c.B j * a| |y| = y := by
      rw [abs_of_nonneg (by linarith), abs_of_nonneg (by linarith)]
      exact max_eq_right (by linarith)
    simp only [rmsError, hl.sqrt, Finset.univ_unique, Finset.sum_singleton, Nat.cast_one, div_one, Fin.default_eq_zero, Fin.isValue, k1, k2, k3, one_mul]
    rw [Real.sqrt_sq_eq_abs, abs_div, ha]
    congr 1
    have : (0 : ℝ) ≤ 1/1000000 + 1/1000 * y := by linarith
    simp only [VarOptions.default]
    push_cast
    exact abs_of_nonneg this
  -- the solver that rejects the step
  have hA : ∃ s', Takes ⟨fsal lib .default c, pureRhs fun t _ _ => p.eval t, .inf⟩ st s' ∧ s'.t = 9/10 := by
    have e1 : st.t = 0 := hst.times _ _ _ _ h1 _
    have e2 : st.y = fun _ => 1 := hst.y _ _ _ _ h1
    have e3 : st.f = fun _ => p.eval st.t := by rw [e1]; exact (Except.ok.inj (hst.f _ _ _ _ h1)).symm
    refine ⟨_, (fsal_takes_iff lib _ c hT _ .inf st _ (by rw [e3]; rfl)).mpr ⟨[⟨1, 1⟩, ⟨9/10, 0⟩], ⟨9/10, 0⟩, 9/10 * 10, fun i _ => p.eval (0 + N i * (9/10)), ?_, rfl, rfl⟩, ?_⟩
    · rw [e1, e2, h3]
      have hrej := Trail.reject (lib := lib) (o := VarOptions.default) (ex := c.errorExponent) (T := c.toTableau) (norm := rkNorm lib .default c.E)
        (rhs := pureRhs fun t _ _ => p.eval t) (t := 0) (y := fun _ => 1) (h := 1) (en := 1) (q := 9/10) (h' := 9/10 * 10)
        (K := fun i _ => p.eval (0 + N i * 1)) (K' := fun i _ => p.eval (0 + N i * (9/10))) (l := [⟨9/10, 0⟩]) (time_stages.2 rfl)
        (congrArg Except.ok ((hnorm 1 le_rfl).trans (by norm_num))) ⟨one_ne_zero, le_rfl⟩
        (Or.inr ⟨one_ne_zero, by rw [hl.pow]; norm_num, by rw [hl.pow]; norm_num [VarOptions.default]⟩) ?_
      · exact hrej
      · rw [one_mul]
        refine Trail.accept (en := 0) (q := 10) (time_stages.2 rfl) (congrArg Except.ok ?_) (Or.inl rfl) (Or.inl ⟨rfl, by norm_num [VarOptions.default]⟩)
        simp [rmsError, hl.sqrt, hp2]
    · show (st.cache.push _ _ _).t = _
      rw [push_t, e1, zero_add]
  -- the solver that accepts it
  have hC : ∃ u', Takes ⟨fsal lib .default c, pureRhs fun t _ _ => p.eval t, .inf⟩ u u' ∧ u'.t = 1 := by
    have e1 : u.t = 0 := hst.times _ _ _ _ h2 _
    have e2 : u.y = fun _ => 1 + e := hst.y _ _ _ _ h2
    have e3 : u.f = fun _ => p.eval u.t := by rw [e1]; exact (Except.ok.inj (hst.f _ _ _ _ h2)).symm
    have hpos : (0 : ℝ) < 1/1000000 + 1/1000 * (1 + e) := by positivity
    set en : ℝ := (1001/1000000) / (1/1000000 + 1/1000 * (1 + e)) with hen
    have hen0 : 0 < en := by positivity
    have hen1 : en < 1 := (div_lt_one hpos).2 (by linarith)
    obtain ⟨q, hq⟩ : ∃ q, StepFactor lib VarOptions.default c.errorExponent en q :=
      ⟨_, Or.inr ⟨hen0.ne', by rw [hl.pow]; exact (Real.rpow_pos_of_pos hen0 _).ne', rfl⟩⟩
    refine ⟨_, (fsal_takes_iff lib _ c hT _ .inf u _ (by rw [e3]; rfl)).mpr ⟨[⟨1, en⟩], ⟨1, en⟩, 1 * q, fun i _ => p.eval (0 + N i * 1), ?_, rfl, rfl⟩, ?_⟩
    · rw [e1, e2, h4]
      exact .accept (time_stages.2 rfl) (congrArg Except.ok (hnorm _ (by linarith))) (Or.inr hen1) hq
    · show (u.cache.push _ _ _).t = _
      rw [push_t, e1, zero_add]
  obtain ⟨s', hs1, hs2⟩ := hA
  obtain ⟨u', hu1, hu2⟩ := hC
  obtain ⟨r, v, hr, hv⟩ := time_dense hl ho hT hE hex h1 (by rw [h3]; norm_num) hs1 (by norm_num) hs2
  obtain ⟨r', v', hr', hv'⟩ := time_dense hl ho hT hE hex h2 (by rw [h4]; norm_num) hu1 (by norm_num) hu2
  refine ⟨s', u', r, r', v, v', hs1, hu1, hr, hr', ?_⟩
  have w1 : r.deref s'.cache 0 = 1 := by rw [hv]; simp [← hN, hp2]
  have w2 : r'.deref u'.cache 0 = 1 + e + a * denseWeight c.P (1/2) j.castSucc := by
    rw [hv']
    simp only [← hN, mul_one, one_mul, div_one, hp1, mul_ite, mul_zero, Finset.sum_ite_eq', Finset.mem_univ, if_true]
    ring
  rw [w1, w2]
  have k1 : g ≤ |1 - (1 + e + a * denseWeight c.P (1/2) j.castSucc)| + e := by
    have := abs_add_le (1 - (1 + e + a * denseWeight c.P (1/2) j.castSucc)) e
    rw [show 1 - (1 + e + a * denseWeight c.P (1/2) j.castSucc) + e = -(a * denseWeight c.P (1/2) j.castSucc) by ring, abs_neg, abs_of_pos he0] at this
    exact this
  have k2 : e ≤ g / 2 := min_le_right _ _
  linarith

/-- **C107 refuted**: `RungeKutta45` with the default options. -/
theorem C107_refuted_RungeKutta45 {lib : Lib ℝ} (hl : RealFunctions lib) :
    AnswersJump (fun rhs => (⟨fsal lib .default RungeKutta45, rhs, .inf⟩ : Solver ℝ 1 0 (FsalAux ℝ 1 5 (RkItp ℝ 1 4)))) (fsalStarts RungeKutta45 .default) := by
  have hE : (RungeKutta45 : FsalCoef ℝ 5 4).E (Fin.castSucc 4) = 17253/339200 := by
    simp [RungeKutta45, q]
  refine answers_jump hl RungeKutta45_conditions.explicit RungeKutta45_ends (by simp [RungeKutta45, q]) 4
    (1001/1000000 / (17253/339200)) ?_ ?_ ?_ ?_ ?_ ?_
  · intro i
    constructor
    · intro h
      fin_cases i <;> first | rfl | (exfalso; simp [withLast, RungeKutta45, q] at h; try norm_num at h)
    · rintro rfl; rfl
  · intro i h
    fin_cases i <;> (simp [withLast, RungeKutta45, q] at h; try norm_num at h)
  · rw [hE]; norm_num
  · simp [RungeKutta45, q]; norm_num
  · simp [RungeKutta45, q]; norm_num
  · simp [denseWeight, RungeKutta45, q, Fin.sum_univ_succ]; norm_num

/-- **C107 refuted**: `RungeKutta23` with the default options. -/
theorem C107_refuted_RungeKutta23 {lib : Lib ℝ} (hl : RealFunctions lib) :
    AnswersJump (fun rhs => (⟨fsal lib .default RungeKutta23, rhs, .inf⟩ : Solver ℝ 1 0 (FsalAux ℝ 1 2 (RkItp ℝ 1 3)))) (fsalStarts RungeKutta23 .default) := by
  have hE : (RungeKutta23 : FsalCoef ℝ 2 3).E (Fin.castSucc 2) = 1/9 := by
    simp [RungeKutta23, q, fsalE, RungeKutta23B2]
    norm_num
  refine answers_jump hl RungeKutta23_conditions.explicit RungeKutta23_ends (by simp [RungeKutta23, q]) 2
    (-(1001/1000000 * 9)) ?_ ?_ ?_ ?_ ?_ ?_
  · intro i
    constructor
    · intro h
      fin_cases i <;> first | rfl | (exfalso; simp [withLast, RungeKutta23, q] at h; try norm_num at h)
    · rintro rfl; rfl
  · intro i h
    fin_cases i <;> (simp [withLast, RungeKutta23, q] at h; try norm_num at h)
  · rw [hE]; norm_num
  · simp [RungeKutta23, q]
  · simp [RungeKutta23, q]; norm_num
  · simp [denseWeight, RungeKutta23, q, Fin.sum_univ_succ]; norm_num

namespace Demo

/-- C107 applies to the logistic-like problems `y' = -sin y` and `y' = -sin y + 1/100`, and to `RungeKutta4` with steps of at most 1/2: answers up to
time 10 from 0 and 1/100 differ by at most `C/100`. -/
example (b : Bound ℝ) : ∃ C : ℝ, ∀ (bo : BisectOpts ℝ) (argsort : List ℝ → List Nat), (∀ l, IsArgsort l (argsort l)) →
    ∀ s s' u u' : St ℝ 1 0 (ErkAux ℝ 1 3), erkStarts (pureRhs fun _ y i => -Real.sin (y i)) 0 (fun _ => 0) s →
    erkStarts (pureRhs fun _ y i => -Real.sin (y i) + 1/100) 0 (fun _ => 1/100) u → s.h = 1/2 → u.h = 1/2 →
    ∀ (ts : List ℝ) (out out' : List (ℝ × Vec ℝ 1)),
      (Solver.run ⟨erk RungeKutta4, pureRhs fun _ y i => -Real.sin (y i), b⟩ bo argsort ts).run s = some (.ok out, s') →
      (Solver.run ⟨erk RungeKutta4, pureRhs fun _ y i => -Real.sin (y i) + 1/100, b⟩ bo argsort ts).run u = some (.ok out', u') →
      ∀ p ∈ out, ∀ q ∈ out', p.1 = q.1 → p.1 ≤ 0 + 10 → Within (C * (1/100)) p.2 q.2 := by
  obtain ⟨C, hC⟩ := C107_RungeKutta4 (n := 1) b 1 10 (1/2) zero_le_one (by norm_num) (by norm_num)
  refine ⟨C, fun bo argsort hA s s' u u' hs hu h1 h2 => hC _ _ 0 _ _ (1/100) (by norm_num) ?_ ?_ ?_ bo argsort hA s s' u u' hs hu (by rw [h1, h2])
    (by rw [h1]; norm_num) h1.le⟩
  · intro t y z D hD i
    show |-Real.sin (y i) - -Real.sin (z i)| ≤ 1 * D
    have h3 := Real.abs_sin_sub_sin_le (y i) (z i)
    rw [neg_sub_neg, abs_sub_comm, one_mul]
    exact h3.trans (hD i)
  · intro t y i
    show |-Real.sin (y i) - (-Real.sin (y i) + 1/100)| ≤ 1/100
    rw [sub_add_cancel_left, abs_neg, abs_of_pos (by norm_num)]
  · intro i
    show |(0 : ℝ) - 1/100| ≤ 1/100
    norm_num

/-- The functions of `math` are as `C107_refuted_RungeKutta45` assumes. -/
example : AnswersJump (fun rhs => (⟨fsal realLib .default RungeKutta45, rhs, .inf⟩ : Solver ℝ 1 0 (FsalAux ℝ 1 5 (RkItp ℝ 1 4)))) (fsalStarts RungeKutta45 .default) ∧
    AnswersJump (fun rhs => (⟨fsal realLib .default RungeKutta23, rhs, .inf⟩ : Solver ℝ 1 0 (FsalAux ℝ 1 2 (RkItp ℝ 1 3)))) (fsalStarts RungeKutta23 .default) :=
  ⟨C107_refuted_RungeKutta45 realLib_real, C107_refuted_RungeKutta23 realLib_real⟩

/-- Solvers with a first step of 1, as in the refutations, can be constructed. -/
example (g : Buffer ℝ 1 0) (K : Fin 7 → Vec ℝ 1) (itp : RkItp ℝ 1 4) (sel : Rhs ℝ 1 → ℝ → Vec ℝ 1 → Vec ℝ 1 → Except Err ℝ) (p : Polynomial ℝ) (y0 : ℝ) :
    ∃ st : St ℝ 1 0 (FsalAux ℝ 1 5 (RkItp ℝ 1 4)), fsalStarts RungeKutta45 .default (pureRhs fun t _ _ => p.eval t) 0 (fun _ => y0) st ∧ st.h = 1 := by
  have hi : variableInit (.default : VarOptions ℝ) sel g (⟨K, itp⟩ : FsalAux ℝ 1 5 (RkItp ℝ 1 4)) (pureRhs fun t _ _ => p.eval t) 0 (fun _ => y0) none
      (some 1) = .ok ⟨Buffer.init g 0 (fun _ => y0) (fun _ => p.eval 0), 1, ⟨K, itp⟩⟩ := by
    unfold variableInit solverInit
    simp only [pureRhs, bind, Except.bind, pure, Except.pure]
    rw [if_neg (by simp [VarOptions.default]), if_neg (by simp [VarOptions.default])]
  have hf : ∃ st, fsalInit (RungeKutta45 : FsalCoef ℝ 5 4).P .default sel g K itp (pureRhs fun t _ _ => p.eval t) 0 (fun _ => y0) none (some 1) = .ok st ∧
      st.h = 1 := by
    unfold fsalInit
    rw [hi]
    exact ⟨_, rfl, rfl⟩
  obtain ⟨st, h1, h2⟩ := hf
  exact ⟨st, ⟨sel, g, K, itp, none, some 1, h1⟩, h2⟩

end Demo
end Nbkode
