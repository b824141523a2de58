import Verif.Spec.Polynomials
import Verif.Proofs.SharpLinear
import Verif.Proofs.EventError
import Mathlib.Algebra.Polynomial.Taylor
import Mathlib.Algebra.Polynomial.Derivative
import Mathlib.Analysis.Calculus.Deriv.Polynomial

/-!
# Proofs: polynomial solutions
-/

set_option autoImplicit false
set_option linter.unusedSectionVars false

namespace Nbkode
open Py Spec Solver Topology

variable {n s d : ℕ}

/-! ### The bushy trees -/

/-- A root with `l` leaves. -/
def bush (l : ℕ) : Tree := .node l fun _ => .node 0 Fin.elim0

theorem bush_order (l : ℕ) : (bush l).order = l + 1 := by
  simp [bush, Tree.order]; omega

theorem bush_density (l : ℕ) : (bush l).density = l + 1 := by
  simp [bush, Tree.order, Tree.density]; omega

theorem bush_weight {T : Tableau ℝ s} (hR : RowSums T) (l : ℕ) (i : Fin (s + 1)) : (bush l).weight T.A i = T.C i ^ l := by
  simp [bush, Tree.weight, hR i]

/-! ### Expansion of the stages -/

/-- Along a polynomial solution, weighted sums of stages and the solution are combinations of the same vectors. -/
structure Expansion (f : ℝ → Vec ℝ n → Vec ℝ n) (y : ℝ → Vec ℝ n) (t : ℝ) (r : ℕ) (D : ℕ → Vec ℝ n) (τ : ℕ → Tree) : Prop where
  order : ∀ l, (τ l).order = l + 1
  solution : ∀ x i, y (t + x) i = y t i + ∑ l ∈ Finset.range r, x ^ (l + 1) * (1 / ((τ l).density : ℝ)) * D l i
  stages : ∀ {s : ℕ} {T : Tableau ℝ s}, Explicit T → RowSums T → ∀ x K, RKStages T (pureRhs f) t x (y t) K → ∀ (W : Fin (s + 1) → ℝ) i,
    x * ∑ j, W j * K j i = ∑ l ∈ Finset.range r, x ^ (l + 1) * (∑ j, W j * (τ l).weight T.A j) * D l i

theorem derivatives_vanish {L : (Fin n → ℝ) →L[ℝ] (Fin n → ℝ)} {c : Fin n → ℝ} {y : ℝ → Fin n → ℝ}
    (hy : ∀ t, HasDerivAt y (L (y t) + c) t) {Y : Fin n → Polynomial ℝ} (hY : ∀ t i, y t i = (Y i).eval t) :
    ∀ l t i, (L ^ l) (L (y t) + c) i = ((Polynomial.derivative^[l + 1]) (Y i)).eval t := by
  intro l
  induction l with
  | zero =>
    intro t i
    have h1 := (hasDerivAt_pi.mp (hy t)) i
    have h2 : HasDerivAt (fun t => y t i) ((Polynomial.derivative (Y i)).eval t) t := by
      simp only [hY]; exact (Y i).hasDerivAt t
    simpa using h1.unique h2
  | succ l ih =>
    intro t i
    have h1 : HasDerivAt (fun t => (L ^ l) (L (y t) + c)) ((L ^ l) (L (L (y t) + c))) t :=
      (L ^ l).hasFDerivAt.comp_hasDerivAt t (((L.hasFDerivAt).comp_hasDerivAt t (hy t)).add_const c)
    have h2 := (hasDerivAt_pi.mp h1) i
    have h3 : HasDerivAt (fun t => (L ^ l) (L (y t) + c) i) ((Polynomial.derivative (Polynomial.derivative^[l + 1] (Y i))).eval t) t := by
      simp only [ih]; exact Polynomial.hasDerivAt _ t
    have h4 := h2.unique h3
    rw [← Function.iterate_succ_apply' (f := Polynomial.derivative)] at h4
    rw [← h4, pow_succ, ContinuousLinearMap.mul_apply]

theorem linear_expansion {M : Fin n → Fin n → ℝ} {c : Fin n → ℝ} {y : ℝ → Vec ℝ n} (hy : ∀ t, SolvesAt (affineRhs M c) y t)
    {Y : Fin n → Polynomial ℝ} {r : ℕ} (hd : ∀ i, (Y i).natDegree ≤ r) (hY : ∀ t i, y t i = (Y i).eval t) (t : ℝ) :
    Expansion (affineRhs M c) y t r (fun l => (matMap M ^ l) (matMap M (y t) + c)) tall := by
  have hy' : ∀ t, HasDerivAt (F := Fin n → ℝ) y (matMap M (y t) + c) t := fun t => by rw [← affineRhs_eq M c t]; exact hy t
  have h0 : ∀ t, (matMap M ^ r) (matMap M (y t) + c) = 0 := fun t => by
    funext i
    rw [derivatives_vanish hy' hY, Polynomial.iterate_derivative_eq_zero (Nat.lt_succ_of_le (hd i))]
    simp
  refine ⟨tall_order, fun x i => ?_, fun {s T} hT hR x K hK W i => ?_⟩
  · have h1 := solution_flow (matMap M) c (a := t - |x| - 1) (b := t + |x| + 1) (u := t) (fun t _ => hy' t)
      ⟨by linarith [abs_nonneg x], by linarith [abs_nonneg x]⟩ (h0 t) (t + x) ⟨by linarith [neg_abs_le x], by linarith [le_abs_self x]⟩
    rw [h1, add_sub_cancel_left, flow]
    simp only [Pi.add_apply, Finset.sum_apply, Pi.smul_apply, smul_eq_mul, tall_density, one_div, div_eq_mul_inv]
  · have h1 := congrFun (affine_weighted (matMap M) c hT.upper x (y t) K (affine_rkstages M c hK) (h0 t) W) i
    simp only [Pi.smul_apply, Finset.sum_apply, smul_eq_mul] at h1
    rw [h1]
    simp [tall_weight]

theorem integral_expansion {F : ℝ → Vec ℝ n} {y : ℝ → Vec ℝ n} (hy : ∀ t, SolvesAt (fun t _ => F t) y t)
    {Y : Fin n → Polynomial ℝ} {r : ℕ} (hd : ∀ i, (Y i).natDegree ≤ r) (hY : ∀ t i, y t i = (Y i).eval t) (t : ℝ) :
    Expansion (fun t _ => F t) y t r (fun l i => (Polynomial.taylor t (Y i)).coeff (l + 1) * (l + 1)) bush := by
  have hF : ∀ x i, F (t + x) i = ∑ l ∈ Finset.range r, (Polynomial.taylor t (Y i)).coeff (l + 1) * (l + 1) * x ^ l := fun x i => by
    have h1 := (hasDerivAt_pi.mp (hy (t + x))) i
    have h2 : HasDerivAt (fun t => y t i) ((Polynomial.derivative (Y i)).eval (t + x)) (t + x) := by
      simp only [hY]; exact (Y i).hasDerivAt _
    have h3 : F (t + x) i = (Polynomial.derivative (Y i)).eval (t + x) := h1.unique h2
    rw [h3]
    have h4 : (Polynomial.derivative (Polynomial.taylor t (Y i))).eval x = (Polynomial.derivative (Y i)).eval (t + x) := by
      rw [Polynomial.taylor_apply, Polynomial.derivative_comp]
      simp [add_comm]
    have h5 : (Polynomial.derivative (Polynomial.taylor t (Y i))).natDegree < r ∨ r = 0 := by
      rcases Nat.eq_zero_or_pos r with h | h
      · exact Or.inr h
      · left
        have := Polynomial.natDegree_derivative_le (Polynomial.taylor t (Y i))
        rw [Polynomial.natDegree_taylor] at this
        have := hd i
        omega
    rw [← h4]
    rcases h5 with h5 | rfl
    · rw [Polynomial.eval_eq_sum_range' h5]
      simp only [Polynomial.coeff_derivative]
    · have : (Polynomial.taylor t (Y i)).natDegree = 0 := by rw [Polynomial.natDegree_taylor]; exact Nat.le_zero.mp (hd i)
      rw [Polynomial.derivative_of_natDegree_zero this]
      simp
  refine ⟨bush_order, fun x i => ?_, fun {s T} hT hR x K hK W i => ?_⟩
  · have h1 : (Polynomial.taylor t (Y i)).eval x = y (t + x) i := by
      rw [hY, Polynomial.taylor_eval, add_comm]
    rw [← h1, Polynomial.eval_eq_sum_range' (n := r + 1) (by rw [Polynomial.natDegree_taylor]; exact Nat.lt_succ_of_le (hd i)),
      Finset.sum_range_succ']
    simp only [pow_zero, mul_one, Polynomial.taylor_coeff_zero, ← hY]
    rw [add_comm]
    congr 1
    refine Finset.sum_congr rfl fun l _ => ?_
    rw [bush_density]
    have : (l : ℝ) + 1 ≠ 0 := by positivity
    push_cast
    field_simp
  · have hK' : ∀ j, K j i = ∑ l ∈ Finset.range r, (Polynomial.taylor t (Y i)).coeff (l + 1) * (l + 1) * (T.C j * x) ^ l := fun j => by
      rw [← hF]
      exact (congrFun (Except.ok.inj (hK j)) i).symm
    simp only [hK', bush_weight hR, Finset.mul_sum, Finset.sum_mul]
    rw [Finset.sum_comm]
    refine Finset.sum_congr rfl fun l _ => Finset.sum_congr rfl fun j _ => ?_
    rw [mul_pow]
    ring

theorem polynomial_expansion {f : ℝ → Vec ℝ n → Vec ℝ n} {y : ℝ → Vec ℝ n} {r : ℕ} (h : PolynomialSolution f y r) (t : ℝ) :
    ∃ D τ, Expansion f y t r D τ := by
  obtain ⟨h1, ⟨Y, hY⟩, ⟨M, c, rfl⟩ | ⟨F, rfl⟩⟩ := h
  · exact ⟨_, _, linear_expansion h1 (fun i => (hY i).1) (fun t i => (hY i).2 t) t⟩
  · exact ⟨_, _, integral_expansion h1 (fun i => (hY i).1) (fun t i => (hY i).2 t) t⟩

/-! ### Steps, dense output and estimate -/

theorem polynomial_step {f : ℝ → Vec ℝ n → Vec ℝ n} {y : ℝ → Vec ℝ n} {r : ℕ} (h : PolynomialSolution f y r) {T : Tableau ℝ s}
    (hT : Explicit T) (hR : RowSums T) (hB : OrderConditions T.A T.B r) {t x : ℝ} {K : Fin (s + 1) → Vec ℝ n}
    (hK : RKStages T (pureRhs f) t x (y t) K) : rkNew T x (y t) K = y (t + x) := by
  obtain ⟨D, τ, hE⟩ := polynomial_expansion h t
  funext i
  rw [hE.solution x i]
  show y t i + x * _ = _
  rw [hE.stages hT hR x K hK T.B i]
  congr 1
  refine Finset.sum_congr rfl fun l hl => ?_
  rw [hB (τ l) (by rw [hE.order]; exact Finset.mem_range.mp hl)]

theorem polynomial_dense {f : ℝ → Vec ℝ n → Vec ℝ n} {y : ℝ → Vec ℝ n} {r : ℕ} (h : PolynomialSolution f y r) {T : Tableau ℝ s}
    (hT : Explicit T) (hR : RowSums T) {P : Fin (s + 1) → Fin d → ℝ} (hd : r ≤ d) (hP : DenseConditions T.A P r) {t x θ : ℝ}
    {K : Fin (s + 1) → Vec ℝ n} (hK : RKStages T (pureRhs f) t x (y t) K) : denseNew P x θ (y t) K = y (t + θ * x) := by
  obtain ⟨D, τ, hE⟩ := polynomial_expansion h t
  funext i
  rw [hE.solution _ i]
  show y t i + x * _ = _
  rw [hE.stages hT hR x K hK (denseWeight P θ) i]
  congr 1
  refine Finset.sum_congr rfl fun l hl => ?_
  have hl' : l < r := Finset.mem_range.mp hl
  have h3 := fun m => hP (τ l) (by rw [hE.order]; exact hl') m
  have h4 : ∑ j, denseWeight P θ j * (τ l).weight T.A j = θ ^ (l + 1) * (1 / ((τ l).density : ℝ)) := by
    simp only [denseWeight, Finset.sum_mul]
    rw [Finset.sum_comm]
    have : ∀ m : Fin d, ∑ j, P j m * θ ^ (m.val + 1) * (τ l).weight T.A j =
        θ ^ (m.val + 1) * if m.val + 1 = (τ l).order then 1 / ((τ l).density : ℝ) else 0 := by
      intro m
      rw [← h3 m, Finset.mul_sum]
      exact Finset.sum_congr rfl fun j _ => by ring
    simp only [this, hE.order]
    rw [Finset.sum_eq_single ⟨l, by omega⟩]
    · simp
    · intro m _ hm
      rw [if_neg, mul_zero]
      intro h
      exact hm (Fin.ext (by simpa using h))
    · intro h
      exact absurd (Finset.mem_univ _) h
  rw [h4, mul_pow]
  ring

theorem polynomial_estimate {f : ℝ → Vec ℝ n → Vec ℝ n} {y : ℝ → Vec ℝ n} {r : ℕ} (h : PolynomialSolution f y r) {T : Tableau ℝ s}
    (hT : Explicit T) (hR : RowSums T) {W : Fin (s + 1) → ℝ} (hW : ∀ τ : Tree, τ.order ≤ r → ∑ i, W i * τ.weight T.A i = 0) {t x : ℝ}
    {K : Fin (s + 1) → Vec ℝ n} (hK : RKStages T (pureRhs f) t x (y t) K) (i : Fin n) : x * ∑ j, W j * K j i = 0 := by
  obtain ⟨D, τ, hE⟩ := polynomial_expansion h t
  rw [hE.stages hT hR x K hK W i]
  refine Finset.sum_eq_zero fun l hl => ?_
  rw [hW (τ l) (by rw [hE.order]; exact Finset.mem_range.mp hl)]
  ring

/-! ### The classes -/

section classes
variable {X : Type} {T : Tableau ℝ s} {T' : Tableau ℝ (s + 1)} {P : Fin (s + 2) → Fin d → ℝ}
  {cls : Rhs ℝ n → Solver ℝ n 0 X} {starts : Rhs ℝ n → ℝ → Vec ℝ n → St ℝ n 0 X → Prop}

theorem polynomial_path (hS : RKSteps T cls) (hT : Explicit T) (hR : RowSums T) {p : ℕ} (hB : OrderConditions T.A T.B p)
    {f : ℝ → Vec ℝ n → Vec ℝ n} {y : ℝ → Vec ℝ n} (h : PolynomialSolution f y p) {lim : Bound ℝ} {s0 u : St ℝ n 0 X} {l : List (St ℝ n 0 X)}
    (hp : Path (cls (pureRhs f)) lim s0 l u) (hon : On f y s0) : On f y u := by
  induction hp with
  | nil => exact hon
  | @cons u v w l hf htk hp ih =>
    obtain ⟨x, K, hK, e1, e2, e3⟩ := hS _ _ _ hon.f htk
    rw [hon.y] at hK e2
    exact ih ⟨by rw [e2, e1, polynomial_step h hT hR hB hK], e3⟩

theorem polynomial_tracks (hM : ∀ rhs, WellConfigured (cls rhs).method) (h0 : StartsAt cls starts) (hS : RKSteps T cls)
    (hD : DenseSteps T' P cls starts) (hT : Explicit T) (hR : RowSums T) (hT' : Explicit T') (hR' : RowSums T')
    {q : ℕ} (hB : OrderConditions T.A T.B q) (hd : q ≤ d) (hP : DenseConditions T'.A P q)
    {f : ℝ → Vec ℝ n → Vec ℝ n} {y : ℝ → Vec ℝ n} (h : PolynomialSolution f y q) {t₀ : ℝ} {s0 : St ℝ n 0 X}
    (hs0 : starts (pureRhs f) t₀ (y t₀) s0) (hh : 0 < s0.h) (b : ℝ) : Tracks (cls (pureRhs f)) y s0 b 0 := by
  have ht0 : s0.t = t₀ := h0.times _ _ _ _ hs0 _
  have hy0 : s0.y = y t₀ := h0.y _ _ _ _ hs0
  have hon : On f y s0 := ⟨by rw [ht0, hy0], by rw [ht0, hy0]; exact (Except.ok.inj (h0.f _ _ _ _ hs0)).symm⟩
  refine tracks_of_error (hM _) hh le_rfl (by rw [hy0, ht0]) fun l u v hp hu hfit htk => ?_
  have hou := polynomial_path hS hT hR hB h hp hon
  refine ⟨fun i => by rw [hou.y]; simp, fun t r v' h1 h2 hint i => ?_⟩
  have hlt := (C11_step_increases _ (hM _) _ _ (path_pos (hM _) hp hh).1 htk).1
  obtain ⟨K, hK, hdense⟩ := hD f _ _ s0 u v l hs0 hh hp hfit htk hou.f hlt
  rw [hou.y] at hK
  rw [hdense t r v' h1 h2 hint, hou.y, polynomial_dense h hT' hR' hd hP hK, div_mul_cancel₀ _ (sub_pos.mpr hlt).ne']
  simp

theorem exact_upTo (hM : ∀ rhs, WellConfigured (cls rhs).method) (h0 : StartsAt cls starts) (hS : RKSteps T cls)
    (hD : DenseSteps T' P cls starts) (hT : Explicit T) (hR : RowSums T) (hT' : Explicit T') (hR' : RowSums T')
    {p q : ℕ} (hB : OrderConditions T.A T.B p) (hqp : q ≤ p) (hd : q ≤ d) (hP : DenseConditions T'.A P q) : ExactUpTo cls starts p q := by
  intro f y t₀ s0 hs0 hh
  have ht0 : s0.t = t₀ := h0.times _ _ _ _ hs0 _
  have hy0 : s0.y = y t₀ := h0.y _ _ _ _ hs0
  have hon : On f y s0 := ⟨by rw [ht0, hy0], by rw [ht0, hy0]; exact (Except.ok.inj (h0.f _ _ _ _ hs0)).symm⟩
  refine ⟨fun h l u hp => (polynomial_path hS hT hR hB h hp hon).y, fun h bo argsort hA ts out s' hrun p hp => ?_⟩
  obtain ⟨s1, rr, s2, hreach, hint, hval⟩ := C20_interpolant (cls (pureRhs f)) (hM _) bo argsort hA s0 s0 (h0.constructed _ _ _ _ hs0)
    (fun i j _ => by rw [h0.times _ _ _ _ hs0, h0.times _ _ _ _ hs0]) hh (.start s0) ts out s' hrun p hp
  have hrange : s1.cache.ts (Buffer.iOld 0) ≤ p.1 ∧ p.1 ≤ s1.t := by
    by_contra hc
    rw [C10_interpolate_outside _ _ _ hc] at hint
    simp at hint
  rcases reach_last hreach with rfl | ⟨l, u, hpath, hu, hfits, htakes⟩
  · have e : p.1 = t₀ := by
      have h1 := hrange.1
      rw [h0.times _ _ _ _ hs0] at h1
      exact le_antisymm (by rw [← ht0]; exact hrange.2) h1
    rw [e] at hint
    rw [← hval, h0.interp _ _ _ _ hs0 rr s2 hint, e]
  · have htr := polynomial_tracks hM h0 hS hD hT hR hT' hR' (fun τ hτ => hB τ (hτ.trans hqp)) hd hP h hs0 hh p.1
    funext i
    have := htr.dense l u s1 hpath hu hfits htakes p.1 p.2 hu.le hrange.2 ⟨rr, s2, hint, hval⟩ i
    exact sub_eq_zero.mp (abs_nonpos_iff.mp this)

end classes

/-! ### Steps of the pairs -/

theorem polynomial_fsal_step {lib : Lib ℝ} (hl : RealFunctions lib) {o : VarOptions ℝ} {c : FsalCoef ℝ s d} (hT : Explicit c.toTableau)
    (hR : RowSums (withLast c.toTableau)) {q : ℕ} (hE : ∀ τ : Tree, τ.order ≤ q → ∑ i, c.E i * τ.weight (withLast c.toTableau).A i = 0)
    {f : ℝ → Vec ℝ n → Vec ℝ n} {y : ℝ → Vec ℝ n} (h : PolynomialSolution f y q) {b : Bound ℝ}
    {u v : St ℝ n 0 (FsalAux ℝ n s (RkItp ℝ n d))} (hu : On f y u) (htk : Takes ⟨fsal lib o c, pureRhs f, b⟩ u v) :
    v.t = u.t + u.h ∧ v.h = u.h * o.maxFactor := by
  obtain ⟨l, last, h', K, hTr, hl1, rfl⟩ := (fsal_takes_iff lib o c hT (pureRhs f) b u v (congrArg Except.ok hu.f.symm)).mp htk
  have key : ∀ x K en, RKStages (withLast c.toTableau) (pureRhs f) u.t x u.y K →
      rkNorm lib o c.E x K (proposal c.toTableau x u.y K) u.y = .ok en → en = 0 := by
    intro x K en hK hn
    rw [hu.y] at hK
    have h1 := polynomial_estimate h (withLast_explicit hT) hR hE hK
    rw [← Except.ok.inj hn]
    simp [rmsError, h1, hl.sqrt]
  cases hTr with
  | accept hK hn ha hr =>
    simp only [List.getLast?_singleton, Option.some.injEq] at hl1
    subst hl1
    rcases hr with ⟨-, rfl⟩ | ⟨hne, -⟩
    · exact ⟨by simp only [St.t, push_t], rfl⟩
    · exact absurd (key _ _ _ hK hn) hne
  | reject hK hn ha hr _ => exact absurd (key _ _ _ hK hn) ha.1

theorem polynomial_grows {lib : Lib ℝ} (hl : RealFunctions lib) {o : VarOptions ℝ} {c : FsalCoef ℝ s d} (hT : Explicit c.toTableau)
    (hR : RowSums c.toTableau) (hR' : RowSums (withLast c.toTableau)) {b : Bound ℝ}
    (hS : RKSteps c.toTableau (fun rhs : Rhs ℝ n => ⟨fsal lib o c, rhs, b⟩)) {q : ℕ} (hB : OrderConditions c.A c.B q)
    (hE : ∀ τ : Tree, τ.order ≤ q → ∑ i, c.E i * τ.weight (withLast c.toTableau).A i = 0) {f : ℝ → Vec ℝ n → Vec ℝ n}
    {y : ℝ → Vec ℝ n} (h : PolynomialSolution f y q) {lim : Bound ℝ}
    {s0 u : St ℝ n 0 (FsalAux ℝ n s (RkItp ℝ n d))} {l : List (St ℝ n 0 (FsalAux ℝ n s (RkItp ℝ n d)))}
    (hp : Path ⟨fsal lib o c, pureRhs f, b⟩ lim s0 l u) (hon : On f y s0) :
    u.h = s0.h * o.maxFactor ^ l.length ∧ u.t = s0.t + ∑ j ∈ Finset.range l.length, s0.h * o.maxFactor ^ j := by
  induction hp with
  | nil => simp
  | @cons u v w l hf htk hp ih =>
    have hv : On f y v := polynomial_path hS hT hR hB h (lim := lim) (.cons hf htk (.nil _)) hon
    obtain ⟨e1, e2⟩ := ih hv
    obtain ⟨g1, g2⟩ := polynomial_fsal_step hl hT hR' hE h hon htk
    rw [List.length_cons, Finset.sum_range_succ']
    refine ⟨by rw [e1, g2, pow_succ]; ring, ?_⟩
    rw [e2, g1, g2]
    have : ∑ j ∈ Finset.range l.length, u.h * o.maxFactor ^ (j + 1) = ∑ j ∈ Finset.range l.length, u.h * o.maxFactor * o.maxFactor ^ j :=
      Finset.sum_congr rfl fun j _ => by rw [pow_succ]; ring
    rw [this]
    ring

end Nbkode
