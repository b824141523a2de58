import Verif.Proofs.Sharp
import Verif.Proofs.LinearStages
import Mathlib.Analysis.ODE.ExistUnique

/-! # Linear systems: the estimate is sharp or the method is exact -/

set_option autoImplicit false
set_option linter.unusedSectionVars false

namespace Nbkode
open Py Spec Solver Filter Topology

/-- The tree without branches, with `l + 1` vertices. -/
def tall : ℕ → Tree
  | 0 => .node 0 Fin.elim0
  | l + 1 => .node 1 fun _ => tall l

theorem tall_order : ∀ l, (tall l).order = l + 1
  | 0 => by simp [tall, Tree.order]
  | l + 1 => by simp [tall, Tree.order, tall_order l]; omega

theorem tall_density : ∀ l, (tall l).density = (l + 1).factorial
  | 0 => by simp [tall, Tree.density]
  | l + 1 => by
    rw [tall, Tree.density]
    simp only [Finset.univ_unique, Finset.sum_singleton, Finset.prod_singleton, tall_order, tall_density l]
    rw [Nat.factorial_succ (l + 1)]
    ring

theorem tall_weight {m : ℕ} (A : Fin m → Fin m → ℝ) : ∀ l i, (tall l).weight A i = powOnes A l i
  | 0, i => by simp [tall, Tree.weight, powOnes]
  | l + 1, i => by
    rw [tall, Tree.weight, powOnes]
    simp [tall_weight A l]

section
variable {V : Type} [NormedAddCommGroup V] [NormedSpace ℝ V] (L : V →L[ℝ] V) (c : V)

theorem iterated_affine (z : ℝ × V) (k : ℕ) :
    iteratedFDeriv ℝ (k + 2) (fun z : ℝ × V => ((1 : ℝ), L z.2 + c)) z = 0 := by
  have h : fderiv ℝ (fun z : ℝ × V => ((1 : ℝ), L z.2 + c)) =
      fun _ => (0 : ℝ × V →L[ℝ] ℝ).prod (L.comp (ContinuousLinearMap.snd ℝ ℝ V)) := by
    funext z
    have h1 : HasFDerivAt (fun z : ℝ × V => L z.2 + c) (L.comp (ContinuousLinearMap.snd ℝ ℝ V)) z :=
      (L.comp (ContinuousLinearMap.snd ℝ ℝ V)).hasFDerivAt.add_const c
    exact ((hasFDerivAt_const (1 : ℝ) z).prodMk h1).fderiv
  refine ContinuousMultilinearMap.ext fun m => ?_
  rw [iteratedFDeriv_succ_apply_right, h, iteratedFDeriv_succ_const]
  rfl

theorem fderiv_affine (z w : ℝ × V) : fderiv ℝ (fun z : ℝ × V => ((1 : ℝ), L z.2 + c)) z w = (0, L w.2) := by
  have h1 : HasFDerivAt (fun z : ℝ × V => L z.2 + c) (L.comp (ContinuousLinearMap.snd ℝ ℝ V)) z :=
    (L.comp (ContinuousLinearMap.snd ℝ ℝ V)).hasFDerivAt.add_const c
  rw [((hasFDerivAt_const (1 : ℝ) z).prodMk h1).fderiv]
  rfl

theorem differential_node_one (z : ℝ × V) (τ : Fin 1 → Tree) :
    differential (fun z : ℝ × V => ((1 : ℝ), L z.2 + c)) z (.node 1 τ) =
      (0, L (differential (fun z : ℝ × V => ((1 : ℝ), L z.2 + c)) z (τ 0)).2) := by
  rw [differential]
  simp [iteratedFDeriv_one_apply, fderiv_affine]

theorem differential_tall (z : ℝ × V) : ∀ l, (differential (fun z : ℝ × V => ((1 : ℝ), L z.2 + c)) z (tall l)).2 = (L ^ l) (L z.2 + c)
  | 0 => by
    rw [tall, differential]
    simp
  | l + 1 => by
    rw [tall, differential_node_one, differential_tall z l, pow_succ']
    rfl

theorem differential_other (z : ℝ × V) : ∀ τ : Tree, τ ≠ tall (τ.order - 1) →
    differential (fun z : ℝ × V => ((1 : ℝ), L z.2 + c)) z τ = 0
  | .node 0 τ, h => by
    exfalso
    apply h
    simp only [Tree.order, tall]
    simp [tall]
    exact Subsingleton.elim _ _
  | .node 1 τ, h => by
    rw [differential_node_one, differential_other z (τ 0)]
    · simp
    · intro h'
      apply h
      have e1 : (Spec.Tree.node 1 τ).order - 1 = (τ 0).order - 1 + 1 := by
        have := (τ 0).order_pos
        simp [Spec.Tree.order]
        omega
      rw [e1, tall, ← h']
      congr 1
      funext l
      rw [Subsingleton.elim l 0]
  | .node (k + 2) τ, h => by
    rw [differential, iterated_affine]
    simp

/-- The stages for `v' = L v + c`. -/
theorem affine_stages {m : ℕ} {A : Fin m → Fin m → ℝ} (hA : ∀ i j, i ≤ j → A i j = 0) (x : ℝ) (v : V) (K : Fin m → V)
    (hK : ∀ i, K i = L (v + x • ∑ j, A i j • K j) + c) : ∀ (N : ℕ) (i : Fin m), i.val < N →
      K i = ∑ l ∈ Finset.range N, (x ^ l * powOnes A l i) • (L ^ l) (L v + c)
  | 0, i, h => by omega
  | N + 1, i, h => by
    have hs : ∀ j, A i j • L (K j) = ∑ l ∈ Finset.range N, (x ^ l * (A i j * powOnes A l j)) • (L ^ (l + 1)) (L v + c) := by
      intro j
      by_cases hij : i ≤ j
      · simp [hA i j hij]
      · rw [affine_stages hA x v K hK N j (by rw [Fin.le_def] at hij; omega), map_sum, Finset.smul_sum]
        refine Finset.sum_congr rfl fun l _ => ?_
        rw [map_smul, smul_smul, pow_succ']
        congr 1
        ring
    rw [hK i, map_add, map_smul, map_sum]
    simp only [map_smul, hs]
    rw [Finset.sum_comm, Finset.smul_sum, Finset.sum_range_succ']
    simp only [powOnes, pow_zero, mul_one, one_smul]
    rw [show (1 : V →L[ℝ] V) (L v + c) = L v + c from rfl, add_right_comm, add_comm (L v + c)]
    congr 1
    refine Finset.sum_congr rfl fun l _ => ?_
    rw [← Finset.sum_smul, smul_smul, ← Finset.mul_sum]
    congr 1
    ring

/-- Weighted sums of the stages, when only the first `r` powers of `L` matter. -/
theorem affine_weighted {m : ℕ} {A : Fin m → Fin m → ℝ} (hA : ∀ i j, i ≤ j → A i j = 0) (x : ℝ) (v : V) (K : Fin m → V)
    (hK : ∀ i, K i = L (v + x • ∑ j, A i j • K j) + c) {r : ℕ} (h0 : (L ^ r) (L v + c) = 0) (W : Fin m → ℝ) :
    x • ∑ j, W j • K j = ∑ l ∈ Finset.range r, (x ^ (l + 1) * ∑ j, W j * powOnes A l j) • (L ^ l) (L v + c) := by
  have hz : ∀ l, r ≤ l → (L ^ l) (L v + c) = 0 := by
    intro l hl
    obtain ⟨k, rfl⟩ := Nat.exists_eq_add_of_le' hl
    rw [pow_add, ContinuousLinearMap.mul_apply, h0, map_zero]
  have h1 : ∀ j, W j • K j = ∑ l ∈ Finset.range (m + r), (x ^ l * (W j * powOnes A l j)) • (L ^ l) (L v + c) := by
    intro j
    rw [affine_stages L c hA x v K hK (m + r) j (by omega), Finset.smul_sum]
    refine Finset.sum_congr rfl fun l _ => ?_
    rw [smul_smul]
    congr 1
    ring
  simp only [h1]
  rw [Finset.sum_comm, Finset.smul_sum, add_comm m r, Finset.sum_range_add]
  rw [Finset.sum_eq_zero (s := Finset.range m), add_zero]
  · refine Finset.sum_congr rfl fun l _ => ?_
    rw [← Finset.sum_smul, smul_smul, ← Finset.mul_sum]
    congr 1
    ring
  · intro l _
    simp [hz (r + l) (by omega)]

/-- `v` moved by the time `x`, when only the first `r` powers of `L` matter. -/
noncomputable def flow (r : ℕ) (v : V) (x : ℝ) : V :=
  v + ∑ l ∈ Finset.range r, (x ^ (l + 1) * (1 / ((l + 1).factorial : ℝ))) • (L ^ l) (L v + c)

theorem flow_solves {r : ℕ} {v : V} (h0 : (L ^ r) (L v + c) = 0) (u x : ℝ) :
    HasDerivAt (fun x => flow L c r v (x - u)) (L (flow L c r v (x - u)) + c) x := by
  have h1 : ∀ l, HasDerivAt (fun x : ℝ => ((x - u) ^ (l + 1) * (1 / ((l + 1).factorial : ℝ))) • (L ^ l) (L v + c))
      (((x - u) ^ l * (1 / (l.factorial : ℝ))) • (L ^ l) (L v + c)) x := by
    intro l
    refine HasDerivAt.smul_const ?_ _
    have := (((hasDerivAt_id x).sub_const u).pow (l + 1)).mul_const (1 / ((l + 1).factorial : ℝ))
    refine this.congr_deriv ?_
    simp only [id, mul_one, Nat.add_sub_cancel]
    rw [Nat.factorial_succ]
    push_cast
    have : ((l : ℝ) + 1) ≠ 0 := by positivity
    have : (l.factorial : ℝ) ≠ 0 := by positivity
    field_simp
  have h2 := (HasDerivAt.fun_sum (u := Finset.range r) fun l _ => h1 l).const_add v
  refine h2.congr_deriv ?_
  unfold flow
  rw [map_add, map_sum, add_right_comm]
  have h3 : ∀ l, L (((x - u) ^ (l + 1) * (1 / ((l + 1).factorial : ℝ))) • (L ^ l) (L v + c)) =
      ((x - u) ^ (l + 1) * (1 / ((l + 1).factorial : ℝ))) • (L ^ (l + 1)) (L v + c) := by
    intro l
    rw [map_smul, pow_succ' L l]
    rfl
  simp only [h3]
  have h4 := Finset.sum_range_succ' (fun l => ((x - u) ^ l * (1 / (l.factorial : ℝ))) • (L ^ l) (L v + c)) r
  rw [Finset.sum_range_succ, h0, smul_zero, add_zero] at h4
  rw [h4, add_comm]
  simp

theorem flow_nilpotent {r : ℕ} {v : V} (h0 : (L ^ r) (L v + c) = 0) (x : ℝ) : (L ^ r) (L (flow L c r v x) + c) = 0 := by
  unfold flow
  rw [map_add L, add_right_comm, map_add, h0, zero_add, map_sum, map_sum]
  refine Finset.sum_eq_zero fun l _ => ?_
  have : (L ^ r) (L ((L ^ l) (L v + c))) = (L ^ (l + 1)) ((L ^ r) (L v + c)) := by
    have e : (L ^ r) * (L * L ^ l) = L ^ (l + 1) * L ^ r := by
      rw [← pow_succ', ← pow_add, ← pow_add, add_comm]
    exact congrArg (fun φ : V →L[ℝ] V => φ (L v + c)) e
  rw [map_smul, map_smul, this, h0, map_zero, smul_zero]

/-- The solution is the flow. -/
theorem solution_flow {r : ℕ} {y : ℝ → V} {a b u : ℝ} (hy : ∀ t ∈ Set.Ioo a b, HasDerivAt y (L (y t) + c) t) (hu : u ∈ Set.Ioo a b)
    (h0 : (L ^ r) (L (y u) + c) = 0) : ∀ t ∈ Set.Ioo a b, y t = flow L c r (y u) (t - u) := by
  have h := ODE_solution_unique_of_mem_Ioo (v := fun _ v => L v + c) (s := fun _ => Set.univ) (K := ‖L‖₊) (a := a) (b := b) (f := y)
    (g := fun x => flow L c r (y u) (x - u)) (t₀ := u) (fun t _ => by
      have : LipschitzWith ‖L‖₊ fun v => L v + c := by
        refine LipschitzWith.of_dist_le_mul fun v w => ?_
        rw [dist_add_right]
        exact L.lipschitz.dist_le_mul v w
      exact this.lipschitzOnWith) hu (fun t ht => ⟨hy t ht, trivial⟩) (fun t _ => ⟨flow_solves L c h0 u t, trivial⟩) (by
      simp [flow])
  exact h

end

variable {n s d : ℕ}

/-- The linear map of a matrix. -/
noncomputable def matMap (M : Fin n → Fin n → ℝ) : (Fin n → ℝ) →L[ℝ] (Fin n → ℝ) :=
  LinearMap.toContinuousLinearMap (Matrix.mulVecLin (Matrix.of M))

theorem matMap_apply (M : Fin n → Fin n → ℝ) (v : Fin n → ℝ) (i : Fin n) : matMap M v i = ∑ j, M i j * v j := by
  simp [matMap, Matrix.mulVec, dotProduct]

variable (M : Fin n → Fin n → ℝ) (c : Fin n → ℝ)

/-- `f(t, v) = M v + c`. -/
def affineRhs : ℝ → Vec ℝ n → Vec ℝ n := fun _ v i => ∑ j, M i j * v j + c i

theorem affineRhs_eq (t : ℝ) (v : Fin n → ℝ) : affineRhs M c t v = matMap M v + c := by
  funext i
  simp [affineRhs, matMap_apply]

theorem affine_rkstages {T : Tableau ℝ s} {t x : ℝ} {v : Vec ℝ n} {K : Fin (s + 1) → Vec ℝ n}
    (hK : RKStages T (pureRhs (affineRhs M c)) t x v K) (i : Fin (s + 1)) :
    (K i : Fin n → ℝ) = matMap M ((v : Fin n → ℝ) + x • ∑ j, T.A i j • (K j : Fin n → ℝ)) + c := by
  have h := Except.ok.inj (hK i)
  rw [← h, affineRhs_eq]
  congr 2
  funext i
  simp [Finset.sum_apply]

theorem affine_principal {T : Tableau ℝ s} {W : Fin (s + 1) → ℝ} {r : ℕ} (hW' : ∑ i, W i * powOnes T.A r i ≠ 0) {t₀ t₁ : ℝ}
    {y : ℝ → Vec ℝ n} (h0 : ∀ t ∈ Set.Icc t₀ t₁, (matMap M ^ r) (matMap M (y t) + c) ≠ 0) :
    PrincipalNonzero T W (r + 1) (affineRhs M c) y t₀ t₁ := by
  intro t ht S hS
  have e : (fun z : ℝ × (Fin n → ℝ) => ((1 : ℝ), affineRhs M c z.1 z.2)) = fun z => ((1 : ℝ), matMap M z.2 + c) :=
    funext fun z => Prod.ext rfl (affineRhs_eq M c z.1 z.2)
  have hmem : tall r ∈ S := (hS _).mpr (tall_order r)
  have h1 := Finset.sum_eq_single (s := S) (f := fun τ => (∑ i, W i * τ.weight T.A i) •
    differential (E := ℝ × (Fin n → ℝ)) (fun z => ((1 : ℝ), matMap M z.2 + c)) (t, y t) τ) (tall r) (fun τ hτ hne => by
      rw [differential_other, smul_zero]
      rw [(hS τ).mp hτ]
      exact hne) (fun h => absurd hmem h)
  rw [e]
  refine fun hz => h0 t ht ?_
  rw [h1] at hz
  have h2 := congrArg Prod.snd hz
  simp only [Prod.smul_snd, tall_weight] at h2
  rw [differential_tall] at h2
  exact (smul_eq_zero.mp h2).resolve_left hW'

theorem affine_contDiff (k : ℕ) : ContDiff ℝ k (joint (affineRhs M c)) := by
  have : ContDiff ℝ k (fun z : ℝ × (Fin n → ℝ) => matMap M z.2 + c) :=
    ((matMap M).contDiff.comp contDiff_snd).add contDiff_const
  have e : joint (affineRhs M c) = fun z : ℝ × (Fin n → ℝ) => matMap M z.2 + c := funext fun z => affineRhs_eq M c z.1 z.2
  rw [e]
  exact this

theorem affine_sharp {T : Tableau ℝ s} (hT : Explicit T) (hR : RowSums (withLast T)) {W : Fin (s + 2) → ℝ} {r : ℕ} (hr : 1 ≤ r)
    (hW : ∀ τ : Tree, τ.order < r + 1 → ∑ i, W i * τ.weight (withLast T).A i = 0)
    (hW' : ∑ i, W i * powOnes (withLast T).A r i ≠ 0) {t₀ t₁ : ℝ} {y : ℝ → Vec ℝ n}
    (hy : ∀ t ∈ Set.Icc t₀ t₁, ContinuousAt (Y := Fin n → ℝ) y t)
    (h0 : ∀ t ∈ Set.Icc t₀ t₁, (matMap M ^ r) (matMap M (y t) + c) ≠ 0) :
    SharpEstimate T W (r + 1) (affineRhs M c) y t₀ t₁ :=
  sharp_of_principal hT hR (by omega) hW (fun t _ => (affine_contDiff M c (r + 1)).contDiffAt) hy (affine_principal M c hW' h0)

/-- Where the powers of `M` end, a Runge-Kutta step of sufficient order is exact. -/
theorem affine_exact {T : Tableau ℝ s} (hT : Explicit T) {r : ℕ} (hB : OrderConditions T.A T.B r) {t x : ℝ} {v : Vec ℝ n}
    {K : Fin (s + 1) → Vec ℝ n} (hK : RKStages T (pureRhs (affineRhs M c)) t x v K) (h0 : (matMap M ^ r) (matMap M v + c) = 0) :
    rkNew T x v K = flow (matMap M) c r v x := by
  have h1 := affine_weighted (matMap M) c hT.upper x v K (affine_rkstages M c hK) h0 T.B
  have h2 : (rkNew T x v K : Fin n → ℝ) = v + x • ∑ j, T.B j • (K j : Fin n → ℝ) := by
    funext i
    simp [rkNew, Finset.sum_apply]
  rw [h2, h1, flow]
  congr 1
  refine Finset.sum_congr rfl fun l hl => ?_
  have h3 := hB (tall l) (by rw [tall_order]; exact Finset.mem_range.mp hl)
  simp only [tall_weight, tall_density] at h3
  rw [h3]

/-- The same for the dense output. -/
theorem affine_dense {T : Tableau ℝ s} (hT : Explicit T) {r : ℕ} {P : Fin (s + 1) → Fin d → ℝ} (hd : r ≤ d) (hP : DenseConditions T.A P r)
    {t x θ : ℝ} {v : Vec ℝ n} {K : Fin (s + 1) → Vec ℝ n} (hK : RKStages T (pureRhs (affineRhs M c)) t x v K)
    (h0 : (matMap M ^ r) (matMap M v + c) = 0) : denseNew P x θ v K = flow (matMap M) c r v (θ * x) := by
  have h1 := affine_weighted (matMap M) c hT.upper x v K (affine_rkstages M c hK) h0 (denseWeight P θ)
  have h2 : (denseNew P x θ v K : Fin n → ℝ) = v + x • ∑ j, denseWeight P θ j • (K j : Fin n → ℝ) := by
    funext i
    simp [denseNew, Finset.sum_apply]
  rw [h2, h1, flow]
  congr 1
  refine Finset.sum_congr rfl fun l hl => ?_
  have hl' : l < r := Finset.mem_range.mp hl
  have h3 := fun m => hP (tall l) (by rw [tall_order]; exact hl') m
  simp only [tall_weight, tall_density, tall_order] at h3
  have h4 : ∑ j, denseWeight P θ j * powOnes T.A l j = θ ^ (l + 1) * (1 / ((l + 1).factorial : ℝ)) := by
    simp only [denseWeight, Finset.sum_mul]
    rw [Finset.sum_comm]
    have : ∀ m : Fin d, ∑ j, P j m * θ ^ (m.val + 1) * powOnes T.A l j =
        θ ^ (m.val + 1) * if m.val + 1 = l + 1 then 1 / ((l + 1).factorial : ℝ) else 0 := by
      intro m
      rw [← h3 m, Finset.mul_sum]
      exact Finset.sum_congr rfl fun j _ => by ring
    simp only [this]
    rw [Finset.sum_eq_single ⟨l, by omega⟩]
    · simp
    · intro m _ hm
      rw [if_neg, mul_zero]
      intro h
      exact hm (Fin.ext (by simpa using h))
    · intro h
      exact absurd (Finset.mem_univ _) h
  rw [h4]
  congr 1
  rw [mul_pow]
  ring

/-- Where the powers of `M` end, the steps stay on the solution. -/
theorem path_exact {X : Type} {T : Tableau ℝ s} (hT : Explicit T) {r : ℕ} (hB : OrderConditions T.A T.B r)
    {cls : Rhs ℝ n → Solver ℝ n 0 X} (hM : ∀ rhs, WellConfigured (cls rhs).method) (hS : RKSteps T cls) {y : ℝ → Vec ℝ n} {a b t₀ t₁ : ℝ}
    (ha : a < t₀) (hb : t₁ < b) (hy : ∀ t ∈ Set.Ioo a b, SolvesAt (affineRhs M c) y t)
    (h0 : ∀ t ∈ Set.Ioo a b, (matMap M ^ r) (matMap M (y t) + c) = 0) {lim : Bound ℝ} {st st' : St ℝ n 0 X} {l : List (St ℝ n 0 X)}
    (hp : Path (cls (pureRhs (affineRhs M c))) lim st l st') (ht : t₀ ≤ st.t) (hon : On (affineRhs M c) y st) (hh : 0 < st.h) :
    ∀ u ∈ l, u.t ≤ t₁ → u.y = y u.t := by
  have hy' : ∀ t ∈ Set.Ioo a b, HasDerivAt (F := Fin n → ℝ) y (matMap M (y t) + c) t := fun t ht => by
    rw [← affineRhs_eq M c t]; exact hy t ht
  induction hp with
  | nil => simp
  | @cons u v w l hf htk hp ih =>
    obtain ⟨x, K, hK, e1, e2, e3⟩ := hS _ _ _ hon.f htk
    obtain ⟨h1, h2⟩ := C11_step_increases _ (hM _) _ _ hh htk
    have hv : v.t ≤ t₁ → v.y = y v.t := by
      intro hvt
      have hu : u.t ∈ Set.Ioo a b := ⟨by linarith, by linarith⟩
      have hz : (matMap M ^ r) (matMap M u.y + c) = 0 := by rw [hon.y]; exact h0 _ hu
      have e := solution_flow (matMap M) c hy' hu (h0 _ hu) v.t ⟨by linarith, by linarith⟩
      rw [e2, affine_exact M c hT hB hK hz, e, hon.y, e1, add_sub_cancel_left]
    intro z hz hzt
    rcases List.mem_cons.mp hz with rfl | hz'
    · exact hv hzt
    · have hvt : v.t ≤ z.t := by
        obtain ⟨l1, l2, rfl⟩ := List.append_of_mem hz'
        obtain ⟨w', hp1, hp2⟩ := path_split hp
        cases hp2 with
        | cons hf1 ht1 _ => exact (path_pos (hM _) (path_append hp1 (.cons hf1 ht1 (.nil _))) h2).2
      exact ih (by linarith) ⟨hv (by linarith), e3⟩ h2 z hz' hzt

theorem nilpotent_everywhere {r : ℕ} {y : ℝ → Vec ℝ n} {a b u : ℝ} (hy : ∀ t ∈ Set.Ioo a b, SolvesAt (affineRhs M c) y t)
    (hu : u ∈ Set.Ioo a b) (h0 : (matMap M ^ r) (matMap M (y u) + c) = 0) :
    ∀ t ∈ Set.Ioo a b, (matMap M ^ r) (matMap M (y t) + c) = 0 := fun t ht => by
  have hy' : ∀ t ∈ Set.Ioo a b, HasDerivAt (F := Fin n → ℝ) y (matMap M (y t) + c) t := fun t ht => by
    rw [← affineRhs_eq M c t]; exact hy t ht
  rw [solution_flow (matMap M) c hy' hu h0 t ht]
  exact flow_nilpotent (matMap M) c h0 _

theorem linear_follows {lib : Lib ℝ} (hl : RealFunctions lib) {C : FsalCoef ℝ s d} (hT : Explicit C.toTableau) (hRows : RowSums C.toTableau)
    (hRows' : RowSums (withLast C.toTableau)) {r q : ℕ} (hr : 1 ≤ r) (hB : OrderConditions C.A C.B (r + 1))
    (hq : C.errorExponent = 1 / ((q : ℝ) + 1))
    (hW : ∀ τ : Tree, τ.order ≤ r → ∑ i, C.E i * τ.weight (withLast C.toTableau).A i = 0)
    (hW' : ∑ i, C.E i * powOnes (withLast C.toTableau).A r i ≠ 0) (b : Bound ℝ) :
    ErrorFollowsTolerance (fun o (rhs : Rhs ℝ n) => ⟨fsal lib o C, rhs, b⟩) (fun f _ _ _ => LinearSystem f) (r + 1) := by
  rintro f y a b' t₀ t₁ F hf ha hb hy ⟨M, c, rfl⟩
  change ∀ t ∈ Set.Ioo a b', SolvesAt (affineRhs M c) y t at hy
  by_cases h : ∃ t ∈ Set.Icc t₀ t₁, (matMap M ^ r) (matMap M (y t) + c) = 0
  · obtain ⟨u, hu, h0⟩ := h
    have h1 := nilpotent_everywhere M c hy (⟨ha.trans_le hu.1, hu.2.trans_lt hb⟩ : u ∈ Set.Ioo a b') h0
    have hex : 0 ≤ C.errorExponent := by rw [hq]; positivity
    refine ⟨0, 1, 1, one_pos, one_pos, fun o ho _ _ _ st st' l lim ht hon hh _ hpath w hw hwt i => ?_⟩
    have := path_exact M c hT (r := r) (fun τ hτ => hB τ (hτ.trans (Nat.le_succ r)))
      (cls := fun rhs => ⟨fsal lib o C, rhs, b⟩) (fun _ => Or.inr ⟨lib, o, _, .fsal _, real_powLaw hl, sane_of_shrinking ho, hex⟩)
      (fsalBody_steps hT lib o (real_powLaw hl) (sane_of_shrinking ho) _ hex _ b _) ha hb hy h1 hpath ht.ge hon hh w hw hwt
    rw [this]
    simp
  · push Not at h
    exact follows_tolerance hl hT hRows (by omega) hB hq b _ y a b' t₀ t₁ F hf ha hb hy
      (affine_sharp M c hT hRows' hr (fun τ hτ => hW τ (Nat.lt_succ_iff.mp hτ)) hW' (fun t ht =>
        (hy t ⟨ha.trans_le ht.1, ht.2.trans_lt hb⟩).continuousAt) h)

theorem linear_run_follows {lib : Lib ℝ} (hl : RealFunctions lib) {C : FsalCoef ℝ s (d + 1)} (hT : Explicit C.toTableau)
    (hRows : RowSums C.toTableau) (hRows' : RowSums (withLast C.toTableau)) (hends : EndConditions C.toTableau C.P) {q r : ℕ} (hr : 1 ≤ r)
    (hB : OrderConditions C.A C.B (r + 1)) (hd : r ≤ d + 1) (hP : DenseConditions (withLast C.toTableau).A C.P r)
    (hq : C.errorExponent = 1 / ((q : ℝ) + 1))
    (hW : ∀ τ : Tree, τ.order ≤ r → ∑ i, C.E i * τ.weight (withLast C.toTableau).A i = 0)
    (hW' : ∑ i, C.E i * powOnes (withLast C.toTableau).A r i ≠ 0) (b : Bound ℝ) :
    RunFollowsTolerance (fun o (rhs : Rhs ℝ n) => ⟨fsal lib o C, rhs, b⟩) (fsalStarts C) (fun f _ _ _ => LinearSystem f) (r + 1) := by
  rintro f y a b' t₀ t₁ t₂ F hf ha ht12 hb hy ⟨M, c, rfl⟩
  change ∀ t ∈ Set.Ioo a b', SolvesAt (affineRhs M c) y t at hy
  by_cases h : ∃ t ∈ Set.Icc t₀ t₂, (matMap M ^ r) (matMap M (y t) + c) = 0
  · obtain ⟨u, hu, h0⟩ := h
    have h1 := nilpotent_everywhere M c hy (⟨ha.trans_le hu.1, hu.2.trans_lt hb⟩ : u ∈ Set.Ioo a b') h0
    have hy' : ∀ t ∈ Set.Ioo a b', HasDerivAt (F := Fin n → ℝ) y (matMap M (y t) + c) t := fun t ht => by
      rw [← affineRhs_eq M c t]; exact hy t ht
    have hex : 0 ≤ C.errorExponent := by rw [hq]; positivity
    refine ⟨0, 1, 1, one_pos, one_pos, fun o ho _ _ _ bo argsort hA s0 s' ts out hs0 hh _ hrun p hp hpT i => ?_⟩
    have hM : ∀ rhs : Rhs ℝ n, WellConfigured (fsal (n := n) lib o C) := fun _ =>
      Or.inr ⟨lib, o, _, .fsal _, real_powLaw hl, sane_of_shrinking ho, hex⟩
    have hS := fsalBody_steps (n := n) (I := RkItp ℝ n (d + 1)) hT lib o (real_powLaw hl) (sane_of_shrinking ho) C.errorExponent hex (fsalErrNorm lib o C.E) b
    have h0 := fsal_startsAt (n := n) C lib o b
    have ht0 : s0.t = t₀ := h0.times _ _ _ _ hs0 _
    have hy0 : s0.y = y t₀ := h0.y _ _ _ _ hs0
    have hon : On (affineRhs M c) y s0 := ⟨by rw [ht0, hy0], by rw [ht0, hy0]; exact (Except.ok.inj (h0.f _ _ _ _ hs0)).symm⟩
    obtain ⟨s1, rr, s2, hreach, hint, hval⟩ := C20_interpolant ⟨fsal lib o C, pureRhs (affineRhs M c), b⟩ (hM (pureRhs (affineRhs M c)))
      bo argsort hA s0 s0 (h0.constructed _ _ _ _ hs0) (fun i j _ => by rw [h0.times _ _ _ _ hs0, h0.times _ _ _ _ hs0]) hh (.start s0) ts
      out s' hrun p hp
    have hrange : s1.cache.ts (Buffer.iOld 0) ≤ p.1 ∧ p.1 ≤ s1.t := by
      by_contra hc
      rw [C10_interpolate_outside _ _ _ hc] at hint
      simp at hint
    suffices p.2 = y p.1 by rw [this]; simp
    rcases reach_last hreach with rfl | ⟨l, u, hpath, hu, hfits, htakes⟩
    · have e : p.1 = t₀ := by
        have h1 := hrange.1
        rw [h0.times _ _ _ _ hs0] at h1
        exact le_antisymm (by rw [← ht0]; exact hrange.2) h1
      rw [e] at hint
      rw [← hval, h0.interp _ _ _ _ hs0 rr s2 hint, e]
    · obtain ⟨huh, hut⟩ := path_pos (hM (pureRhs (affineRhs M c))) hpath hh
      rw [ht0] at hut
      have huy : u.y = y u.t := by
        rcases path_mem hpath with rfl | hmem
        · rw [hy0, ht0]
        · exact path_exact M c hT (r := r) (fun τ hτ => hB τ (hτ.trans (Nat.le_succ r)))
            (cls := fun rhs => ⟨fsal lib o C, rhs, b⟩) hM (hS _) ha (ht12.trans hb) hy h1 hpath ht0.ge hon hh u hmem (hu.le.trans hpT)
      have hlt := (C11_step_increases _ (hM (pureRhs (affineRhs M c))) _ _ huh htakes).1
      have hx0 : 0 < s1.t - u.t := sub_pos.mpr hlt
      obtain ⟨K, hK, hdense⟩ := fsal_dense (n := n) _ hT hends lib o (real_powLaw hl) (sane_of_shrinking ho) hex b (affineRhs M c) _ _ s0 u s1 l
        hs0 hh hpath hfits htakes (path_deriv (hS _) hpath hon.f) hlt
      have hmem : u.t ∈ Set.Ioo a b' := ⟨by linarith, by linarith⟩
      have hz : (matMap M ^ r) (matMap M u.y + c) = 0 := by rw [huy]; exact h1 _ hmem
      have e := solution_flow (matMap M) c hy' hmem (h1 _ hmem) p.1 ⟨by linarith, by linarith⟩
      rw [← hval, hdense p.1 rr s2 hu hrange.2 hint, affine_dense M c (withLast_explicit hT) hd hP hK hz, div_mul_cancel₀ _ hx0.ne', e, huy]
  · push Not at h
    exact run_follows_tolerance hl hT hRows hRows' hends hB hd hP hq b _ y a b' t₀ t₁ t₂ F hf ha ht12 hb hy
      (affine_sharp M c hT hRows' hr (fun τ hτ => hW τ (Nat.lt_succ_iff.mp hτ)) hW' (fun t ht =>
        (hy t ⟨ha.trans_le ht.1, ht.2.trans_lt hb⟩).continuousAt) h)

end Nbkode
