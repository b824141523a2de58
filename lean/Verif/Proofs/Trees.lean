import Verif.Spec.Trees
import Mathlib.Analysis.Normed.Module.Multilinear.Basic
import Mathlib.Analysis.Asymptotics.Lemmas
import Mathlib.Analysis.Calculus.FormalMultilinearSeries

/-!
# Expansions in rooted trees

Everything is along a filter `l` on a parameter space `Ω`, with a step size `h ω → 0` and Taylor coefficients `q ω k`
that stay bounded, so that constants are uniform in the base point.
-/

set_option autoImplicit false

namespace Nbkode
open Spec Filter Asymptotics Topology

namespace Spec.Tree

open Classical in
/-- The trees with at most `N` vertices. -/
noncomputable def upTo : ℕ → Finset Tree
  | 0 => ∅
  | N + 1 => (((Finset.range (N + 1)).sigma fun k => Fintype.piFinset fun _ : Fin k => upTo N).filter
      fun x => ∑ l, (x.2 l).order ≤ N).map ⟨fun x => node x.1 x.2, by
        rintro ⟨k, c⟩ ⟨k', c'⟩ h
        cases h
        rfl⟩

theorem order_pos (τ : Tree) : 1 ≤ τ.order := by
  cases τ with
  | node k c => rw [order]; omega

theorem mem_upTo {N : ℕ} {τ : Tree} : τ ∈ upTo N ↔ τ.order ≤ N := by
  induction N generalizing τ with
  | zero =>
    have := order_pos τ
    simp [upTo]
    omega
  | succ N ih =>
    cases τ with
    | node k c =>
      rw [upTo, order]
      simp only [Finset.mem_map, Finset.mem_filter, Finset.mem_sigma, Finset.mem_range, Fintype.mem_piFinset,
        Function.Embedding.coeFn_mk, ih]
      constructor
      · rintro ⟨⟨k', c'⟩, ⟨⟨-, -⟩, h⟩, e⟩
        cases e
        omega
      · intro h
        have h' : ∑ l, (c l).order ≤ N := by omega
        refine ⟨⟨k, c⟩, ⟨⟨?_, fun l => ?_⟩, h'⟩, rfl⟩
        · have : ∑ l : Fin k, 1 ≤ ∑ l, (c l).order := Finset.sum_le_sum fun l _ => order_pos _
          simp at this
          show k < N + 1
          omega
        · exact (Finset.single_le_sum (f := fun l => (c l).order) (fun _ _ => Nat.zero_le _) (Finset.mem_univ l)).trans h'

variable {E : Type} [NormedAddCommGroup E] [NormedSpace ℝ E]

/-- The elementary differential of a tree. -/
def diff (q : (k : ℕ) → E [×k]→L[ℝ] E) : Tree → E
  | node k c => q k fun l => diff q (c l)

/-- Coefficients of `F(y + δ)` from those of `δ`. -/
def up (c : Tree → ℝ) : Tree → ℝ
  | node _ r => ∏ l, c (r l)

/-- `∑ c(τ) h^|τ| F(τ)` over the trees with at most `N` vertices. -/
noncomputable def series (q : (k : ℕ) → E [×k]→L[ℝ] E) (c : Tree → ℝ) (N : ℕ) (h : ℝ) : E :=
  ∑ τ ∈ upTo N, (c τ * h ^ τ.order) • diff q τ

/-- `∑ c(τ) h^(|τ| - 1) F(τ)` over the trees with at most `N` vertices. -/
noncomputable def slopes (q : (k : ℕ) → E [×k]→L[ℝ] E) (c : Tree → ℝ) (N : ℕ) (h : ℝ) : E :=
  ∑ τ ∈ upTo N, (c τ * h ^ (τ.order - 1)) • diff q τ

theorem slopes_succ (q : (k : ℕ) → E [×k]→L[ℝ] E) (c : Tree → ℝ) (N : ℕ) (h : ℝ) :
    slopes q (up c) (N + 1) h = ∑ k ∈ Finset.range (N + 1), ∑ r ∈ Fintype.piFinset fun _ : Fin k => upTo N,
      if ∑ l, (r l).order ≤ N then ((∏ l, c (r l)) * h ^ (∑ l, (r l).order)) • q k (fun l => diff q (r l)) else 0 := by
  classical
  rw [slopes, upTo, Finset.sum_map, Finset.sum_filter, Finset.sum_sigma]
  refine Finset.sum_congr rfl fun k _ => Finset.sum_congr rfl fun r _ => ?_
  split
  · show ((∏ l, c (r l)) * h ^ ((node k r).order - 1)) • diff q (node k r) = _
    rw [order, diff, Nat.add_sub_cancel_left]
  · rfl

theorem image_series (q : (k : ℕ) → E [×k]→L[ℝ] E) (c : Tree → ℝ) (N : ℕ) (h : ℝ) (k : ℕ) :
    q k (fun _ => series q c N h) = ∑ r ∈ Fintype.piFinset fun _ : Fin k => upTo N,
      ((∏ l, c (r l)) * h ^ (∑ l, (r l).order)) • q k (fun l => diff q (r l)) := by
  classical
  have := (q k).toMultilinearMap.map_sum_finset (fun _ τ => (c τ * h ^ τ.order) • diff q τ) (fun _ : Fin k => upTo N)
  simp only [ContinuousMultilinearMap.coe_coe] at this
  simp only [series]
  rw [this]
  refine Finset.sum_congr rfl fun r _ => ?_
  rw [(q k).map_smul_univ]
  congr 1
  rw [Finset.prod_mul_distrib, Finset.prod_pow_eq_pow_sum]

variable {Ω : Type} {l : Filter Ω} {h : Ω → ℝ} {q : Ω → (k : ℕ) → E [×k]→L[ℝ] E}

theorem sum_isBigO {ι : Type} {F : Type} [NormedAddCommGroup F] {s : Finset ι} {f : ι → Ω → F} {g : Ω → ℝ}
    (hf : ∀ i ∈ s, f i =O[l] g) : (fun ω => ∑ i ∈ s, f i ω) =O[l] g := by
  have := IsBigO.sum hf
  refine this.congr_left fun ω => ?_
  rw [Finset.sum_apply]

theorem pow_isBigO (hh : Tendsto h l (𝓝 0)) {m n : ℕ} (hmn : n ≤ m) :
    (fun ω => h ω ^ m) =O[l] fun ω => h ω ^ n := by
  have h1 : (fun ω => h ω ^ (m - n)) =O[l] fun _ => (1 : ℝ) :=
    ((hh.pow (m - n)).isBigO_one ℝ)
  have h2 := h1.mul (isBigO_refl (fun ω => h ω ^ n) l)
  refine (h2.congr_left fun ω => ?_).congr_right fun ω => ?_
  · rw [← pow_add, Nat.sub_add_cancel hmn]
  · rw [one_mul]

theorem apply_isBigO {k : ℕ} {Q : Ω → E [×k]→L[ℝ] E} (hQ : Q =O[l] fun _ => (1 : ℝ)) {v : Ω → Fin k → E}
    (hv : ∀ i, (fun ω => v ω i) =O[l] fun _ => (1 : ℝ)) : (fun ω => Q ω (v ω)) =O[l] fun _ => (1 : ℝ) := by
  have h1 : (fun ω => ‖Q ω‖ * ∏ i, ‖v ω i‖) =O[l] fun _ => (1 : ℝ) := by
    have h2 : (fun ω => ∏ i, ‖v ω i‖) =O[l] fun ω => ∏ _i : Fin k, (1 : ℝ) :=
      IsBigO.finsetProd fun i _ => (hv i).norm_left
    simpa using hQ.norm_left.mul h2
  refine IsBigO.trans (IsBigO.of_bound 1 (Eventually.of_forall fun ω => ?_)) h1
  rw [one_mul]
  exact ((Q ω).le_opNorm _).trans (le_abs_self _)

theorem diff_isBigO (hq : ∀ k, (fun ω => q ω k) =O[l] fun _ => (1 : ℝ)) (τ : Tree) :
    (fun ω => diff (q ω) τ) =O[l] fun _ => (1 : ℝ) := by
  induction τ with
  | node k c ih => exact apply_isBigO (hq k) ih

theorem series_isBigO (hh : Tendsto h l (𝓝 0)) (hq : ∀ k, (fun ω => q ω k) =O[l] fun _ => (1 : ℝ)) (c : Tree → ℝ)
    (N : ℕ) : (fun ω => series (q ω) c N (h ω)) =O[l] h := by
  refine sum_isBigO fun τ _ => ?_
  have h1 : (fun ω => c τ * h ω ^ τ.order) =O[l] h := by
    refine IsBigO.const_mul_left ?_ _
    exact (pow_isBigO hh (order_pos τ)).congr_right fun ω => pow_one _
  simpa using h1.smul (diff_isBigO hq τ)

/-- The difference of the values of a multilinear map at two diagonal points. -/
theorem diagonal_isBigO {k : ℕ} {Q : Ω → E [×k]→L[ℝ] E} (hQ : Q =O[l] fun _ => (1 : ℝ)) {u v : Ω → E}
    {e : Ω → ℝ} (hu : u =O[l] fun _ => (1 : ℝ)) (hv : v =O[l] fun _ => (1 : ℝ)) (huv : (fun ω => u ω - v ω) =O[l] e) :
    (fun ω => Q ω (fun _ => u ω) - Q ω (fun _ => v ω)) =O[l] e := by
  have hm : (fun ω => max ‖u ω‖ ‖v ω‖) =O[l] fun _ => (1 : ℝ) := by
    refine IsBigO.trans (IsBigO.of_bound 1 (Eventually.of_forall fun ω => ?_)) (hu.norm_left.add hv.norm_left)
    rw [one_mul, Real.norm_of_nonneg (le_max_of_le_left (norm_nonneg _)),
      Real.norm_of_nonneg (add_nonneg (norm_nonneg _) (norm_nonneg _))]
    exact max_le (le_add_of_nonneg_right (norm_nonneg _)) (le_add_of_nonneg_left (norm_nonneg _))
  have h1 : (fun ω => ‖Q ω‖ * k * max ‖u ω‖ ‖v ω‖ ^ (k - 1) * ‖u ω - v ω‖) =O[l] e := by
    have a := ((hQ.norm_left.mul (isBigO_refl (fun _ => (k : ℝ)) l)).mul (hm.pow (k - 1))).mul huv.norm_left
    refine a.trans ?_
    simp only [one_pow, mul_one, one_mul]
    exact IsBigO.const_mul_left (isBigO_refl e l) (k : ℝ)
  refine IsBigO.trans (IsBigO.of_bound 1 (Eventually.of_forall fun ω => ?_)) h1
  rw [one_mul]
  refine le_trans ?_ (le_abs_self _)
  rcases Nat.eq_zero_or_pos k with rfl | hk
  · have : (fun _ : Fin 0 => u ω) = fun _ => v ω := funext fun i => i.elim0
    rw [this, sub_self, norm_zero]
    positivity
  · have := (Q ω).norm_image_sub_le (fun _ => u ω) (fun _ => v ω)
    have hne : Nonempty (Fin k) := ⟨⟨0, hk⟩⟩
    simpa [pi_norm_const, Pi.sub_def] using this

/-- `G ω δ` has the Taylor coefficients `q ω k` up to order `n`, uniformly along `l`. -/
def Taylor (l : Filter Ω) (G : Ω → E → E) (q : Ω → (k : ℕ) → E [×k]→L[ℝ] E) (n : ℕ) : Prop :=
  ∀ δ : Ω → E, Tendsto δ l (𝓝 0) →
    (fun ω => G ω (δ ω) - ∑ k ∈ Finset.range n, q ω k fun _ => δ ω) =O[l] fun ω => ‖δ ω‖ ^ n

/-- From the expansion of `δ` to the expansion of `G δ`. -/
theorem compose {G : Ω → E → E} (hh : Tendsto h l (𝓝 0)) (hq : ∀ k, (fun ω => q ω k) =O[l] fun _ => (1 : ℝ))
    {N : ℕ} (hT : Taylor l G q (N + 1)) {c : Tree → ℝ} {δ : Ω → E}
    (hδ : (fun ω => δ ω - series (q ω) c N (h ω)) =O[l] fun ω => h ω ^ (N + 1)) :
    (fun ω => G ω (δ ω) - slopes (q ω) (up c) (N + 1) (h ω)) =O[l] fun ω => h ω ^ (N + 1) := by
  classical
  have hs := series_isBigO hh hq c N
  have hδ1 : δ =O[l] h := by
    have h1 : (fun ω => h ω ^ (N + 1)) =O[l] h := (pow_isBigO hh (Nat.le_add_left 1 N)).congr_right fun ω => pow_one _
    refine ((hδ.trans h1).add hs).congr_left fun ω => ?_
    abel
  have h1 : h =O[l] fun _ => (1 : ℝ) := hh.isBigO_one ℝ
  have hδ0 : Tendsto δ l (𝓝 0) := hδ1.trans_tendsto hh
  have e1 : (fun ω => G ω (δ ω) - ∑ k ∈ Finset.range (N + 1), q ω k fun _ => δ ω) =O[l] fun ω => h ω ^ (N + 1) :=
    (hT δ hδ0).trans ((hδ1.norm_left).pow (N + 1))
  have e2 : (fun ω => (∑ k ∈ Finset.range (N + 1), q ω k fun _ => δ ω) -
      ∑ k ∈ Finset.range (N + 1), q ω k fun _ => series (q ω) c N (h ω)) =O[l] fun ω => h ω ^ (N + 1) := by
    simp only [← Finset.sum_sub_distrib]
    exact sum_isBigO fun k _ => diagonal_isBigO (hq k) (hδ1.trans h1) (hs.trans h1) hδ
  have e3 : (fun ω => (∑ k ∈ Finset.range (N + 1), q ω k fun _ => series (q ω) c N (h ω)) -
      slopes (q ω) (up c) (N + 1) (h ω)) =O[l] fun ω => h ω ^ (N + 1) := by
    simp only [slopes_succ, image_series, ← Finset.sum_sub_distrib]
    refine sum_isBigO fun k _ => sum_isBigO fun r _ => ?_
    by_cases hr : ∑ i, (r i).order ≤ N
    · simp only [hr, if_true, sub_self]
      exact isBigO_zero _ _
    · simp only [hr, if_false, sub_zero]
      have a : (fun ω => (∏ i, c (r i)) * h ω ^ ∑ i, (r i).order) =O[l] fun ω => h ω ^ (N + 1) :=
        IsBigO.const_mul_left (pow_isBigO hh (by omega)) _
      simpa using a.smul (apply_isBigO (hq k) fun i => diff_isBigO hq (r i))
  refine ((e1.add e2).add e3).congr_left fun ω => ?_
  abel

end Spec.Tree
end Nbkode
