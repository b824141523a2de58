import Verif.Props.LocalError
import Verif.Props.Equilibria
import Verif.Props.VarDemo
import Verif.Proofs.LocalErrorApprox
import Verif.Proofs.TreeDop

/-!
# The order of DOP853: C67

The coefficients in the code are decimal fractions with 30 digits. They satisfy the conditions of order 8 not exactly but
within `3 * 10^-29`.
-/

set_option autoImplicit false
set_option linter.unusedSectionVars false

namespace Nbkode
open Py Spec Solver Topology

variable {n s : Nat} {I : Type}

/-- A variable-step method whose order conditions hold within `ε`. -/
theorem fsalBody_approximateOrder {T : Tableau ℝ s} {p : Nat} (hT : Explicit T) {ε : ℝ} (hε : 0 ≤ ε)
    (hB : ∀ τ : Tree, τ.order ≤ p → |∑ i, T.B i * τ.weight T.A i - 1 / (τ.density : ℝ)| ≤ ε)
    (lib : Lib ℝ) (o : VarOptions ℝ) (hl : PowLaw lib) (ho : SaneOptions o) (ex : ℝ)
    (hex : 0 ≤ ex) (errNorm : ErrNorm ℝ n s) (b : Bound ℝ)
    (itp : Rhs ℝ n → ℝ → Py (St ℝ n 0 (FsalAux ℝ n s I)) (Ref ℝ n 0)) :
    ApproximateOrder (fun rhs : Rhs ℝ n => ⟨⟨fsalBody lib o ex T errNorm, itp⟩, rhs, b⟩) p ε := by
  intro g y t₀ S hS hf hy
  obtain ⟨C, δ, hδ, h⟩ := approx_error hS hf hy hT hε hB
  refine ⟨C, δ, hδ, fun st st' hon hst ht hx d => ?_⟩
  obtain ⟨q, K, f', -, -, hK, -, h2, -⟩ := fsalBody_records lib o hl ho ex hex T hT errNorm _
    st st' (congrArg Except.ok hon.f.symm) hst
  have e1 : st'.t = st.t + st.h * q := by simp only [St.t, h2, push_t]
  have e2 : st'.y = rkNew T (st.h * q) st.y K := by simp only [St.y, h2, push_y]
  rw [e1, add_sub_cancel_left] at hx
  rw [e1, e2, add_sub_cancel_left]
  rw [hon.y] at hK ⊢
  exact h _ _ K ht hx hK d

/-- **C67** (order conditions): for every rooted tree with at most 8 vertices, the elementary weight of the coefficients
of `DOP853` is `1 / γ` within `3 * 10^-29`. -/
theorem C67_conditions (τ : Tree) (hτ : τ.order ≤ 8) :
    |∑ i, (DOP853 : DopCoef ℝ).toTableau.B i * τ.weight (DOP853 : DopCoef ℝ).toTableau.A i - 1 / (τ.density : ℝ)| ≤
      3 / 10 ^ 29 :=
  DOP853_tree τ hτ

/-- **C67** (nodes): the rows of `A` sum to the nodes within `6 * 10^-29`. -/
theorem C67_nodes (i : Fin 12) :
    |∑ j, (DOP853 : DopCoef ℝ).toTableau.A i j - (DOP853 : DopCoef ℝ).toTableau.C i| ≤ 6 / 10 ^ 29 :=
  DOP853_rows i

/-- **C67** (step): one step of `DOP853`, whatever the number of rejected attempts, has order 8 up to the rounding of the
coefficients, on every smooth problem `y' = g(y)`. -/
theorem C67_step (lib : Lib ℝ) (o : VarOptions ℝ) (hl : PowLaw lib) (ho : SaneOptions o) (b : Bound ℝ) :
    ApproximateOrder (fun rhs : Rhs ℝ n => ⟨dop853 lib o DOP853, rhs, b⟩) 8 (3 / 10 ^ 29) :=
  fsalBody_approximateOrder DOP853_explicit (by positivity) DOP853_tree lib o hl ho _ (by simp [DOP853, q]) _ b _

/-- **C67** (third-order estimate of the pair). -/
theorem C67_estimate3 : ApproximateEstimate (n := n) (DOP853 : DopCoef ℝ).toTableau (DOP853 : DopCoef ℝ).E3 3
    (2 / 10 ^ 29) := fun _ _ _ _ hS hg hy =>
  approx_estimate hS hg hy.self_of_nhds.continuousAt (withLast_explicit DOP853_explicit) (by positivity) DOP853_tree3

/-- **C67** (fifth-order estimate of the pair). -/
theorem C67_estimate5 : ApproximateEstimate (n := n) (DOP853 : DopCoef ℝ).toTableau (DOP853 : DopCoef ℝ).E5 5
    (5 / 10 ^ 28) := fun _ _ _ _ hS hg hy =>
  approx_estimate hS hg hy.self_of_nhds.continuousAt (withLast_explicit DOP853_explicit) (by positivity) DOP853_tree5

/-! ### Cases -/

namespace Demo

/-- The estimates of DOP853 on `y' = 1` are not zero, because the coefficients are rounded. -/
theorem ones_norm (yN y : Vec ℝ 1) : ∃ en, dopNorm realLib coarse (DOP853 : DopCoef ℝ).E3 (DOP853 : DopCoef ℝ).E5 1
    (fun _ _ => 1) yN y = .ok en ∧ 0 < en ∧ en < 1 := by
  have hrms : ∀ e : ℝ, rmsError realLib coarse y yN (fun _ => 1 * e) = |e| := by
    intro e
    simp [rmsError, realLib, coarse, Real.sqrt_sq_eq_abs]
  have h5 : |∑ j, (DOP853 : DopCoef ℝ).E5 j| = 23 / 50000000000000000000000000000 := by
    have : ∑ j, (DOP853 : DopCoef ℝ).E5 j = -(23 / 50000000000000000000000000000) := by
      simp [DOP853, dopE5, q, Fin.sum_univ_succ]
      norm_num
    rw [this, abs_neg, abs_of_pos (by norm_num)]
  have hroot : ∀ x : ℝ, 1 ≤ realLib.sqrt (1 + x ^ 2) := fun x => by
    have : realLib.sqrt (1 + x ^ 2) = Real.sqrt (1 + x ^ 2) := rfl
    rw [this, Real.one_le_sqrt]
    nlinarith [sq_nonneg x]
  unfold dopNorm
  simp only [mul_one (M := ℝ), hrms, h5]
  generalize |∑ j, (DOP853 : DopCoef ℝ).E3 j| = e3
  have := hroot (e3 / (10 * (23 / 50000000000000000000000000000)))
  rw [if_neg (by
    rintro (h | h)
    · norm_num at h
    · rw [h] at this; norm_num at this)]
  refine ⟨_, rfl, by positivity, ?_⟩
  rw [div_lt_one (by linarith)]
  refine lt_of_lt_of_le ?_ this
  norm_num

/-- A DOP853 on `y' = 1` makes a step from `(0, 0)` to `t = 1`. -/
theorem ones_step (K : Fin 13 → Vec ℝ 1) (itp : DopItp ℝ 1) : ∃ st',
    Takes ⟨dop853 realLib coarse DOP853, pureRhs fun _ _ _ => 1, .inf⟩
      (⟨⟨fun _ => 0, fun _ _ => 0, fun _ _ => 1⟩, 1, ⟨K, itp⟩⟩ : St ℝ 1 0 _) st' ∧ st'.t = 1 := by
  obtain ⟨en, h1, h2, h3⟩ := ones_norm (proposal (DOP853 : DopCoef ℝ).toTableau 1 (fun _ => 0) (fun _ _ => 1)) (fun _ => 0)
  refine ⟨_, (dop853_takes_iff realLib coarse DOP853 DOP853_explicit _ .inf _ _ rfl).mpr
    ⟨[⟨1, en⟩], ⟨1, en⟩, _, fun _ _ => 1, .accept (fun _ => rfl) h1 (Or.inr h3)
      (Or.inr ⟨h2.ne', (realLib_powLaw.pos _ _ h2).ne', rfl⟩), rfl, rfl⟩, ?_⟩
  exact (push_t _ _ _ _).trans (by simp [St.t, Buffer.t])

-- C37 for that step.
example (K : Fin 13 → Vec ℝ 1) (itp : DopItp ℝ 1) : ∃ st' : St ℝ 1 0 _,
    Takes ⟨dop853 realLib coarse DOP853, pureRhs fun _ _ _ => 1, .inf⟩
      (⟨⟨fun _ => 0, fun _ _ => 0, fun _ _ => 1⟩, 1, ⟨K, itp⟩⟩ : St ℝ 1 0 _) st' ∧ ∃ q, coarse.minFactor ≤ q ∧ q ≤ coarse.maxFactor ∧ st'.h = q := by
  obtain ⟨st', h, ht⟩ := ones_step K itp
  obtain ⟨-, -, q, h1, h2, h3⟩ := C37_step_dop853 realLib coarse realLib_powLaw coarse_sane (by norm_num [coarse, VarOptions.default])
    DOP853 DOP853_explicit (by simp [DOP853, Nbkode.q]) _ .inf _ _ rfl one_pos h
  refine ⟨st', h, q, h1, h2, ?_⟩
  rw [h3, ht]
  simp [St.t, Buffer.t]

end Demo

-- C67: its hypotheses are met by `y' = 1`, `y = t`.
open Demo in
example (S : Finset Tree) (hS : ∀ τ : Tree, τ.order ≤ 8 → τ ∈ S) (K : Fin 13 → Vec ℝ 1) (itp : DopItp ℝ 1) :
    (∃ C δ, 0 < δ ∧ ∀ s s' : St ℝ 1 0 (FsalAux ℝ 1 11 (DopItp ℝ 1)), On (fun _ _ _ => 1) (fun t _ => t) s →
      Takes ⟨dop853 realLib coarse DOP853, pureRhs fun _ _ _ => 1, .inf⟩ s s' → |s.t - 0| < δ → |s'.t - s.t| < δ →
      ∀ d, |s'.y d - s'.t| ≤ C * |s'.t - s.t| ^ 9 + 3 / 10 ^ 29 * ∑ τ ∈ S, |s'.t - s.t| ^ τ.order *
        ‖elementary (fun _ _ => (1 : ℝ)) (fun _ : Fin 1 => s.t) τ‖) ∧
    ∃ s s' : St ℝ 1 0 (FsalAux ℝ 1 11 (DopItp ℝ 1)), On (fun _ _ _ => 1) (fun t _ => t) s ∧
      Takes ⟨dop853 realLib coarse DOP853, pureRhs fun _ _ _ => 1, .inf⟩ s s' := by
  refine ⟨C67_step realLib coarse realLib_powLaw coarse_sane .inf (fun _ _ => 1) (fun t _ => t) 0 S hS contDiffAt_const ?_, ?_⟩
  · exact Filter.Eventually.of_forall fun t => hasDerivAt_pi.mpr fun _ => hasDerivAt_id t
  · obtain ⟨st', h, -⟩ := ones_step K itp
    exact ⟨_, st', ⟨by funext _; simp [St.y, Buffer.y, St.t, Buffer.t], rfl⟩, h⟩

end Nbkode
