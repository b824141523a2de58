import Verif.Spec.RoundedError
import Verif.Proofs.RoundedCalc
import Verif.Proofs.Convergence

/-! A Runge-Kutta step with machine numbers is close to the step with exact numbers. -/

set_option autoImplicit false
set_option linter.unusedSectionVars false

namespace Nbkode
open Spec Spec.Num

variable {n s m : ℕ}

/-- The coefficients the machine has are close to the exact ones. -/
def NearTableau (T : ∀ φ : Rounding, Tableau (Num φ) s) (T' : Tableau ℝ s) : Prop :=
  ∃ c, 0 ≤ c ∧ ∀ (φ : Rounding) (u η : ℝ), φ.Accurate u η → u + η ≤ 1 / 2 →
    (∀ i j, |((T φ).A i j).val - T'.A i j| ≤ c * (u + η)) ∧ (∀ i, |((T φ).B i).val - T'.B i| ≤ c * (u + η)) ∧
      ∀ i, |((T φ).C i).val - T'.C i| ≤ c * (u + η)

theorem nearTableau_of {T : ∀ φ : Rounding, Tableau (Num φ) s} {T' : Tableau ℝ s}
    (hA : ∀ i j, NearConst (fun φ => (T φ).A i j) (T'.A i j)) (hB : ∀ i, NearConst (fun φ => (T φ).B i) (T'.B i))
    (hC : ∀ i, NearConst (fun φ => (T φ).C i) (T'.C i)) : NearTableau T T' := by
  choose a ha0 ha using hA
  choose b hb0 hb using hB
  choose c hc0 hc using hC
  have hsum : ∀ i j, a i j ≤ ∑ i, ∑ j, a i j := fun i j =>
    (Finset.single_le_sum (fun j _ => ha0 i j) (Finset.mem_univ j)).trans
      (Finset.single_le_sum (f := fun i => ∑ j, a i j) (fun i _ => Finset.sum_nonneg fun j _ => ha0 i j) (Finset.mem_univ i))
  have hsb : ∀ i, b i ≤ ∑ i, b i := fun i => Finset.single_le_sum (fun j _ => hb0 j) (Finset.mem_univ i)
  have hsc : ∀ i, c i ≤ ∑ i, c i := fun i => Finset.single_le_sum (fun j _ => hc0 j) (Finset.mem_univ i)
  have na : 0 ≤ ∑ i, ∑ j, a i j := Finset.sum_nonneg fun i _ => Finset.sum_nonneg fun j _ => ha0 i j
  have nb : 0 ≤ ∑ i, b i := Finset.sum_nonneg fun i _ => hb0 i
  have nc : 0 ≤ ∑ i, c i := Finset.sum_nonneg fun i _ => hc0 i
  refine ⟨∑ i, ∑ j, a i j + ∑ i, b i + ∑ i, c i, by positivity, fun φ u η hA hu => ?_⟩
  have he : 0 ≤ u + η := add_nonneg hA.unit_nonneg hA.tiny_nonneg
  refine ⟨fun i j => (ha i j φ u η hA hu).trans (mul_le_mul_of_nonneg_right ?_ he),
    fun i => (hb i φ u η hA hu).trans (mul_le_mul_of_nonneg_right ?_ he),
    fun i => (hc i φ u η hA hu).trans (mul_le_mul_of_nonneg_right ?_ he)⟩
  · linarith [hsum i j]
  · linarith [hsb i]
  · linarith [hsc i]

/-- A set of times, step sizes and states on which everything is bounded. -/
structure Region (T : Tableau ℝ s) (f : ℝ → Vec ℝ n → Vec ℝ n) (R : ℝ) (D : Set (ℝ × ℝ × (Fin n → ℝ))) : Prop where
  time : ∀ ω ∈ D, |ω.1| ≤ R
  step : ∀ ω ∈ D, 0 ≤ ω.2.1 ∧ ω.2.1 ≤ 1
  state : ∀ ω ∈ D, ‖ω.2.2‖ ≤ R
  stage : ∀ ω ∈ D, ∀ i, ‖stageFn T f i ω‖ ≤ R
  argTime : ∀ ω ∈ D, ∀ i, |ω.1 + T.C i * ω.2.1| ≤ R
  argState : ∀ ω ∈ D, ∀ i, ‖ω.2.2 + ω.2.1 • ∑ j, T.A i j • stageFn T f j ω‖ ≤ R

/-- `f` is Lipschitz on the points up to size `R`. -/
def LipschitzUpTo (f : ℝ → Vec ℝ n → Vec ℝ n) (L R : ℝ) : Prop :=
  ∀ t t' (v v' : Fin n → ℝ), |t| ≤ R → |t'| ≤ R → ‖v‖ ≤ R → ‖v'‖ ≤ R →
    ‖(f t v : Fin n → ℝ) - f t' v'‖ ≤ L * max |t - t'| ‖v - v'‖

/-- A bound for the coefficients. -/
noncomputable def coefBound (T : Tableau ℝ s) : ℝ := ∑ i, ∑ j, |T.A i j| + ∑ i, |T.B i| + ∑ i, |T.C i|

theorem coefBound_spec (T : Tableau ℝ s) : 0 ≤ coefBound T ∧ (∀ i j, |T.A i j| ≤ coefBound T) ∧ (∀ i, |T.B i| ≤ coefBound T) ∧
    ∀ i, |T.C i| ≤ coefBound T := by
  have hsum : ∀ i j, |T.A i j| ≤ ∑ i, ∑ j, |T.A i j| := fun i j =>
    (Finset.single_le_sum (f := fun j => |T.A i j|) (fun j _ => abs_nonneg _) (Finset.mem_univ j)).trans
      (Finset.single_le_sum (f := fun i => ∑ j, |T.A i j|) (fun i _ => Finset.sum_nonneg fun j _ => abs_nonneg _)
        (Finset.mem_univ i))
  have hsb : ∀ i, |T.B i| ≤ ∑ i, |T.B i| := fun i =>
    Finset.single_le_sum (f := fun i => |T.B i|) (fun j _ => abs_nonneg _) (Finset.mem_univ i)
  have hsc : ∀ i, |T.C i| ≤ ∑ i, |T.C i| := fun i =>
    Finset.single_le_sum (f := fun i => |T.C i|) (fun j _ => abs_nonneg _) (Finset.mem_univ i)
  have na : 0 ≤ ∑ i, ∑ j, |T.A i j| := Finset.sum_nonneg fun i _ => Finset.sum_nonneg fun j _ => abs_nonneg _
  have nb : 0 ≤ ∑ i, |T.B i| := Finset.sum_nonneg fun i _ => abs_nonneg _
  have nc : 0 ≤ ∑ i, |T.C i| := Finset.sum_nonneg fun i _ => abs_nonneg _
  unfold coefBound
  refine ⟨by positivity, fun i j => ?_, fun i => ?_, fun i => ?_⟩
  · linarith [hsum i j]
  · linarith [hsb i]
  · linarith [hsc i]

/-- The stage equations with machine numbers. -/
structure MachineStages {φ : Rounding} (hm : s + 1 ≤ m) (T : Tableau (Num φ) s) (F : Num φ → Vec (Num φ) n → Vec (Num φ) n)
    (t h : Num φ) (y : Vec (Num φ) n) (K : Fin m → Vec (Num φ) n) : Prop where
  first : K (Fin.castLE hm 0) = F t y
  rest : ∀ i : Fin (s + 1), i ≠ 0 → F (t + h * T.C i) (y + scale h (rowDot hm T.A K i)) = K (Fin.castLE hm i)

theorem small_mul {c e : ℝ} (hc : 0 ≤ c) (he : 0 ≤ e) (h : e ≤ 1 / (c + 1)) : c * e ≤ 1 := by
  rw [le_div_iff₀ (by positivity)] at h
  nlinarith

theorem stages_close {T : ∀ φ : Rounding, Tableau (Num φ) s} {T' : Tableau ℝ s} (hT : Explicit T') (hN : NearTableau T T')
    (hm : s + 1 ≤ m) {f : ℝ → Vec ℝ n → Vec ℝ n} {R L : ℝ} (hR : 1 ≤ R) (hL : 0 ≤ L) (hlip : LipschitzUpTo f L (R + 1))
    {D : Set (ℝ × ℝ × (Fin n → ℝ))} (hD : Region T' f R D) (p : ℕ) :
    ∃ c δ, 0 ≤ c ∧ 0 < δ ∧ ∀ {φ : Rounding} {u η κ : ℝ}, φ.Accurate u η → 0 ≤ κ → u + η + κ ≤ δ →
      ∀ F, Computes F f κ (R + 1) → ∀ (t h : Num φ) (y : Vec (Num φ) n) (K : Fin m → Vec (Num φ) n),
        (t.val, h.val, vals y) ∈ D → MachineStages hm (T φ) F t h y K → ∀ i : Fin (s + 1), i.val < p → ∀ d,
          |(K (Fin.castLE hm i) d).val - stageFn T' f i (t.val, h.val, vals y) d| ≤ c * (u + η + κ) := by
  induction p with
  | zero => exact ⟨0, 1, le_rfl, one_pos, fun _ _ _ _ _ _ _ _ _ _ _ i hi => absurd hi (by omega)⟩
  | succ p ih =>
    obtain ⟨c, δ, hc, hδ, ih⟩ := ih
    obtain ⟨cT, hcT, hN⟩ := hN
    obtain ⟨hM, hMA, -, hMC⟩ := coefBound_spec T'
    set M := coefBound T'
    by_cases hp : p < s + 1
    swap
    · refine ⟨c, δ, hc, hδ, fun hA hκ hu F hF t h y K hω hK i hi => ih hA hκ hu F hF t h y K hω hK i ?_⟩
      have := i.isLt
      omega
    obtain ⟨c₁, M₁, hc₁, hM₁, hdot⟩ := close_dot p hcT hc hM (by linarith : (0 : ℝ) ≤ R)
    -- `h * rowDot`
    set c₂ := 0 * M₁ + 0 * c₁ + 1 * c₁ + (1 * M₁ + (0 * M₁ + 0 * c₁ + 1 * c₁) + 1) with hc₂
    have hc₂0 : 0 ≤ c₂ := by positivity
    -- `y + h * rowDot`
    set c₃ := 0 + c₂ + (R + 1 * M₁ + (0 + c₂) + 1) with hc₃
    have hc₃0 : 0 ≤ c₃ := by positivity
    -- `h * C`, `t + h * C`
    set c₄ := 0 * M + 0 * cT + 1 * cT + (1 * M + (0 * M + 0 * cT + 1 * cT) + 1) with hc₄
    have hc₄0 : 0 ≤ c₄ := by positivity
    set c₅ := 0 + c₄ + (R + 1 * M + (0 + c₄) + 1) with hc₅
    have hc₅0 : 0 ≤ c₅ := by positivity
    refine ⟨c + (1 + L * (c₃ + c₅)), min δ (min (1 / 2) (min (1 / (c₃ + 1)) (1 / (c₅ + 1)))), by positivity, by positivity,
      fun {φ u η κ} hA hκ hu F hF t h y K hω hK i hi d => ?_⟩
    set e := u + η + κ with he
    have hu0 := hA.unit_nonneg
    have hη := hA.tiny_nonneg
    have he0 : 0 ≤ e := by positivity
    have heδ : e ≤ δ := hu.trans (min_le_left _ _)
    have he2 : e ≤ 1 / 2 := hu.trans ((min_le_right _ _).trans (min_le_left _ _))
    have he1 : e ≤ 1 := by linarith
    have he3 : c₃ * e ≤ 1 :=
      small_mul hc₃0 he0 (hu.trans ((min_le_right _ _).trans ((min_le_right _ _).trans (min_le_left _ _))))
    have he5 : c₅ * e ≤ 1 :=
      small_mul hc₅0 he0 (hu.trans ((min_le_right _ _).trans ((min_le_right _ _).trans (min_le_right _ _))))
    have hue : u + η ≤ e := by linarith
    have ih' := ih hA hκ heδ F hF t h y K hω hK
    have hLc : 0 ≤ L * (c₃ + c₅) := mul_nonneg hL (add_nonneg hc₃0 hc₅0)
    have hgrow : c * e ≤ (c + (1 + L * (c₃ + c₅))) * e := mul_le_mul_of_nonneg_right (by linarith) he0
    by_cases hip : i.val < p
    · exact (ih' i hip d).trans hgrow
    have hip : i.val = p := by omega
    set ω : ℝ × ℝ × (Fin n → ℝ) := (t.val, h.val, vals y) with hωd
    have htR : |t.val| ≤ R := hD.time ω hω
    have hyR : ∀ d, |(y d).val| ≤ R := fun d => (norm_le_pi_norm (vals y : Fin n → ℝ) d).trans (hD.state ω hω)
    obtain ⟨hh0, hh1⟩ := hD.step ω hω
    have hκe : κ ≤ (1 + L * (c₃ + c₅)) * e := by
      have h1 : 0 ≤ L * (c₃ + c₅) * e := mul_nonneg hLc he0
      rw [add_mul, one_mul]
      linarith
    by_cases hi0 : i = 0
    · subst hi0
      rw [hK.first]
      have e1 : stageFn T' f 0 ω = f t.val (vals y) := by
        rw [stageFn_eq hT, hT.first]
        simp [hT.upper 0 _ (Fin.zero_le _), hωd]
      rw [e1]
      have := hF t y (by linarith) (fun d => by linarith [hyR d]) d
      refine this.trans (hκe.trans (mul_le_mul_of_nonneg_right (by linarith) he0))
    rw [← hK.rest i hi0]
    -- the arguments
    have hcl : ∀ d, Close e c₁ M₁ (rowDot hm (T φ).A K i d).val (∑ j, T'.A i j * stageFn T' f j ω d) := by
      intro d
      have e1 : ∑ j, T'.A i j * stageFn T' f j ω d =
          ∑ j : Fin i.val, T'.A i ⟨j.val, j.isLt.trans i.isLt⟩ * stageFn T' f ⟨j.val, j.isLt.trans i.isLt⟩ ω d := by
        have h1 := rowDot_apply (le_refl (s + 1)) T'.A hT.upper (fun j => stageFn T' f j ω) i d
        have h2 : rowDot (le_refl (s + 1)) T'.A (fun j => stageFn T' f j ω) i d =
            ∑ j : Fin i.val, T'.A i ⟨j.val, j.isLt.trans i.isLt⟩ * stageFn T' f ⟨j.val, j.isLt.trans i.isLt⟩ ω d := by
          unfold rowDot
          rw [vdot_apply]
        rw [← h2, h1]
        rfl
      rw [e1]
      subst hip
      refine hdot hA hue he1 _ _ _ _ (fun j => ⟨?_, hMA _ _⟩) (fun j => ⟨?_, ?_⟩)
      · exact ((hN φ u η hA (by linarith)).1 _ _).trans (mul_le_mul_of_nonneg_left hue hcT)
      · exact ih' ⟨j.val, j.isLt.trans i.isLt⟩ j.isLt d
      · exact (norm_le_pi_norm _ d).trans (hD.stage ω hω _)
    have hclh : Close e 0 1 h.val h.val := Close.self he0 (by rw [abs_of_nonneg hh0]; exact hh1)
    have hcy : ∀ d, Close e c₃ (R + 1 * M₁) ((y + scale h (rowDot hm (T φ).A K i)) d).val
        ((y d).val + h.val * ∑ j, T'.A i j * stageFn T' f j ω d) := fun d =>
      close_add hA hue he1 le_rfl hc₂0 (Close.self he0 (hyR d)) (close_mul hA hue he1 le_rfl hc₁ hclh (hcl d))
    have hct : Close e c₅ (R + 1 * M) (t + h * (T φ).C i).val (t.val + h.val * T'.C i) :=
      close_add hA hue he1 le_rfl hc₄0 (Close.self he0 htR) (close_mul hA hue he1 le_rfl hcT hclh
        ⟨((hN φ u η hA (by linarith)).2.2 i).trans (mul_le_mul_of_nonneg_left hue hcT), hMC i⟩)
    set ta := t + h * (T φ).C i
    set ya := y + scale h (rowDot hm (T φ).A K i)
    have ht1 : |ω.1 + T'.C i * ω.2.1| ≤ R := hD.argTime ω hω i
    have hy1 := hD.argState ω hω i
    set ye : Fin n → ℝ := ω.2.2 + ω.2.1 • ∑ j, T'.A i j • stageFn T' f j ω with hye
    have hye' : ∀ d, ye d = (y d).val + h.val * ∑ j, T'.A i j * stageFn T' f j ω d := by
      intro d
      simp [hye, hωd, vals, Finset.sum_apply]
    have hdt : |ta.val - (ω.1 + T'.C i * ω.2.1)| ≤ c₅ * e := by
      have := hct.near
      rwa [mul_comm h.val] at this
    have hdy : ‖(vals ya : Fin n → ℝ) - ye‖ ≤ c₃ * e := by
      refine (pi_norm_le_iff_of_nonneg (by positivity)).mpr fun d => ?_
      have := (hcy d).near
      rw [← hye' d] at this
      exact this
    have htR1 : |ta.val| ≤ R + 1 := by
      have : |ta.val| ≤ |ta.val - (ω.1 + T'.C i * ω.2.1)| + |ω.1 + T'.C i * ω.2.1| := by
        calc |ta.val| = |(ta.val - (ω.1 + T'.C i * ω.2.1)) + (ω.1 + T'.C i * ω.2.1)| := by ring_nf
          _ ≤ _ := abs_add_le _ _
      linarith
    have hyR1 : ‖(vals ya : Fin n → ℝ)‖ ≤ R + 1 := by
      have : ‖(vals ya : Fin n → ℝ)‖ ≤ ‖(vals ya : Fin n → ℝ) - ye‖ + ‖ye‖ := by
        calc ‖(vals ya : Fin n → ℝ)‖ = ‖((vals ya : Fin n → ℝ) - ye) + ye‖ := by rw [sub_add_cancel]
          _ ≤ _ := norm_add_le _ _
      linarith
    have h1 := hF ta ya htR1 (fun d => (norm_le_pi_norm (vals ya : Fin n → ℝ) d).trans hyR1) d
    have h2 := hlip ta.val (ω.1 + T'.C i * ω.2.1) (vals ya) ye htR1 (by linarith) hyR1 (by linarith)
    have h3 : ‖(f ta.val (vals ya) : Fin n → ℝ) - stageFn T' f i ω‖ ≤ L * ((c₃ + c₅) * e) := by
      rw [stageFn_eq hT]
      refine h2.trans (mul_le_mul_of_nonneg_left (max_le ?_ ?_) hL)
      · exact hdt.trans (mul_le_mul_of_nonneg_right (by linarith) he0)
      · exact hdy.trans (mul_le_mul_of_nonneg_right (by linarith) he0)
    have h4 := (norm_le_pi_norm ((f ta.val (vals ya) : Fin n → ℝ) - stageFn T' f i ω) d).trans h3
    rw [Pi.sub_apply, Real.norm_eq_abs] at h4
    have h5 := abs_add_le ((F ta ya d).val - f ta.val (vals ya) d) (f ta.val (vals ya) d - stageFn T' f i ω d)
    rw [sub_add_sub_cancel] at h5
    have h6 : 0 ≤ c * e := mul_nonneg hc he0
    have h7 : (c + (1 + L * (c₃ + c₅))) * e = c * e + e + L * ((c₃ + c₅) * e) := by ring
    rw [h7]
    linarith

/-- The new state. -/
theorem new_close {T : ∀ φ : Rounding, Tableau (Num φ) s} {T' : Tableau ℝ s} (hT : Explicit T') (hN : NearTableau T T')
    (hm : s + 1 ≤ m) {f : ℝ → Vec ℝ n → Vec ℝ n} {R L : ℝ} (hR : 1 ≤ R) (hL : 0 ≤ L) (hlip : LipschitzUpTo f L (R + 1))
    {D : Set (ℝ × ℝ × (Fin n → ℝ))} (hD : Region T' f R D) :
    ∃ c δ, 0 ≤ c ∧ 0 < δ ∧ ∀ {φ : Rounding} {u η κ : ℝ}, φ.Accurate u η → 0 ≤ κ → u + η + κ ≤ δ →
      ∀ F, Computes F f κ (R + 1) → ∀ (t h : Num φ) (y : Vec (Num φ) n) (K : Fin m → Vec (Num φ) n),
        (t.val, h.val, vals y) ∈ D → MachineStages hm (T φ) F t h y K → ∀ d,
          |((y + vdot (fun j => h * (T φ).B j) fun j : Fin (s + 1) => K (Fin.castLE hm j)) d).val -
            ((y d).val + h.val * incr T' f (t.val, h.val, vals y) d)| ≤ c * (u + η + h.val * κ) := by
  obtain ⟨c, δ, hc, hδ, hst⟩ := stages_close hT hN hm hR hL hlip hD (s + 1)
  obtain ⟨cT, hcT, hN⟩ := hN
  obtain ⟨hM, -, hMB, -⟩ := coefBound_spec T'
  set M := coefBound T'
  set c₂ := 0 * M + 0 * cT + 1 * cT + (1 * M + (0 * M + 0 * cT + 1 * cT) + 1) with hc₂
  have hc₂0 : 0 ≤ c₂ := by positivity
  obtain ⟨c₁, M₁, hc₁, hM₁, hdot⟩ := close_dot (s + 1) hc₂0 le_rfl (by positivity : 0 ≤ 1 * M) (by linarith : (0 : ℝ) ≤ R + 1)
  set c₃ := 0 + c₁ + (R + M₁ + (0 + c₁) + 1) with hc₃
  have hc₃0 : 0 ≤ c₃ := by positivity
  refine ⟨c₃ + (s + 1) * (M * c), min δ (min (1 / 2) (1 / (c + 1))), by positivity, by positivity,
    fun {φ u η κ} hA hκ hu F hF t h y K hω hK d => ?_⟩
  have hu0 := hA.unit_nonneg
  have hη := hA.tiny_nonneg
  set e := u + η with he
  have he0 : 0 ≤ e := by positivity
  have heδ : e + κ ≤ δ := hu.trans (min_le_left _ _)
  have he2 : e + κ ≤ 1 / 2 := hu.trans ((min_le_right _ _).trans (min_le_left _ _))
  have he1 : e ≤ 1 := by linarith
  have he3 : c * (e + κ) ≤ 1 :=
    small_mul hc (by positivity) (hu.trans ((min_le_right _ _).trans (min_le_right _ _)))
  set ω : ℝ × ℝ × (Fin n → ℝ) := (t.val, h.val, vals y) with hωd
  obtain ⟨hh0, hh1⟩ := hD.step ω hω
  have hyR : ∀ d, |(y d).val| ≤ R := fun d => (norm_le_pi_norm (vals y : Fin n → ℝ) d).trans (hD.state ω hω)
  have hK1 := fun j : Fin (s + 1) => hst hA hκ heδ F hF t h y K hω hK j j.isLt d
  have hKR : ∀ j : Fin (s + 1), |(K (Fin.castLE hm j) d).val| ≤ R + 1 := by
    intro j
    have h1 := (norm_le_pi_norm _ d).trans (hD.stage ω hω j)
    rw [Real.norm_eq_abs] at h1
    have : |(K (Fin.castLE hm j) d).val| ≤ |(K (Fin.castLE hm j) d).val - stageFn T' f j ω d| + |stageFn T' f j ω d| := by
      calc |(K (Fin.castLE hm j) d).val| = |((K (Fin.castLE hm j) d).val - stageFn T' f j ω d) + stageFn T' f j ω d| := by
            ring_nf
        _ ≤ _ := abs_add_le _ _
    linarith [hK1 j]
  have hclh : Close e 0 1 h.val h.val := Close.self he0 (by rw [abs_of_nonneg hh0]; exact hh1)
  have hcB : ∀ j : Fin (s + 1), Close e c₂ (1 * M) (h * (T φ).B j).val (h.val * T'.B j) := fun j =>
    close_mul hA le_rfl he1 le_rfl hcT hclh ⟨(hN φ u η hA (by linarith)).2.1 j, hMB j⟩
  have hv := close_add hA le_rfl he1 le_rfl hc₁ (Close.self he0 (hyR d))
    (hdot hA le_rfl he1 (fun j => h * (T φ).B j) (fun j => K (Fin.castLE hm j) d) (fun j => h.val * T'.B j)
      (fun j => (K (Fin.castLE hm j) d).val) hcB fun j => Close.self he0 (hKR j))
  have h1 : |∑ j : Fin (s + 1), h.val * T'.B j * (K (Fin.castLE hm j) d).val - h.val * incr T' f ω d| ≤
      (s + 1) * (h.val * (M * (c * (e + κ)))) := by
    have e1 : h.val * incr T' f ω d = ∑ j : Fin (s + 1), h.val * T'.B j * stageFn T' f j ω d := by
      simp only [incr, Finset.sum_apply, Pi.smul_apply, smul_eq_mul, Finset.mul_sum, mul_assoc]
    rw [e1, ← Finset.sum_sub_distrib]
    refine (Finset.abs_sum_le_sum_abs _ _).trans ?_
    refine (Finset.sum_le_card_nsmul _ _ (h.val * (M * (c * (e + κ)))) fun j _ => ?_).trans (by simp)
    rw [← mul_sub, abs_mul, abs_mul, abs_of_nonneg hh0, mul_assoc]
    refine mul_le_mul_of_nonneg_left ?_ hh0
    exact mul_le_mul (hMB j) (hK1 j) (abs_nonneg _) hM
  have h2 := hv.near
  have h3 : ∀ A B P : ℝ, |A - (y d).val - P| ≤ c₃ * e → |P - B| ≤ (s + 1) * (h.val * (M * (c * (e + κ)))) →
      |A - ((y d).val + B)| ≤ c₃ * e + (s + 1) * (h.val * (M * (c * (e + κ)))) := by
    intro A B P hp hq
    calc |A - ((y d).val + B)| = |(A - (y d).val - P) + (P - B)| := by ring_nf
      _ ≤ _ := (abs_add_le _ _).trans (add_le_add hp hq)
  refine (h3 _ _ _ ?_ h1).trans ?_
  · rw [sub_sub]; exact h2
  · have h4 : h.val * e ≤ e := mul_le_of_le_one_left he0 hh1
    have h5 : 0 ≤ ((s : ℝ) + 1) * (M * c) := by positivity
    have h6 : ((s : ℝ) + 1) * (h.val * (M * (c * (e + κ)))) = ((s : ℝ) + 1) * (M * c) * (h.val * e + h.val * κ) := by ring
    rw [h6]
    have h7 : 0 ≤ h.val * κ := by positivity
    nlinarith [mul_le_mul_of_nonneg_left h4 h5]

end Nbkode
