import Verif.Proofs.HaltingVar
import Mathlib.Analysis.SpecialFunctions.Exp

/-! The rejection loop keeps steps from becoming arbitrarily small during bounded times when the right-hand side grows at most
linearly. -/

set_option autoImplicit false
set_option linter.unusedSectionVars false

namespace Nbkode
open Py Spec Solver

variable [BEq ℝ] [LawfulBEq ℝ]
variable {n s : Nat} {I : Type}

/-- The stages of a step grow at most linearly with the value it starts from. -/
theorem stages_growth {T : Tableau ℝ s} (hT : Explicit T) {rhs : Rhs ℝ n} {R L : ℝ} (hL : 0 ≤ L)
    (hg : ∀ t y v M, |t| ≤ R → (∀ d, |y d| ≤ M) → rhs t y = .ok v → ∀ d, |v d| ≤ L * (1 + M))
    {a H t h M : ℝ} (ha : ∀ i, ∑ j, |T.A i j| ≤ a) (ha0 : 0 ≤ a) (hh : 0 ≤ h) (hH : h ≤ H) (hM : 0 ≤ M)
    (ht : ∀ i, |t + T.C i * h| ≤ R) {y : Vec ℝ n} (hy : ∀ d, |y d| ≤ M)
    {K : Fin (s + 1) → Vec ℝ n} (hK : RKStages T rhs t h y K) :
    ∀ i d, |K i d| ≤ L * (1 + M) * (1 + H * (a * L)) ^ i.val := by
  have haL : 0 ≤ a * L := mul_nonneg ha0 hL
  have hq : 1 ≤ 1 + H * (a * L) := by nlinarith [mul_nonneg (hh.trans hH) haL]
  set r := 1 + H * (a * L) with hr
  intro i
  induction hi : i.val using Nat.strong_induction_on generalizing i with
  | _ m ih =>
    subst hi
    intro d
    have hYi : ∀ d, |y d + h * ∑ j, T.A i j * K j d| ≤ (1 + M) * r ^ i.val - 1 := by
      intro d
      rcases Nat.eq_zero_or_pos i.val with h0 | h0
      · have : ∑ j, T.A i j * K j d = 0 := Finset.sum_eq_zero fun j _ => by
          rw [hT.upper i j (by rw [Fin.le_def, h0]; exact Nat.zero_le _), zero_mul]
        rw [this, h0, mul_zero, add_zero, pow_zero]
        linarith [hy d]
      · have h1 : |∑ j, T.A i j * K j d| ≤ (∑ j, |T.A i j|) * (L * (1 + M) * r ^ (i.val - 1)) := by
          refine sum_abs_le _ _ fun j hj => ?_
          have hlt : j < i := by
            by_contra hc
            exact hj (hT.upper i j (not_lt.mp hc))
          refine (ih j.val hlt j rfl d).trans ?_
          refine mul_le_mul_of_nonneg_left (pow_le_pow_right₀ hq ?_) (mul_nonneg hL (by linarith))
          have := Fin.lt_def.mp hlt
          omega
        obtain ⟨p, hp⟩ : ∃ p, p = r ^ (i.val - 1) := ⟨_, rfl⟩
        have hp1 : 1 ≤ p := by rw [hp]; exact one_le_pow₀ hq
        have hs : r ^ i.val = r * p := by
          rw [hp, ← pow_succ']; congr 1; omega
        rw [← hp] at h1
        rw [hs]
        have hw : 0 ≤ L * (1 + M) * p := mul_nonneg (mul_nonneg hL (by linarith)) (by linarith)
        have h2 : |∑ j, T.A i j * K j d| ≤ a * (L * (1 + M) * p) := h1.trans (mul_le_mul_of_nonneg_right (ha i) hw)
        have h3 : |h * ∑ j, T.A i j * K j d| ≤ H * (a * (L * (1 + M) * p)) := by
          rw [abs_mul, abs_of_nonneg hh]
          exact mul_le_mul hH h2 (abs_nonneg _) (hh.trans hH)
        have h4 := (abs_add_le (y d) (h * ∑ j, T.A i j * K j d)).trans (add_le_add (hy d) h3)
        refine h4.trans ?_
        have h5 : (1 + M) * (r * p) - 1 = (1 + M) * p - 1 + H * (a * (L * (1 + M) * p)) := by rw [hr]; ring
        rw [h5]
        nlinarith
    have := hg _ _ _ _ (ht i) hYi (hK i) d
    refine this.trans (le_of_eq ?_)
    ring

section loop
variable {lib : Lib ℝ} {o : VarOptions ℝ} {ex : ℝ} {T : Tableau ℝ s} {norm : ErrNorm ℝ n s} {rhs : Rhs ℝ n}

/-- Up to time `U`, a step multiplies `1 + |y|` at most by `exp(c * (size of the step))`. -/
theorem step_growth (hT : Explicit T) (hg : LinearGrowth rhs) (t₀ U : ℝ) :
    ∃ c, 0 ≤ c ∧ ∀ (t h M : ℝ) (y : Vec ℝ n) (K : Fin (s + 2) → Vec ℝ n), t₀ ≤ t → 0 ≤ h → t + h ≤ U → 0 ≤ M →
      (∀ d, |y d| ≤ M) → RKStages (withLast T) rhs t h y K → ∀ d, 1 + |proposal T h y K d| ≤ (1 + M) * Real.exp (c * h) := by
  have hT' := withLast_explicit hT
  set H := |t₀| + |U| with hHd
  set cs := ∑ i, |(withLast T).C i| with hcs
  set a := ∑ i, ∑ j, |(withLast T).A i j| with had
  set b := ∑ j, |T.B j| with hbd
  have hc : ∀ i, |(withLast T).C i| ≤ cs := fun i =>
    Finset.single_le_sum (f := fun i => |(withLast T).C i|) (fun j _ => abs_nonneg _) (Finset.mem_univ i)
  have hrow : ∀ i, 0 ≤ ∑ j, |(withLast T).A i j| := fun i => Finset.sum_nonneg fun j _ => abs_nonneg _
  have ha : ∀ i, ∑ j, |(withLast T).A i j| ≤ a := fun i =>
    Finset.single_le_sum (f := fun i => ∑ j, |(withLast T).A i j|) (fun j _ => hrow j) (Finset.mem_univ i)
  have ha0 : 0 ≤ a := Finset.sum_nonneg fun j _ => hrow j
  have hb0 : 0 ≤ b := Finset.sum_nonneg fun j _ => abs_nonneg _
  have hH0 : 0 ≤ H := by positivity
  obtain ⟨L, hL, hg⟩ := hg (H + cs * H)
  have hq : 1 ≤ 1 + H * (a * L) := by nlinarith [mul_nonneg hH0 (mul_nonneg ha0 hL)]
  set E := (1 + H * (a * L)) ^ (s + 1) with hE
  have hE0 : 0 ≤ E := by positivity
  refine ⟨b * (L * E), by positivity, fun t h M y K h1 h2 h3 hM hy hK d => ?_⟩
  have hhH : h ≤ H := by
    have := neg_abs_le t₀; have := le_abs_self U; rw [hHd]; linarith
  have htH : |t| ≤ H := by
    rw [abs_le, hHd]
    have := neg_abs_le t₀; have := le_abs_self U; have := abs_nonneg t₀; have := abs_nonneg U
    constructor <;> linarith
  have hK' := stages_growth hT' hL hg ha ha0 h2 hhH hM (fun i => by
    refine (abs_add_le _ _).trans (add_le_add htH ?_)
    rw [abs_mul, abs_of_nonneg h2]
    exact mul_le_mul (hc i) hhH h2 (le_trans (abs_nonneg _) (hc i))) hy hK
  have hKE : ∀ i d, |K i d| ≤ L * (1 + M) * E := fun i d => by
    refine (hK' i d).trans (mul_le_mul_of_nonneg_left (pow_le_pow_right₀ hq ?_) (mul_nonneg hL (by linarith)))
    have := i.isLt; omega
  have h4 : |∑ j, T.B j * K j.castSucc d| ≤ b * (L * (1 + M) * E) := sum_abs_le _ _ fun j _ => hKE _ d
  have h5 : |proposal T h y K d| ≤ M + h * (b * (L * (1 + M) * E)) := by
    unfold proposal rkNew
    refine (abs_add_le _ _).trans (add_le_add (hy d) ?_)
    rw [abs_mul, abs_of_nonneg h2]
    exact mul_le_mul_of_nonneg_left h4 h2
  have h6 := Real.add_one_le_exp (b * (L * E) * h)
  calc 1 + |proposal T h y K d| ≤ (1 + M) * (b * (L * E) * h + 1) := by
        refine (add_le_add_right h5 1).trans (le_of_eq ?_); ring
    _ ≤ _ := mul_le_mul_of_nonneg_left h6 (by linarith)

theorem growth_advances {Me : Method ℝ n 0 (FsalAux ℝ n s I)} {b : Bound ℝ}
    (hMb : Me.body rhs = fsalBody lib o ex T norm rhs) (hT : Explicit T) (ho : ShrinkingOptions o) (hl : PowLaw lib)
    (hps : PowSmall lib ex) (hex : 0 ≤ ex) {C : ℝ} (hC : 0 ≤ C) (hn : NormBound norm C) (hg : LinearGrowth rhs)
    (st₀ : St ℝ n 0 (FsalAux ℝ n s I)) (hf₀ : rhs st₀.t st₀.y = .ok st₀.f) (hh₀ : 0 < st₀.h) :
    ∃ J, J st₀ ∧ Advances (⟨Me, rhs, b⟩ : Solver ℝ n 0 (FsalAux ℝ n s I)) J := by
  -- bounds up to a time
  choose c hc0 hc using step_growth (T := T) (rhs := rhs) hT hg st₀.t
  obtain ⟨w, hw1, hw⟩ : ∃ w : ℝ, 1 ≤ w ∧ ∀ d, 1 + |st₀.y d| ≤ w :=
    ⟨1 + ∑ d, |st₀.y d|, by have : 0 ≤ ∑ d, |st₀.y d| := Finset.sum_nonneg fun d _ => abs_nonneg _
                            linarith,
      fun d => by
        have := Finset.single_le_sum (f := fun d => |st₀.y d|) (fun d _ => abs_nonneg _) (Finset.mem_univ d)
        linarith⟩
  choose L hL0 hL using hg
  let R : ℝ → ℝ := fun U => |st₀.t| + |U| + 1
  let B : ℝ → ℝ := fun U => L (R U) * (1 + (w * Real.exp (c U * (U - st₀.t)) + 1))
  have hB0 : ∀ U, 0 ≤ B U := fun U => mul_nonneg (hL0 _) (by positivity)
  choose η₀ hη₀ hlow using fun U => body_lower (I := I) hT ho hl hps hex hC hn (hB0 U)
  let η : ℝ → ℝ := fun U => min st₀.h (η₀ U)
  have hη : ∀ U, 0 < η U := fun U => lt_min hh₀ (hη₀ U)
  have near : ∀ U (st : St ℝ n 0 (FsalAux ℝ n s I)), st₀.t ≤ st.t → st.t ≤ U →
      (∀ d, 1 + |st.y d| ≤ w * Real.exp (c U * (st.t - st₀.t))) → BoundedNear rhs 1 (B U) st.t st.y := by
    intro U st h1 h2 h3 t' y' ht hy v hv d
    refine hL (R U) t' y' v _ ?_ (fun d => ?_) hv d
    · have e1 : |t'| ≤ |t' - st.t| + |st.t| := by
        have := abs_add_le (t' - st.t) st.t; rwa [sub_add_cancel] at this
      have e2 : |st.t| ≤ |st₀.t| + |U| := by
        rw [abs_le]
        have := neg_abs_le st₀.t; have := le_abs_self U; have := abs_nonneg st₀.t; have := abs_nonneg U
        constructor <;> linarith
      show |t'| ≤ |st₀.t| + |U| + 1
      linarith
    · have e1 : |y' d| ≤ |y' d - st.y d| + |st.y d| := by
        have := abs_add_le (y' d - st.y d) (st.y d); rwa [sub_add_cancel] at this
      have e2 : Real.exp (c U * (st.t - st₀.t)) ≤ Real.exp (c U * (U - st₀.t)) :=
        Real.exp_le_exp.mpr (mul_le_mul_of_nonneg_left (by linarith) (hc0 U))
      have e3 := mul_le_mul_of_nonneg_left e2 (zero_le_one.trans hw1)
      linarith [hy d, h3 d]
  let J : St ℝ n 0 (FsalAux ℝ n s I) → Prop := fun st => rhs st.t st.y = .ok st.f ∧ st₀.t ≤ st.t ∧
    ∀ U, st.t ≤ U → η U ≤ st.h ∧ ∀ d, 1 + |st.y d| ≤ w * Real.exp (c U * (st.t - st₀.t))
  have key : ∀ st st' : St ℝ n 0 (FsalAux ℝ n s I), J st →
      Takes (⟨Me, rhs, b⟩ : Solver ℝ n 0 (FsalAux ℝ n s I)) st st' → ∀ U, st.t ≤ U →
      η U ≤ st'.h ∧ st.t + η U ≤ st'.t ∧ rhs st'.t st'.y = .ok st'.f := by
    intro st st' ⟨h1, h2, h3⟩ ht U hU
    unfold Takes at ht
    replace ht : (Me.body rhs).run st = some (.ok (), st') := ht
    rw [hMb] at ht
    obtain ⟨h4, h5⟩ := h3 U hU
    exact hlow U rhs st st' (η U) (hη U) (min_le_right _ _) h4 h1 (near U st h2 hU h5) ht
  refine ⟨J, ⟨hf₀, le_refl _, fun U _ => ⟨min_le_left _ _, fun d => by simpa using hw d⟩⟩, ?_, ?_, ?_, ?_, ?_⟩
  · exact fun st h => lt_of_lt_of_le (hη st.t) (h.2.2 st.t (le_refl _)).1
  · intro st h
    show Halts (Me.body rhs) st
    rw [hMb]
    obtain ⟨h4, h5⟩ := h.2.2 st.t (le_refl _)
    exact fsalBody_returns hT ho hl hex hC hn one_pos (hB0 st.t) st h.1 (near st.t st h.2.1 (le_refl _) h5)
      (lt_of_lt_of_le (hη st.t) h4)
  · intro st st' h ht
    obtain ⟨k1, k2, k3⟩ := key st st' h ht st.t (le_refl _)
    have hlt : st.t < st'.t := by linarith [hη st.t]
    refine ⟨k3, by linarith [h.2.1], fun U hU => ⟨(key st st' h ht U (by linarith)).1, fun d => ?_⟩⟩
    have ht' := ht
    unfold Takes at ht'
    replace ht' : (Me.body rhs).run st = some (.ok (), st') := ht'
    rw [hMb] at ht'
    obtain ⟨l, last, h', K, hTr, hlast, rfl⟩ := (fsalBody_iff lib o ex T hT norm rhs st st' h.1).mp ht'
    obtain ⟨last', hl', hK, -⟩ := trail_last hTr
    rw [hlast] at hl'
    cases hl'
    have et : (⟨st.cache.push (st.t + last.size) (proposal T last.size st.y K) (K (Fin.last _)), h',
        { st.aux with K := K }⟩ : St ℝ n 0 (FsalAux ℝ n s I)).t = st.t + last.size := by
      simp only [St.t, push_t]
    have ey : (⟨st.cache.push (st.t + last.size) (proposal T last.size st.y K) (K (Fin.last _)), h',
        { st.aux with K := K }⟩ : St ℝ n 0 (FsalAux ℝ n s I)).y = proposal T last.size st.y K := by
      simp only [St.y, push_y]
    rw [et] at hU hlt ⊢
    rw [ey]
    have h5 := (h.2.2 U (by linarith)).2
    have hM : 0 ≤ w * Real.exp (c U * (st.t - st₀.t)) - 1 := by
      have := Real.one_le_exp (mul_nonneg (hc0 U) (by linarith [h.2.1] : 0 ≤ st.t - st₀.t))
      nlinarith
    have := hc U st.t last.size _ st.y K h.2.1 (by linarith) hU hM (fun d => by linarith [h5 d]) hK d
    refine this.trans (le_of_eq ?_)
    rw [add_sub_cancel, mul_assoc, ← Real.exp_add]
    congr 2
    ring
  · exact fun U => ⟨η U, hη U, fun st st' h ht hU => (key st st' h ht U hU).2.1⟩
  · intro st st' hst hc hh
    simp only [J, St.t, St.y, St.f] at hst ⊢
    rw [hc, hh]
    exact hst

end loop

end Nbkode
