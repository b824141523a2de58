import Verif.Proofs.Halting
import Verif.Props.Adaptive
import Mathlib.Algebra.Order.Archimedean.Basic
import Mathlib.Algebra.Order.BigOperators.Group.Finset
import Mathlib.Tactic.Positivity

/-! The rejection loop ends, and keeps steps from becoming arbitrarily small, when the right-hand side is bounded. -/

set_option autoImplicit false
set_option linter.unusedSectionVars false

namespace Nbkode
open Py Spec Solver

variable {α : Type} [Field α] [LinearOrder α] [IsStrictOrderedRing α] [BEq α] [LawfulBEq α]
variable {n s : Nat} {I : Type}

theorem sum_abs_le {m : Nat} (a : Fin m → α) (x : Fin m → α) {M : α} (h : ∀ j, a j ≠ 0 → |x j| ≤ M) :
    |∑ j, a j * x j| ≤ (∑ j, |a j|) * M := by
  refine (Finset.abs_sum_le_sum_abs _ _).trans ?_
  rw [Finset.sum_mul]
  refine Finset.sum_le_sum fun j _ => ?_
  rw [abs_mul]
  by_cases hj : a j = 0
  · rw [hj]; simp
  · exact mul_le_mul_of_nonneg_left (h j hj) (abs_nonneg _)

/-- The stages of a short step stay within the bound. -/
theorem stages_bounded {T : Tableau α s} (hT : Explicit T) {rhs : Rhs α n} {δ M t h : α} {y : Vec α n}
    (hb : BoundedNear rhs δ M t y) (hh : 0 ≤ h)
    (hC : ∀ i, h * |T.C i| ≤ δ) (hA : ∀ i, h * ((∑ j, |T.A i j|) * M) ≤ δ)
    {K : Fin (s + 1) → Vec α n} (hK : RKStages T rhs t h y K) : ∀ i d, |K i d| ≤ M := by
  intro i
  induction hi : i.val using Nat.strong_induction_on generalizing i with
  | _ m ih =>
    subst hi
    refine hb _ _ ?_ ?_ _ (hK i)
    · rw [add_sub_cancel_left, abs_mul, abs_of_nonneg hh, mul_comm]; exact hC i
    · intro d
      rw [add_sub_cancel_left, abs_mul, abs_of_nonneg hh]
      refine (mul_le_mul_of_nonneg_left (sum_abs_le _ _ fun j hj => ?_) hh).trans (hA i)
      have : j < i := by
        by_contra hc
        exact hj (hT.upper i j (not_lt.mp hc))
      exact ih j.val this j rfl d

theorem rmsError_le {lib : Lib α} (hl : SqrtLaw lib) {o : VarOptions α} (ha : 0 < o.atol) (hr : 0 ≤ o.rtol)
    (y yNew err : Vec α n) {c : α} (hc : 0 ≤ c) (he : ∀ d, |err d| ≤ c) :
    rmsError lib o y yNew err ≤ c / o.atol := by
  refine hl.le _ _ (div_nonneg hc ha.le) ?_
  have h1 : ∀ d, (err d / (o.atol + o.rtol * max |yNew d| |y d|)) ^ 2 ≤ (c / o.atol) ^ 2 := by
    intro d
    rw [← sq_abs (err d / _)]
    refine pow_le_pow_left₀ (abs_nonneg _) ?_ 2
    have hm : 0 ≤ max |yNew d| |y d| := le_max_of_le_left (abs_nonneg _)
    have : 0 ≤ o.rtol * max |yNew d| |y d| := mul_nonneg hr hm
    rw [abs_div, abs_of_pos (a := o.atol + _) (by linarith)]
    exact div_le_div₀ hc (he d) ha (by linarith)
  by_cases hn : n = 0
  · subst hn
    simp only [Finset.univ_eq_empty, Finset.sum_empty, zero_div]
    positivity
  · have hn' : (0 : α) < n := by exact_mod_cast Nat.pos_of_ne_zero hn
    rw [div_le_iff₀ hn']
    refine (Finset.sum_le_sum fun d _ => h1 d).trans ?_
    simp [mul_comm]

/-- The error norm is at most proportional to the step size. -/
def NormBound (norm : ErrNorm α n s) (C : α) : Prop :=
  ∀ h K yNew y en M, 0 ≤ h → 0 ≤ M → (∀ j d, |K j d| ≤ M) → norm h K yNew y = .ok en → 0 ≤ en ∧ en ≤ h * (C * M)

theorem err_le {m : Nat} (E : Fin m → α) {h M : α} (hh : 0 ≤ h) {K : Fin m → Vec α n} (hK : ∀ j d, |K j d| ≤ M)
    (d : Fin n) : |h * ∑ j, E j * K j d| ≤ h * ((∑ j, |E j|) * M) := by
  rw [abs_mul, abs_of_nonneg hh]
  exact mul_le_mul_of_nonneg_left (sum_abs_le _ _ fun j _ => hK j d) hh

theorem fsalErrNorm_bound {lib : Lib α} (hl : SqrtLaw lib) {o : VarOptions α} (ha : 0 < o.atol) (hr : 0 ≤ o.rtol)
    (E : Fin (s + 2) → α) : NormBound (fsalErrNorm lib o E : ErrNorm α n s) ((∑ j, |E j|) / o.atol) := by
  intro h K yNew y en M hh hM hK hn
  have hS : 0 ≤ ∑ j, |E j| := Finset.sum_nonneg fun j _ => abs_nonneg _
  have e : en = rmsError lib o y yNew (fun d => h * ∑ j, E j * K j d) := by
    unfold fsalErrNorm at hn
    rw [scaledErrorNorm_eq, stepError_eq] at hn
    exact (Except.ok.inj hn).symm
  subst e
  refine ⟨hl.nonneg _, (rmsError_le hl ha hr y yNew _ (mul_nonneg hh (mul_nonneg hS hM)) (err_le E hh hK)).trans ?_⟩
  apply le_of_eq
  field_simp

theorem dopErrNorm_bound {lib : Lib α} (hl : SqrtLaw lib) {o : VarOptions α} (ha : 0 < o.atol) (hr : 0 ≤ o.rtol)
    (E3 E5 : Fin (s + 2) → α) :
    NormBound (dopErrNorm lib o E3 E5 : ErrNorm α n s) ((∑ j, |E5 j|) / o.atol) := by
  intro h K yNew y en M hh hM hK hn
  have hS : 0 ≤ ∑ j, |E5 j| := Finset.sum_nonneg fun j _ => abs_nonneg _
  have h5 : 0 ≤ rmsError lib o y yNew (fun d => h * ∑ j, E5 j * K j d) := hl.nonneg _
  have h6 := rmsError_le hl ha hr y yNew _ (mul_nonneg hh (mul_nonneg hS hM)) (err_le E5 hh hK)
  unfold dopErrNorm at hn
  simp only [scaledErrorNorm_eq, stepError_eq] at hn
  cases hq : pyDiv (rmsError lib o y yNew fun d => h * ∑ j, E3 j * K j d)
      (((10 : Nat) : α) * rmsError lib o y yNew fun d => h * ∑ j, E5 j * K j d) with
  | error e => rw [hq] at hn; simp [bind, Except.bind] at hn
  | ok q =>
    rw [hq] at hn
    have e := pyDiv_ok hn
    have h1 : 1 ≤ lib.sqrt (1 + q * q) := hl.one_le _ (by nlinarith [mul_self_nonneg q])
    subst e
    refine ⟨div_nonneg h5 (by linarith), (div_le_self h5 h1).trans (h6.trans (le_of_eq ?_))⟩
    field_simp

/-- Short steps have small errors. -/
theorem short_steps (T : Tableau α s) (hT : Explicit T) (norm : ErrNorm α n s) {C : α} (hC : 0 ≤ C)
    (hn : NormBound norm C) {δ M ε : α} (hδ : 0 < δ) (hM : 0 ≤ M) (hε : 0 < ε) :
    ∃ η, 0 < η ∧ ∀ (rhs : Rhs α n) (t : α) (y : Vec α n) (h en : α) (K : Fin (s + 2) → Vec α n),
      BoundedNear rhs δ M t y → 0 < h → h ≤ η → RKStages (withLast T) rhs t h y K →
      norm h K (proposal T h y K) y = .ok en → 0 ≤ en ∧ en ≤ ε := by
  have hT' := withLast_explicit hT
  generalize withLast T = T' at hT'
  have hc : ∀ i, |T'.C i| ≤ ∑ i, |T'.C i| := fun i =>
    Finset.single_le_sum (f := fun i => |T'.C i|) (fun j _ => abs_nonneg _) (Finset.mem_univ i)
  have hc0 : 0 ≤ ∑ i, |T'.C i| := Finset.sum_nonneg fun j _ => abs_nonneg _
  have hrow : ∀ i, 0 ≤ ∑ j, |T'.A i j| := fun i => Finset.sum_nonneg fun j _ => abs_nonneg _
  have ha : ∀ i, ∑ j, |T'.A i j| ≤ ∑ i, ∑ j, |T'.A i j| := fun i =>
    Finset.single_le_sum (f := fun i => ∑ j, |T'.A i j|) (fun j _ => hrow j) (Finset.mem_univ i)
  have ha0 : 0 ≤ ∑ i, ∑ j, |T'.A i j| := Finset.sum_nonneg fun j _ => hrow j
  set c := ∑ i, |T'.C i| with hcd
  set a := ∑ i, ∑ j, |T'.A i j| with had
  have haM : 0 ≤ a * M := mul_nonneg ha0 hM
  have hCM : 0 ≤ C * M := mul_nonneg hC hM
  have key : ∀ {h x z : α}, 0 ≤ h → 0 ≤ x → h ≤ z / (x + 1) → h * x ≤ z := by
    intro h x z hh hx hz
    have := (le_div_iff₀ (by linarith : (0 : α) < x + 1)).mp hz
    nlinarith
  refine ⟨min (δ / (c + 1)) (min (δ / (a * M + 1)) (ε / (C * M + 1))), ?_, ?_⟩
  · exact lt_min (by positivity) (lt_min (by positivity) (by positivity))
  · intro rhs t y h en K hb hh hle hK hnorm
    obtain ⟨h1, h2⟩ := le_min_iff.mp hle
    obtain ⟨h2, h3⟩ := le_min_iff.mp h2
    have hKb : ∀ i d, |K i d| ≤ M := by
      refine stages_bounded hT' hb hh.le (fun i => ?_) (fun i => ?_) hK
      · exact (mul_le_mul_of_nonneg_left (hc i) hh.le).trans (key hh.le hc0 h1)
      · exact (mul_le_mul_of_nonneg_left (mul_le_mul_of_nonneg_right (ha i) hM) hh.le).trans
          (key hh.le haM h2)
    obtain ⟨h4, h5⟩ := hn h K _ y en M hh.le hM hKb hnorm
    exact ⟨h4, h5.trans (key hh.le hCM h3)⟩

section loop
variable {lib : Lib α} {o : VarOptions α} {ex : α} {T : Tableau α s} {norm : ErrNorm α n s} {rhs : Rhs α n}

/-- One round: the loop ends, or the attempt is rejected and the next one is made with a smaller step. -/
theorem fsalBody_round (hT : Explicit T) (st : St α n 0 (FsalAux α n s I)) (hf : rhs st.t st.y = .ok st.f) :
    Halts (fsalBody lib o ex T norm rhs) st ∨ ∃ K en q,
      RKStages (withLast T) rhs st.t st.h st.y K ∧ norm st.h K (proposal T st.h st.y K) st.y = .ok en ∧
      en ≠ 0 ∧ 1 ≤ en ∧ StepFactor lib o ex en q ∧
      (fsalBody lib o ex T norm rhs).run st =
        (fsalBody lib o ex T norm rhs).run { st with h := st.h * q, aux := { st.aux with K := K } } := by
  unfold Halts
  rw [fsalBody_run]
  rcases fsalFixedStep_cases T rhs st with ⟨e, K', h⟩ | ⟨y', K', h, -⟩
  · rw [h]; exact Or.inl ⟨_, _, rfl⟩
  · obtain ⟨K, hK, hty, hst⟩ := (fsalFixedStep_ok T hT rhs st hf _ _).mp h
    rw [h, hst]
    have hy : y' = proposal T st.h st.y K := congrArg Prod.snd hty
    subst hy
    simp only [andThen_ok]
    have ey : ({ st with aux := { st.aux with K := K } } : St α n 0 (FsalAux α n s I)).y = st.y := rfl
    rw [ey]
    cases hn : norm st.h K (proposal T st.h st.y K) st.y with
    | error e => exact Or.inl ⟨_, _, rfl⟩
    | ok en =>
      simp only
      cases hu : stepUpdate lib o ex en st.h with
      | error e => exact Or.inl ⟨_, _, rfl⟩
      | ok r =>
        obtain ⟨h', acc⟩ := r
        simp only
        cases acc with
        | true => exact Or.inl ⟨_, _, rfl⟩
        | false =>
          right
          obtain ⟨q, hq, rfl, hacc⟩ := (stepUpdate_iff lib o ex en st.h h' false).mp hu
          have hacc' : ¬ (en = 0 ∨ en < 1) := fun hc => by simpa using hacc.mpr hc
          push Not at hacc'
          exact ⟨K, en, q, hK, hn, hacc'.1, hacc'.2, hq, rfl⟩

/-- The factor of a rejected attempt. -/
theorem reject_factor (ho : ShrinkingOptions o) (hl : PowLaw lib) (hex : 0 ≤ ex) {en q : α} (h0 : en ≠ 0)
    (h1 : 1 ≤ en) (hq : StepFactor lib o ex en q) :
    o.minFactor ≤ q ∧ q ≤ max o.minFactor o.safetyFactor := by
  rcases hq with ⟨h, _⟩ | ⟨_, _, rfl⟩
  · exact absurd h h0
  · refine ⟨le_min (ho.minFactor_lt.le.trans ho.maxFactor_ge) (le_max_left _ _), ?_⟩
    refine (min_le_right _ _).trans (max_le_max (le_refl _) ?_)
    exact div_le_self ho.safety_pos.le (hl.one_le _ _ h1 hex)

/-- The rejection loop ends. -/
theorem fsalBody_returns [Archimedean α] (hT : Explicit T) (ho : ShrinkingOptions o) (hl : PowLaw lib)
    (hex : 0 ≤ ex) {C : α} (hC : 0 ≤ C) (hn : NormBound norm C) {δ M : α} (hδ : 0 < δ) (hM : 0 ≤ M)
    (st : St α n 0 (FsalAux α n s I)) (hf : rhs st.t st.y = .ok st.f) (hb : BoundedNear rhs δ M st.t st.y)
    (hh : 0 < st.h) : Halts (fsalBody lib o ex T norm rhs) st := by
  obtain ⟨η, hη, hs⟩ := short_steps T hT norm hC hn hδ hM (ε := 1 / 2) (by norm_num)
  set ρ := max o.minFactor o.safetyFactor with hρ
  have hρ1 : ρ < 1 := max_lt ho.minFactor_lt ho.safety_lt
  have hρ0 : 0 < ρ := lt_max_of_lt_left ho.minFactor_pos
  obtain ⟨m, hm⟩ : ∃ m : Nat, st.h * ρ ^ m ≤ η := by
    obtain ⟨m, hm⟩ := exists_pow_lt_of_lt_one (div_pos hη hh) hρ1
    refine ⟨m, ?_⟩
    have := (lt_div_iff₀ hh).mp hm
    linarith
  induction m generalizing st with
  | zero =>
    rcases fsalBody_round (lib := lib) (o := o) (ex := ex) (norm := norm) hT st hf with
      h | ⟨K, en, q, hK, hnorm, h0, h1, -⟩
    · exact h
    · have := (hs rhs st.t st.y st.h en K hb hh (by simpa using hm) hK hnorm).2
      linarith
  | succ m ih =>
    rcases fsalBody_round (lib := lib) (o := o) (ex := ex) (norm := norm) hT st hf with
      h | ⟨K, en, q, hK, hnorm, h0, h1, hq, hrun⟩
    · exact h
    · obtain ⟨hq1, hq2⟩ := reject_factor ho hl hex h0 h1 hq
      have hq0 : 0 < q := lt_of_lt_of_le ho.minFactor_pos hq1
      have := ih { st with h := st.h * q, aux := { st.aux with K := K } } hf hb (mul_pos hh hq0) (by
        refine le_trans ?_ hm
        show st.h * q * ρ ^ m ≤ _
        rw [pow_succ, mul_assoc, mul_comm (ρ ^ m) ρ]
        refine mul_le_mul_of_nonneg_left (mul_le_mul_of_nonneg_right hq2 (pow_nonneg hρ0.le _)) hh.le)
      unfold Halts at this ⊢
      rw [hrun]
      exact this

/-- Neither the accepted size nor the next one is below `η`, if the first attempt is not. -/
theorem trail_ge (ho : ShrinkingOptions o) (hl : PowLaw lib) (hex : 0 ≤ ex) {t : α} {y : Vec α n} {η₀ η : α}
    (hη₀ : 0 < η₀) (hη : 0 < η) (hle : η ≤ o.minFactor * η₀)
    (hs : ∀ h en K, 0 < h → h ≤ η₀ → RKStages (withLast T) rhs t h y K →
      norm h K (proposal T h y K) y = .ok en → en < 1 ∧ ∀ q, StepFactor lib o ex en q → 1 ≤ q)
    {h h' : α} {l : List (Tried α)} {K : Fin (s + 2) → Vec α n}
    (ht : Trail lib o ex T norm rhs t y h l h' K) (hh : η ≤ h) :
    η ≤ h' ∧ ∀ last, l.getLast? = some last → η ≤ last.size := by
  induction ht with
  | @accept h en q K hK hn ha hq =>
    refine ⟨?_, by simp [hh]⟩
    by_cases hc : h ≤ η₀
    · have := (hs h en K (lt_of_lt_of_le hη hh) hc hK hn).2 q hq
      nlinarith
    · push Not at hc
      have hqm : o.minFactor ≤ q := by
        rcases hq with ⟨_, rfl⟩ | ⟨_, _, rfl⟩
        · exact ho.minFactor_lt.le.trans ho.maxFactor_ge
        · exact le_min (ho.minFactor_lt.le.trans ho.maxFactor_ge) (le_max_left _ _)
      have := ho.minFactor_pos
      nlinarith
  | @reject h en q h' K K' l hK hn ha hq hT ih =>
    have hc : η₀ < h := by
      by_contra hc
      have := (hs h en K (lt_of_lt_of_le hη hh) (not_lt.mp hc) hK hn).1
      linarith [ha.2]
    obtain ⟨hq1, hq2⟩ := reject_factor ho hl hex ha.1 ha.2 hq
    have hle' : η ≤ h * q := by
      have := ho.minFactor_pos
      nlinarith
    obtain ⟨h1, h2⟩ := ih hle'
    refine ⟨h1, fun last hlast => ?_⟩
    have hl : l ≠ [] := by cases hT <;> simp
    refine h2 last ?_
    rw [List.getLast?_cons_of_ne_nil hl] at hlast
    exact hlast

/-- Where the right-hand side is bounded by `B`, a step is not smaller than a fixed size, and neither is the size it leaves. -/
theorem body_lower (hT : Explicit T) (ho : ShrinkingOptions o) (hl : PowLaw lib)
    (hps : PowSmall lib ex) (hex : 0 ≤ ex) {C : α} (hC : 0 ≤ C) (hn : NormBound norm C) {B : α} (hB0 : 0 ≤ B) :
    ∃ η₀, 0 < η₀ ∧ ∀ (rhs : Rhs α n) (st st' : St α n 0 (FsalAux α n s I)) (η : α), 0 < η → η ≤ η₀ → η ≤ st.h →
      rhs st.t st.y = .ok st.f → BoundedNear rhs 1 B st.t st.y →
      (fsalBody lib o ex T norm rhs).run st = some (.ok (), st') →
      η ≤ st'.h ∧ st.t + η ≤ st'.t ∧ rhs st'.t st'.y = .ok st'.f := by
  obtain ⟨ε, hε, hpow⟩ := hps o.safetyFactor ho.safety_pos
  obtain ⟨η₀, hη₀, hs⟩ := short_steps T hT norm hC hn (δ := 1) (M := B) (ε := min ε (1 / 2)) one_pos hB0
    (lt_min hε (by norm_num))
  have hmf := ho.minFactor_pos
  refine ⟨o.minFactor * η₀, mul_pos hmf hη₀, fun rhs st st' η hη hle hst1 hst2 near ht => ?_⟩
  obtain ⟨l, last, h', K, hTr, hlast, rfl⟩ := (fsalBody_iff lib o ex T hT norm rhs st st' hst2).mp ht
  have hge := trail_ge ho hl hex hη₀ hη hle (fun h en K hpos hle hK hnorm => by
    obtain ⟨h1, h2⟩ := hs rhs st.t st.y h en K near hpos hle hK hnorm
    obtain ⟨h2, h3⟩ := le_min_iff.mp h2
    refine ⟨by linarith, fun q hq => ?_⟩
    rcases hq with ⟨_, rfl⟩ | ⟨hne, _, rfl⟩
    · exact ho.maxFactor_ge
    · have hpos : 0 < en := lt_of_le_of_ne h1 (Ne.symm hne)
      refine le_min ho.maxFactor_ge (le_max_of_le_right ?_)
      rw [le_div_iff₀ (hl.pos _ _ hpos), one_mul]
      exact hpow en hpos h2) hTr hst1
  refine ⟨hge.1, ?_, ?_⟩
  · have := hge.2 last hlast
    simp only [St.t, push_t]
    linarith
  · obtain ⟨t', y', f', hc, hr⟩ := fsalBody_shape lib o ex T norm rhs st _ _ ht
    simp only [St.t, St.y, St.f] at hc ⊢
    rw [hc, push_t, push_y, push_f]
    exact hr

/-- With a bounded right-hand side the loop makes steps of at least a fixed size. -/
theorem variable_advances [Archimedean α] {M : Method α n 0 (FsalAux α n s I)} {b : Bound α}
    (hMb : M.body rhs = fsalBody lib o ex T norm rhs) (hT : Explicit T) (ho : ShrinkingOptions o) (hl : PowLaw lib)
    (hps : PowSmall lib ex) (hex : 0 ≤ ex) {C : α} (hC : 0 ≤ C) (hn : NormBound norm C) {B : α} (hB0 : 0 ≤ B)
    (hB : BoundedBy rhs B) {h₀ : α} (hh₀ : 0 < h₀) :
    ∃ η, 0 < η ∧ η ≤ h₀ ∧
      Advances (⟨M, rhs, b⟩ : Solver α n 0 (FsalAux α n s I)) (fun st => η ≤ st.h ∧ rhs st.t st.y = .ok st.f) := by
  have near : ∀ t y, BoundedNear rhs 1 B t y := fun t y t' y' _ _ v hv d => hB t' y' v hv d
  obtain ⟨η₀, hη₀, hs⟩ := body_lower (I := I) hT ho hl hps hex hC hn hB0
  have hη : 0 < min h₀ η₀ := lt_min hh₀ hη₀
  have key : ∀ st st' : St α n 0 (FsalAux α n s I), min h₀ η₀ ≤ st.h ∧ rhs st.t st.y = .ok st.f →
      Takes (⟨M, rhs, b⟩ : Solver α n 0 (FsalAux α n s I)) st st' →
      min h₀ η₀ ≤ st'.h ∧ st.t + min h₀ η₀ ≤ st'.t ∧ rhs st'.t st'.y = .ok st'.f := by
    intro st st' hst ht
    unfold Takes at ht
    replace ht : (M.body rhs).run st = some (.ok (), st') := ht
    rw [hMb] at ht
    exact hs rhs st st' _ hη (min_le_right _ _) hst.1 hst.2 (near _ _) ht
  refine ⟨min h₀ η₀, hη, min_le_left _ _, fun st h => lt_of_lt_of_le hη h.1, ?_, ?_, ?_, ?_⟩
  · intro st hst
    show Halts (M.body rhs) st
    rw [hMb]
    exact fsalBody_returns hT ho hl hex hC hn one_pos hB0 st hst.2 (near _ _) (lt_of_lt_of_le hη hst.1)
  · intro st st' hst ht
    obtain ⟨h1, -, h2⟩ := key st st' hst ht
    exact ⟨h1, h2⟩
  · exact fun _ => ⟨_, hη, fun st st' hst ht _ => (key st st' hst ht).2.1⟩
  · intro st st' hst hc hh
    simp only [St.t, St.y, St.f] at hst ⊢
    rw [hc, hh]
    exact hst

end loop

end Nbkode
