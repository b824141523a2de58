import Verif.Spec.EventTolerance
import Verif.Proofs.Tolerance
import Verif.Proofs.EventError
import Verif.Proofs.SharpLinear

/-!
# Proofs: event times and tolerance
-/

set_option autoImplicit false
set_option linter.unusedSectionVars false

namespace Nbkode
open Py Spec Solver Topology

variable {n s d : ℕ}

/-- Along a solution on which the estimate is sharp, a solver with small tolerances makes small steps and tracks the solution. -/
theorem tolerance_tracks {lib : Lib ℝ} (hl : RealFunctions lib) {c : FsalCoef ℝ s (d + 1)} (hT : Explicit c.toTableau)
    (hRows : RowSums c.toTableau) (hRows' : RowSums (withLast c.toTableau)) (hends : EndConditions c.toTableau c.P) {q r : ℕ}
    (hB : OrderConditions c.A c.B (r + 1)) (hd : r ≤ d + 1) (hP : DenseConditions (withLast c.toTableau).A c.P r)
    (hq : c.errorExponent = 1 / ((q : ℝ) + 1)) (b : Bound ℝ) {f : ℝ → Vec ℝ n → Vec ℝ n} {y : ℝ → Vec ℝ n} {a b' t₀ t₁ t₂ : ℝ} (M : ℝ)
    (hf : ContDiff ℝ (r + 1 : ℕ) (joint f)) (ha : a < t₀) (ht12 : t₁ < t₂) (hb : t₂ < b') (hy : ∀ t ∈ Set.Ioo a b', SolvesAt f y t)
    (hsh : SharpEstimate c.toTableau c.E (r + 1) f y t₀ t₂) :
    ∃ C, 0 ≤ C ∧ ∀ ρ : ℝ, 0 < ρ → ∃ δ ε, 0 < δ ∧ 0 < ε ∧ ∀ o, ShrinkingOptions o → o.maxFactor ≤ M → o.atol ≤ ε → o.rtol ≤ ε →
      ∃ η, 0 ≤ η ∧ η ≤ ρ ∧ C * (o.atol + o.rtol) ≤ ρ ∧ ∀ s0 : St ℝ n 0 (FsalAux ℝ n s (RkItp ℝ n (d + 1))),
        fsalStarts c o (pureRhs f) t₀ (y t₀) s0 → 0 < s0.h → s0.h ≤ δ →
        LargestStep ⟨fsal lib o c, pureRhs f, b⟩ s0 t₁ η ∧ Tracks ⟨fsal lib o c, pureRhs f, b⟩ y s0 t₁ (C * (o.atol + o.rtol)) := by
  have hex : 0 ≤ c.errorExponent := by rw [hq]; positivity
  obtain ⟨G, δ₀, hG, hδ₀, hst⟩ := tolerance_steps hl hT hRows (Nat.le_add_left 1 r) hB hq b M hf ha hb hy hsh
  obtain ⟨C, δ₁, hC, hδ₁, hE⟩ := steps_error_uniform (ι := {o : VarOptions ℝ // ShrinkingOptions o})
    (cls := fun o (rhs : Rhs ℝ n) => ⟨fsal lib o.1 c, rhs, b⟩) (starts := fun o => fsalStarts c o.1)
    (fun o _ => Or.inr ⟨lib, o.1, _, .fsal _, real_powLaw hl, sane_of_shrinking o.2, hex⟩) (fun o => fsal_startsAt _ lib o.1 b)
    (fun o => fsalBody_steps hT lib o.1 (real_powLaw hl) (sane_of_shrinking o.2) _ hex _ b _)
    (fun o => fsal_dense _ hT hends lib o.1 (real_powLaw hl) (sane_of_shrinking o.2) hex b) hT hRows (withLast_explicit hT) hRows' hB hd hP
    hf ha (ht12.trans hb) hy
  refine ⟨C * G, mul_nonneg hC hG, fun ρ hρ => ?_⟩
  set δ := min δ₀ (min (min δ₁ ρ) (min (t₂ - t₁) (min 1 (ρ / (C + 1))))) with hδ
  have hδpos : 0 < δ := by
    have := sub_pos.mpr ht12
    positivity
  obtain ⟨τ, hτ, hst⟩ := hst δ hδpos (min_le_left _ _)
  refine ⟨δ, τ, hδpos, hτ, fun o ho hoM hat hrt => ?_⟩
  obtain ⟨η, hη0, hηδ, hηp, key⟩ := hst o ho hoM hat hrt
  have g1 : η ≤ δ₁ := hηδ.trans ((min_le_right _ _).trans ((min_le_left _ _).trans (min_le_left _ _)))
  have g2 : η ≤ ρ := hηδ.trans ((min_le_right _ _).trans ((min_le_left _ _).trans (min_le_right _ _)))
  have g3 : η ≤ 1 := hηδ.trans ((min_le_right _ _).trans ((min_le_right _ _).trans ((min_le_right _ _).trans (min_le_left _ _))))
  have g4 : η ≤ ρ / (C + 1) := hηδ.trans ((min_le_right _ _).trans ((min_le_right _ _).trans ((min_le_right _ _).trans (min_le_right _ _))))
  have hCp : C * G * (o.atol + o.rtol) = C * η ^ (r + 1) := by rw [hηp, mul_assoc]
  refine ⟨η, hη0, g2, by rw [hCp]; exact (scale_small (Nat.le_add_left 1 r) hC hη0 g3 hρ g4).le, fun s0 hs0 hh0 hh => ?_⟩
  have hS := fsal_startsAt (n := n) c lib o b
  have ht0 : s0.t = t₀ := hS.times _ _ _ _ hs0 _
  have hy0 : s0.y = y t₀ := hS.y _ _ _ _ hs0
  have hon : On f y s0 := ⟨by rw [ht0, hy0], by rw [ht0, hy0]; exact (Except.ok.inj (hS.f _ _ _ _ hs0)).symm⟩
  have hlarge : LargestStep ⟨fsal lib o c, pureRhs f, b⟩ s0 t₁ η := by
    intro l u v hpu hut htk
    have hp1 := path_free hpu
    obtain ⟨hu0, huf, hu1⟩ := key s0 u l .inf ht0 hon hh0 hh hp1
    have hvt := (fsal_step_sizes hl hT ho hq huf hu0 htk).2.1
    have h1 : δ ≤ t₂ - t₁ := (min_le_right _ _).trans ((min_le_right _ _).trans (min_le_left _ _))
    have h2 := (hu1 (by linarith)).1
    have hp2 := path_append hp1 (.cons trivial htk (.nil _))
    have h3 := ((key s0 v _ .inf ht0 hon hh0 hh hp2).2.2 (by linarith)).2
    exact (steps_last hp1 h3).2
  refine ⟨hlarge, ?_⟩
  rw [hCp]
  exact tracks_of_error (Or.inr ⟨lib, o, _, .fsal _, real_powLaw hl, sane_of_shrinking ho, hex⟩) hh0 (by positivity) (by rw [hy0, ht0])
    fun l u v hp hu hfit ht => hE ⟨o, ho⟩ η s0 u v l hs0 hh0 hη0 g1 hlarge hp hu hfit ht

variable {lib : Lib ℝ} (hl : RealFunctions lib) {c : FsalCoef ℝ s (d + 1)} (hT : Explicit c.toTableau)
    (hRows : RowSums c.toTableau) (hRows' : RowSums (withLast c.toTableau)) (hends : EndConditions c.toTableau c.P) {q r : ℕ}
    (hB : OrderConditions c.A c.B (r + 1)) (hd : r ≤ d + 1) (hP : DenseConditions (withLast c.toTableau).A c.P r)
    (hq : c.errorExponent = 1 / ((q : ℝ) + 1)) (b : Bound ℝ)

include hl hT hRows hRows' hends hB hd hP hq

theorem zeros_follow_tolerance :
    ZerosFollowTolerance (fun o (rhs : Rhs ℝ n) => ⟨fsal lib o c, rhs, b⟩) (fsalStarts c) (SharpEstimate c.toTableau c.E (r + 1)) (r + 1) := by
  intro f y a b' t₀ t₁ t₂ M g hf ha ht12 hb hy hsh hg
  have hex : 0 ≤ c.errorExponent := by rw [hq]; positivity
  obtain ⟨C, hC, htr⟩ := tolerance_tracks hl hT hRows hRows' hends hB hd hP hq b M hf ha ht12 hb hy hsh
  obtain ⟨L, K, hL, hK, hrec⟩ := records_tracked (k := 0) (X := FsalAux ℝ n s (RkItp ℝ n (d + 1))) hf.continuous ha (ht12.trans hb) hy hg
  obtain ⟨δ, ε, hδ, hε, htr⟩ := htr (min 1 ((b' - t₁) / 2)) (lt_min one_pos (by linarith))
  refine ⟨L * C + K, δ, ε, hδ, hε, fun o ho hoM hat hrt bo argsort htol hA s0 s' ts es out hs0 hh0 hh hrun i e tl hie he htl τ hτ hτT => ?_⟩
  obtain ⟨η, hη0, hη1, hE1, h⟩ := htr o ho hoM hat hrt
  obtain ⟨hlarge, htrack⟩ := h s0 hs0 hh0 hh
  have hS := fsal_startsAt (n := n) c lib o b
  have hsum : 0 ≤ o.atol + o.rtol := add_nonneg ho.atol_pos.le ho.rtol_nonneg
  refine (hrec _ bo argsort (Or.inr ⟨lib, o, _, .fsal _, real_powLaw hl, sane_of_shrinking ho, hex⟩) htol hA (C * (o.atol + o.rtol)) η s0 s' ts es
    out (hS.constructed _ _ _ _ hs0) (fun i j _ => by rw [hS.times _ _ _ _ hs0, hS.times _ _ _ _ hs0]) hh0 (hS.times _ _ _ _ hs0 _).ge
    (by positivity) (hE1.trans (min_le_left _ _)) (hη1.trans (min_le_right _ _)) hlarge htrack hrun i e tl hie he htl τ hτ hτT).trans ?_
  have e0 : η / 2 ^ bo.maxiter ≤ 1 / 2 ^ bo.maxiter := by gcongr; exact hη1.trans (min_le_left _ _)
  have e1 : K * (η / 2 ^ bo.maxiter) ≤ K * (1 / 2 ^ bo.maxiter) := by gcongr
  have e2 : 0 ≤ K * (o.atol + o.rtol) := by positivity
  have e3 : 0 ≤ L * C * (1 / 2 ^ bo.maxiter) := by positivity
  linarith

theorem crossings_follow_tolerance :
    CrossingsFollowTolerance (fun o (rhs : Rhs ℝ n) => ⟨fsal lib o c, rhs, b⟩) (fsalStarts c) (SharpEstimate c.toTableau c.E (r + 1))
      (r + 1) := by
  intro f y a b' t₀ t₁ t₂ M g cc z dd σ hf ha ht12 hb hy hsh hg hc hcz hzd hdT hz hσ hslope
  have hex : 0 ≤ c.errorExponent := by rw [hq]; positivity
  obtain ⟨C, hC, htr⟩ := tolerance_tracks hl hT hRows hRows' hends hB hd hP hq b M hf ha ht12 hb hy hsh
  obtain ⟨K, ρ, hK, hρ, hfind⟩ := finds_tracked (k := 0) (X := FsalAux ℝ n s (RkItp ℝ n (d + 1))) hf.continuous ha (ht12.trans hb) hy hg hc
    hcz hzd hdT hz hσ hslope
  obtain ⟨δ, ε, hδ, hε, htr⟩ := htr (min 1 ρ) (lt_min one_pos hρ)
  refine ⟨K * (1 + C), δ, ε, hδ, hε, fun o ho hoM hat hrt bo argsort htol hA s0 s' ts es out hs0 hh0 hh hrun i e tl hie he htl => ?_⟩
  obtain ⟨η, hη0, hη1, hE1, h⟩ := htr o ho hoM hat hrt
  obtain ⟨hlarge, htrack⟩ := h s0 hs0 hh0 hh
  have hS := fsal_startsAt (n := n) c lib o b
  have ht0 : s0.t = t₀ := hS.times _ _ _ _ hs0 _
  have hsum : 0 ≤ o.atol + o.rtol := add_nonneg ho.atol_pos.le ho.rtol_nonneg
  obtain ⟨g1, g2⟩ := hfind _ bo argsort (Or.inr ⟨lib, o, _, .fsal _, real_powLaw hl, sane_of_shrinking ho, hex⟩) htol hA
    (C * (o.atol + o.rtol)) η s0 s' ts es out (hS.constructed _ _ _ _ hs0)
    (fun i j _ => by rw [hS.times _ _ _ _ hs0, hS.times _ _ _ _ hs0]) hh0 ht0.ge (by positivity) (hE1.trans (min_le_right _ _)) hη0
    (hη1.trans (min_le_right _ _)) hlarge htrack hrun i e tl hie he htl
  refine ⟨g1 (by rw [ht0]; exact hc), fun τ hτ h1 h2 => (g2 τ hτ h1 h2).trans ?_⟩
  rw [mul_assoc]
  refine mul_le_mul_of_nonneg_left ?_ hK
  have e0 : η / 2 ^ bo.maxiter ≤ 1 / 2 ^ bo.maxiter := by gcongr; exact hη1.trans (min_le_left _ _)
  have e1 : 0 ≤ C * bo.tol := by positivity
  have e2 : 0 ≤ C * (1 / 2 ^ bo.maxiter) := by positivity
  linarith

omit hl hT hRows hRows' hends hB hd hP hq in
theorem zeros_mono {cls : VarOptions ℝ → Rhs ℝ n → Solver ℝ n 0 (FsalAux ℝ n s (RkItp ℝ n (d + 1)))}
    {starts : VarOptions ℝ → Rhs ℝ n → ℝ → Vec ℝ n → St ℝ n 0 (FsalAux ℝ n s (RkItp ℝ n (d + 1))) → Prop}
    {sharp sharp' : (ℝ → Vec ℝ n → Vec ℝ n) → (ℝ → Vec ℝ n) → ℝ → ℝ → Prop} {p : ℕ}
    (h : ∀ f y a b t₀ t₂, a < t₀ → t₂ < b → (∀ t ∈ Set.Ioo a b, SolvesAt f y t) → sharp' f y t₀ t₂ → sharp f y t₀ t₂)
    (hz : ZerosFollowTolerance cls starts sharp p) : ZerosFollowTolerance cls starts sharp' p :=
  fun f y a b t₀ t₁ t₂ M g hf ha ht hb hy hs hg => hz f y a b t₀ t₁ t₂ M g hf ha ht hb hy (h f y a b t₀ t₂ ha hb hy hs) hg

omit hl hT hRows hRows' hends hB hd hP hq in
theorem crossings_mono {cls : VarOptions ℝ → Rhs ℝ n → Solver ℝ n 0 (FsalAux ℝ n s (RkItp ℝ n (d + 1)))}
    {starts : VarOptions ℝ → Rhs ℝ n → ℝ → Vec ℝ n → St ℝ n 0 (FsalAux ℝ n s (RkItp ℝ n (d + 1))) → Prop}
    {sharp sharp' : (ℝ → Vec ℝ n → Vec ℝ n) → (ℝ → Vec ℝ n) → ℝ → ℝ → Prop} {p : ℕ}
    (h : ∀ f y a b t₀ t₂, a < t₀ → t₂ < b → (∀ t ∈ Set.Ioo a b, SolvesAt f y t) → sharp' f y t₀ t₂ → sharp f y t₀ t₂)
    (hz : CrossingsFollowTolerance cls starts sharp p) : CrossingsFollowTolerance cls starts sharp' p :=
  fun f y a b t₀ t₁ t₂ M g c z d σ hf ha ht hb hy hs => hz f y a b t₀ t₁ t₂ M g c z d σ hf ha ht hb hy (h f y a b t₀ t₂ ha hb hy hs)

omit hl hRows hends hB hd hP hq in
/-- The estimates are sharp along every solution of a regular linear system which is not at rest. -/
theorem moving_sharp (hr : 1 ≤ r) (hW : ∀ τ : Tree, τ.order ≤ r → ∑ i, c.E i * τ.weight (withLast c.toTableau).A i = 0)
    (hW' : ∑ i, c.E i * powOnes (withLast c.toTableau).A r i ≠ 0) (f : ℝ → Vec ℝ n → Vec ℝ n) (y : ℝ → Vec ℝ n) (a b t₀ t₂ : ℝ) (ha : a < t₀)
    (hb : t₂ < b) (hy : ∀ t ∈ Set.Ioo a b, SolvesAt f y t) (h : MovingLinear f y t₀ t₂) :
    SharpEstimate c.toTableau c.E (r + 1) f y t₀ t₂ := by
  obtain ⟨M, w, rfl, hM, hne⟩ := h
  change ∀ t ∈ Set.Ioo a b, SolvesAt (affineRhs M w) y t at hy
  change affineRhs M w t₀ (y t₀) ≠ 0 at hne
  have hinj : ∀ v : Fin n → ℝ, matMap M v = 0 → v = 0 := fun v hv => hM v fun i => by rw [← matMap_apply]; exact congrFun hv i
  have hpow : ∀ (k : ℕ) (v : Fin n → ℝ), (matMap M ^ k) v = 0 → v = 0 := by
    intro k
    induction k with
    | zero => intro v hv; simpa using hv
    | succ k ih =>
      intro v hv
      rw [pow_succ, ContinuousLinearMap.mul_apply] at hv
      exact hinj v (ih _ hv)
  refine affine_sharp M w hT hRows' hr (fun τ hτ => hW τ (Nat.lt_succ_iff.mp hτ)) hW' (fun t ht =>
    (hy t ⟨ha.trans_le ht.1, ht.2.trans_lt hb⟩).continuousAt) fun t ht h0 => hne ?_
  have := nilpotent_everywhere M w hy (⟨ha.trans_le ht.1, ht.2.trans_lt hb⟩ : t ∈ Set.Ioo a b) h0 t₀ ⟨ha, (ht.1.trans ht.2).trans_lt hb⟩
  rw [affineRhs_eq]
  exact hpow r _ this

end Nbkode
