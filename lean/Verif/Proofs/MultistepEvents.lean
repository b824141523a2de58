import Verif.Proofs.EventError
import Verif.Proofs.MultistepRun
import Verif.Props.Grid
import Verif.Spec.MultistepEvents

/-! # Event times with multistep methods and the true solution -/

set_option autoImplicit false
set_option linter.unusedSectionVars false

namespace Nbkode
open Py Spec Solver

variable {n k : ℕ} {X : Type}

/-- A solver whose steps and history are near the solution tracks it. -/
theorem near_tracks {q : ℕ} {f : ℝ → Vec ℝ n → Vec ℝ n} {y : ℝ → Vec ℝ n} {t₀ T T' L E h C : ℝ} (hh : 0 < h) (hL : 0 ≤ L)
    (hw : ((k : ℝ) + 1) * h ≤ 1) (hC : 0 ≤ C) (hT : T + h ≤ T')
    (hherm : ∀ (s : St ℝ n k X) (E : ℝ), t₀ ≤ s.cache.ts (Buffer.iOld k) → s.t ≤ T' →
      s.t - s.cache.ts (Buffer.iOld k) ≤ 1 →
      (∀ d, |s.cache.ys (Buffer.iOld k) d - y (s.cache.ts (Buffer.iOld k)) d| ≤ E) → (∀ d, |s.y d - y s.t d| ≤ E) →
      (∀ d, |s.cache.fs (Buffer.iOld k) d - f (s.cache.ts (Buffer.iOld k)) (y (s.cache.ts (Buffer.iOld k))) d| ≤ L * E) →
      (∀ d, |s.f d - f s.t (y s.t) d| ≤ L * E) →
      ∀ t, s.cache.ts (Buffer.iOld k) ≤ t → t ≤ s.t → ∀ r s', (hermiteInterp t : Py (St ℝ n k X) _).run s = some (.ok r, s') →
      ∀ d, |r.deref s.cache d - y t d| ≤ C * (E + (s.t - s.cache.ts (Buffer.iOld k)) ^ (q + 1)))
    (hlip : ∀ t ∈ Set.Icc t₀ T', ∀ v : Fin n → ℝ, ‖v - y t‖ ≤ E → ∀ d, |f t v d - f t (y t) d| ≤ L * ‖v - y t‖)
    {S : Solver ℝ n k X} (hM : IsFixed S.method)
    (hS : ∀ u v : St ℝ n k X, u.h = h → Takes S u v →
      ∃ y' x, v = (⟨u.cache.push (u.t + h) y' (f (u.t + h) y'), h, x⟩ : St ℝ n k X))
    {s0 : St ℝ n k X} (h0 : s0.h = h) (hn : Near f y t₀ E h s0) (hE : 0 ≤ E)
    (hpath : ∀ l u, Path S S.tBound s0 l u → ∀ v ∈ l, v.t ≤ T' → ∀ d, |v.y d - y v.t d| ≤ E) :
    Tracks S y s0 T (C * (E + (((k : ℝ) + 1) * h) ^ (q + 1)) + E) ∧ LargestStep S s0 T h := by
  have hstep : ∀ l u v, Path S S.tBound s0 l u → Takes S u v → v.t = u.t + h := by
    intro l u v hp ht
    obtain ⟨y', x, e⟩ := hS u v ((path_grid hM hp).2.2.trans h0) ht
    rw [e]; exact push_t _ _ _ _
  have hpos : 0 ≤ C * (E + (((k : ℝ) + 1) * h) ^ (q + 1)) := by positivity
  refine ⟨⟨fun l u v hp hu hfit ht x w h1 h2 hw' i => ?_, fun l u hp hu i => ?_⟩, fun l u v hp _ ht => ?_⟩
  · obtain ⟨r, v', hint, rfl⟩ := hw'
    have hv := hstep l u v hp ht
    have hp1 : Path S S.tBound s0 (l ++ [v]) v := path_append hp (.cons hfit ht (.nil _))
    have hT2 : v.t ≤ T' := by linarith
    have hN := (near_path hh hS hp1 h0 hn hT2 (hpath _ _ hp1)).1
    have := near_dense (q := q) hL hw hC hherm hlip hM hE hN hT2 hint i
    linarith
  · rcases path_last_step hp with rfl | ⟨l', w, h1, h2, h3⟩
    · have := hn.states 0 (Nat.zero_le _) i
      have e1 : ago u.cache.ts 0 = u.t := rfl
      have e2 : ago u.cache.ys 0 = u.y := rfl
      rw [e1, e2] at this
      linarith
    · have := hpath _ _ (path_append h1 (.cons h2 h3 (.nil _))) u (by simp) (by linarith) i
      linarith
  · rw [hstep l u v hp ht]; linarith

/-! ### Solvers just constructed -/

/-- With step `h`, the solver just constructed stays within `E h` of the solution. -/
def StartTracks {p : ℕ} (init : Constructor n p) (S : Solver ℝ n (histExtra p) Unit) (f : ℝ → Vec ℝ n → Vec ℝ n) (y : ℝ → Vec ℝ n)
    (t₀ T δ : ℝ) (E : ℝ → ℝ) : Prop :=
  ∀ (h : ℝ) (s : St ℝ n (histExtra p) Unit), 0 < h → h ≤ δ → init (pureRhs f) t₀ (y t₀) h = some (.ok s) →
    s.h = h ∧ s.t = t₀ + p * h ∧ Ordered s ∧ Tracks S y s T (E h) ∧ LargestStep S s T h

theorem start_tracks {p q : ℕ} (hq1 : 1 ≤ q) (hq : q ≤ 4) {init : Constructor n p}
    {cls : Rhs ℝ n → Solver ℝ n (histExtra p) Unit} (hM : ∀ rhs, IsFixed (cls rhs).method) (hin : StartsNear init q)
    (hconv : StartConverges init cls q)
    (hS : ∀ (f : ℝ → Vec ℝ n → Vec ℝ n) (u v : St ℝ n (histExtra p) Unit), Takes (cls (pureRhs f)) u v →
      ∃ y', v = ⟨u.cache.push (u.t + u.h) y' (f (u.t + u.h) y'), u.h, ()⟩)
    {f : ℝ → Vec ℝ n → Vec ℝ n} {y : ℝ → Vec ℝ n} {a b t₀ T : ℝ} (hf : ContDiff ℝ q (joint f)) (ha : a < t₀) (ht : t₀ < T)
    (hb : T < b) (hy : ∀ t ∈ Set.Ioo a b, SolvesAt f y t) :
    ∃ C δ, 0 ≤ C ∧ 0 < δ ∧ StartTracks init (cls (pureRhs f)) f y t₀ T δ fun h => C * h ^ q := by
  set T' := (T + b) / 2 with hT'
  have hTT : T < T' := by rw [hT']; linarith
  have hTb : T' < b := by rw [hT']; linarith
  obtain ⟨D, δ₁, hD, hδ₁, hnear⟩ := hin f y a b t₀ T' hf ha (ht.trans hTT) hTb hy
  obtain ⟨C₁, δ₂, hδ₂, hst⟩ := hconv f y a b t₀ T' hf ha (ht.trans hTT) hTb hy
  have hyc : ContinuousOn (fun t => (y t : Fin n → ℝ)) (Set.Icc t₀ T') := fun t ht =>
    (hy t ⟨ha.trans_le ht.1, ht.2.trans_lt hTb⟩).continuousAt.continuousWithinAt
  obtain ⟨L, hL0, hL⟩ := tube_lipschitz (hf.of_le (by exact_mod_cast hq1)) hyc
  obtain ⟨q, rfl⟩ : ∃ m, q = m + 1 := ⟨q - 1, by omega⟩
  obtain ⟨C, hC, hherm⟩ := hermite_error (k := histExtra p) (X := Unit) (q := q) (by omega)
    (hf.of_le (by exact_mod_cast Nat.le_succ q)) ha hTb hy hL0
  set M := D + |C₁| with hMdef
  have hM0 : 0 ≤ M := by positivity
  set κ : ℝ := (histExtra p : ℝ) + 1 with hκ
  have hκ0 : 0 < κ := by positivity
  refine ⟨C * (M + κ ^ (q + 1)) + M, min (min δ₁ δ₂) (min (min 1 (1 / (M + 1))) (min (1 / κ) (T' - T))), by positivity,
    by
      have : 0 < T' - T := by linarith
      positivity, fun h s h0 h1 hs => ?_⟩
  have k1 : h ≤ δ₁ := h1.trans ((min_le_left _ _).trans (min_le_left _ _))
  have k2 : h ≤ δ₂ := h1.trans ((min_le_left _ _).trans (min_le_right _ _))
  have k3 : h ≤ 1 := h1.trans ((min_le_right _ _).trans ((min_le_left _ _).trans (min_le_left _ _)))
  have k4 : h ≤ 1 / (M + 1) := h1.trans ((min_le_right _ _).trans ((min_le_left _ _).trans (min_le_right _ _)))
  have k5 : h ≤ 1 / κ := h1.trans ((min_le_right _ _).trans ((min_le_right _ _).trans (min_le_left _ _)))
  have k6 : h ≤ T' - T := h1.trans ((min_le_right _ _).trans ((min_le_right _ _).trans (min_le_right _ _)))
  rw [le_div_iff₀ (by positivity)] at k4 k5
  obtain ⟨e1, e2, e3, e4⟩ := hnear h s h0 k1 hs
  have hpow : 0 ≤ h ^ (q + 1) := by positivity
  have hpow1 : h ^ (q + 1) ≤ h := by
    calc h ^ (q + 1) ≤ h ^ 1 := pow_le_pow_of_le_one h0.le k3 (by omega)
      _ = h := pow_one _
  have hE1 : M * h ^ (q + 1) ≤ 1 := by nlinarith
  obtain ⟨key, hlarge⟩ := near_tracks (q := q) (T := T) (E := M * h ^ (q + 1)) h0 hL0 (by rw [← hκ]; linarith) hC (by linarith) hherm
    (fun t ht v hv => hL t ht v (hv.trans hE1)) (hM (pureRhs f))
    (fun u v hu htk => by
      obtain ⟨y', e⟩ := hS f u v htk
      exact ⟨y', (), by rw [hu] at e; exact e⟩) e1
    (e3.mono (by rw [hMdef]; nlinarith [mul_nonneg (abs_nonneg C₁) hpow])) (by positivity)
    (fun l u hl v hv hvT d => (hst h s u l _ h0 k2 hs hl v hv hvT d).trans (by
      refine mul_le_mul_of_nonneg_right ?_ hpow
      rw [hMdef]; linarith [le_abs_self C₁]))
  refine ⟨e1, e2, e4, ?_, hlarge⟩
  rw [← hκ, mul_pow] at key
  have e : C * (M * h ^ (q + 1) + κ ^ (q + 1) * h ^ (q + 1)) + M * h ^ (q + 1) = (C * (M + κ ^ (q + 1)) + M) * h ^ (q + 1) := by ring
  rwa [e] at key

theorem start_tracks_within {p q : ℕ} (hq1 : 1 ≤ q) (hq : q ≤ 4) {init : Constructor n p}
    {cls : ZeroOpts ℝ → Rhs ℝ n → Solver ℝ n (histExtra p) Unit} (hM : ∀ zo rhs, IsFixed (cls zo rhs).method)
    (hin : StartsNear init q) (hconv : StartConvergesWithin init cls q)
    (hS : ∀ (f : ℝ → Vec ℝ n → Vec ℝ n) (L : ℝ), 0 ≤ L → (∀ t u v, (∀ d, |f t u d - f t v d| ≤ L * ‖(u - v : Fin n → ℝ)‖)) →
      ∃ δ, 0 < δ ∧ ∀ zo, RootOpts zo → ∀ (u v : St ℝ n (histExtra p) Unit), 0 < u.h → u.h ≤ δ → Takes (cls zo (pureRhs f)) u v →
      ∃ y', v = ⟨u.cache.push (u.t + u.h) y' (f (u.t + u.h) y'), u.h, ()⟩)
    {f : ℝ → Vec ℝ n → Vec ℝ n} {y : ℝ → Vec ℝ n} {a b t₀ T L' : ℝ} (hf : ContDiff ℝ q (joint f)) (ha : a < t₀) (ht : t₀ < T)
    (hb : T < b) (hy : ∀ t ∈ Set.Ioo a b, SolvesAt f y t) (hLip : ∀ t u v, (∀ d, |f t u d - f t v d| ≤ L' * ‖(u - v : Fin n → ℝ)‖)) :
    ∃ C δ, 0 ≤ C ∧ 0 < δ ∧ ∀ zo, RootOpts zo →
      StartTracks init (cls zo (pureRhs f)) f y t₀ T δ fun h => C * (h ^ q + zo.tol / h) := by
  set T' := (T + b) / 2 with hT'
  have hTT : T < T' := by rw [hT']; linarith
  have hTb : T' < b := by rw [hT']; linarith
  obtain ⟨D, δ₁, hD, hδ₁, hnear⟩ := hin f y a b t₀ T' hf ha (ht.trans hTT) hTb hy
  obtain ⟨C₁, δ₂, hδ₂, hst⟩ := hconv f y a b t₀ T' L' hf ha (ht.trans hTT) hTb hy hLip
  obtain ⟨L, hL0, hL⟩ : ∃ L, 0 ≤ L ∧ ∀ t u v, (∀ d, |f t u d - f t v d| ≤ L * ‖(u - v : Fin n → ℝ)‖) :=
    ⟨max L' 0, le_max_right _ _, fun t u v d =>
      (hLip t u v d).trans (mul_le_mul_of_nonneg_right (le_max_left _ _) (norm_nonneg _))⟩
  obtain ⟨δ₃, hδ₃, hS'⟩ := hS f L hL0 hL
  obtain ⟨q, rfl⟩ : ∃ m, q = m + 1 := ⟨q - 1, by omega⟩
  obtain ⟨C, hC, hherm⟩ := hermite_error (k := histExtra p) (X := Unit) (q := q) (by omega)
    (hf.of_le (by exact_mod_cast Nat.le_succ q)) ha hTb hy hL0
  set M := D + |C₁| with hMdef
  have hM0 : 0 ≤ M := by positivity
  set κ : ℝ := (histExtra p : ℝ) + 1 with hκ
  have hκ0 : 0 < κ := by positivity
  refine ⟨C * (M + κ ^ (q + 1)) + M, min (min δ₁ δ₂) (min δ₃ (min (1 / κ) (T' - T))), by positivity,
    by
      have : 0 < T' - T := by linarith
      positivity, fun zo hzo h s h0 h1 hs => ?_⟩
  have k1 : h ≤ δ₁ := h1.trans ((min_le_left _ _).trans (min_le_left _ _))
  have k2 : h ≤ δ₂ := h1.trans ((min_le_left _ _).trans (min_le_right _ _))
  have k4 : h ≤ δ₃ := h1.trans ((min_le_right _ _).trans (min_le_left _ _))
  have k5 : h ≤ 1 / κ := h1.trans ((min_le_right _ _).trans ((min_le_right _ _).trans (min_le_left _ _)))
  have k6 : h ≤ T' - T := h1.trans ((min_le_right _ _).trans ((min_le_right _ _).trans (min_le_right _ _)))
  rw [le_div_iff₀ (by positivity)] at k5
  obtain ⟨e1, e2, e3, e4⟩ := hnear h s h0 k1 hs
  have hpow : 0 ≤ h ^ (q + 1) := by positivity
  have htol : 0 ≤ zo.tol / h := div_nonneg hzo.2.1 h0.le
  obtain ⟨key, hlarge⟩ := near_tracks (q := q) (T := T) (E := M * (h ^ (q + 1) + zo.tol / h)) h0 hL0 (by rw [← hκ]; linarith) hC
    (by linarith) hherm (fun t _ v _ => hL t v (y t)) (hM zo (pureRhs f))
    (fun u v hu htk => by
      obtain ⟨y', e⟩ := hS' zo hzo u v (by rw [hu]; exact h0) (by rw [hu]; exact k4) htk
      exact ⟨y', (), by rw [hu] at e; exact e⟩) e1
    (e3.mono (by
      rw [hMdef]
      have a1 := mul_nonneg (abs_nonneg C₁) (add_nonneg hpow htol)
      have a2 := mul_nonneg hD htol
      nlinarith)) (by positivity)
    (fun l u hl v hv hvT d => (hst zo hzo h s u l _ h0 k2 hs hl v hv hvT d).trans (by
      refine mul_le_mul_of_nonneg_right ?_ (add_nonneg hpow htol)
      rw [hMdef]; linarith [le_abs_self C₁]))
  rw [← hκ, mul_pow] at key
  have a3 : 0 ≤ C * κ ^ (q + 1) * (zo.tol / h) := by positivity
  have e : C * (M * (h ^ (q + 1) + zo.tol / h) + κ ^ (q + 1) * h ^ (q + 1)) + M * (h ^ (q + 1) + zo.tol / h) ≤
      (C * (M + κ ^ (q + 1)) + M) * (h ^ (q + 1) + zo.tol / h) := by nlinarith
  exact ⟨e1, e2, e4, ⟨fun l u v hp hu hfit htk x w h1 h2 hw i => (key.dense l u v hp hu hfit htk x w h1 h2 hw i).trans e,
    fun l u hp hu i => (key.visited l u hp hu i).trans e⟩, hlarge⟩

/-! ### Events -/

theorem tracks_records {p : ℕ} {f : ℝ → Vec ℝ n → Vec ℝ n} {y : ℝ → Vec ℝ n} {a b t₀ T : ℝ} {g : ℝ → Vec ℝ n → ℝ}
    (hf : Continuous (joint f)) (ha : a < t₀) (hb : T < b) (hy : ∀ t ∈ Set.Ioo a b, SolvesAt f y t) (hg : ContDiff ℝ 1 (jointEvent g)) :
    ∃ C δ', 0 ≤ C ∧ 0 < δ' ∧ ∀ (init : Constructor n p) (S : Solver ℝ n (histExtra p) Unit) (δ : ℝ) (E : ℝ → ℝ),
      WellConfigured S.method → (∀ h s, init (pureRhs f) t₀ (y t₀) h = some (.ok s) → Constructed S s) →
      StartTracks init S f y t₀ T δ E →
      ∀ (bo : BisectOpts ℝ) (argsort : List ℝ → List Nat), 0 ≤ bo.tol → (∀ l, IsArgsort l (argsort l)) →
      ∀ (h : ℝ) (s s' : St ℝ n (histExtra p) Unit) (ts : List ℝ) (es : List (EventSpec ℝ n)) (o : RunOut ℝ n (histExtra p)),
        0 < h → h ≤ min δ δ' → 0 ≤ E h → E h ≤ δ' → init (pureRhs f) t₀ (y t₀) h = some (.ok s) →
        (S.runEvents bo argsort ts (some es)).run s = some (.ok o, s') →
        ∀ (i : Nat) e tl, es[i]? = some e → e.func = g → o.tEvents[i]? = some tl →
          ∀ τ ∈ tl, τ < T → |g τ (y τ)| ≤ bo.tol + C * (E h + h / 2 ^ bo.maxiter) := by
  obtain ⟨L, M, hL, hM0, hrec⟩ := records_tracked (k := histExtra p) (X := Unit) hf ha hb hy hg
  refine ⟨L + M, min 1 ((b - T) / 2), by positivity, lt_min one_pos (by linarith), ?_⟩
  intro init S δ E hM hc htr bo argsort htol hA h s s' ts es o h0 h1 hE0 hE hs hrun i e tl hie he htl τ hτ hτT
  have k1 : h ≤ δ := h1.trans (min_le_left _ _)
  have k2 : h ≤ (b - T) / 2 := h1.trans ((min_le_right _ _).trans (min_le_right _ _))
  obtain ⟨e1, e2, e3, e4, e5⟩ := htr h s h0 k1 hs
  have hph : 0 ≤ (p : ℝ) * h := by positivity
  have := hrec S bo argsort hM htol hA (E h) h s s' ts es o (hc _ _ hs) e3 (by rw [e1]; exact h0) (by rw [e2]; linarith) hE0
    (hE.trans (min_le_left _ _)) k2 e5 e4 hrun i e tl hie he htl τ hτ hτT
  refine this.trans ?_
  have a1 : 0 ≤ M * E h := by positivity
  have a2 : 0 ≤ L * (h / 2 ^ bo.maxiter) := by positivity
  linarith

theorem tracks_finds {p : ℕ} {f : ℝ → Vec ℝ n → Vec ℝ n} {y : ℝ → Vec ℝ n} {a b t₀ T : ℝ} {g : ℝ → Vec ℝ n → ℝ} {c z d σ : ℝ}
    (hf : Continuous (joint f)) (ha : a < t₀) (hb : T < b) (hy : ∀ t ∈ Set.Ioo a b, SolvesAt f y t) (hg : ContDiff ℝ 1 (jointEvent g))
    (hc : t₀ ≤ c) (hcz : c < z) (hzd : z < d) (hdT : d < T) (hz : g z (y z) = 0) (hσ : σ = 1 ∨ σ = -1)
    (hslope : ∀ t ∈ Set.Icc c d, 0 < σ * deriv (fun t => g t (y t)) t) :
    ∃ C δ', 0 ≤ C ∧ 0 < δ' ∧ ∀ (init : Constructor n p) (S : Solver ℝ n (histExtra p) Unit) (δ : ℝ) (E : ℝ → ℝ),
      WellConfigured S.method → (∀ h s, init (pureRhs f) t₀ (y t₀) h = some (.ok s) → Constructed S s) →
      StartTracks init S f y t₀ T δ E →
      ∀ (bo : BisectOpts ℝ) (argsort : List ℝ → List Nat), 0 ≤ bo.tol → (∀ l, IsArgsort l (argsort l)) →
      ∀ (h : ℝ) (s s' : St ℝ n (histExtra p) Unit) (ts : List ℝ) (es : List (EventSpec ℝ n)) (o : RunOut ℝ n (histExtra p)),
        0 < h → h ≤ min δ δ' → 0 ≤ E h → E h ≤ δ' → init (pureRhs f) t₀ (y t₀) h = some (.ok s) →
        (S.runEvents bo argsort ts (some es)).run s = some (.ok o, s') →
        ∀ (i : Nat) e tl, es[i]? = some e → e.func = g → o.tEvents[i]? = some tl →
          (d ≤ s'.t → (∀ x, e.direction = some x → 0 ≤ σ * x) → ∃ τ ∈ tl, c ≤ τ ∧ τ ≤ d) ∧
          ∀ τ ∈ tl, c ≤ τ → τ ≤ d → |τ - z| ≤ C * (bo.tol + E h + h / 2 ^ bo.maxiter) := by
  obtain ⟨K, ε, hK, hε, hfind⟩ := finds_tracked (k := histExtra p) (X := Unit) hf ha hb hy hg hc hcz hzd hdT hz hσ hslope
  -- the search for a record begins in the middle of `[c, z]`, which the history made by the constructor does not reach
  obtain ⟨K', ε', hK', hε', hfind'⟩ := finds_tracked (k := histExtra p) (X := Unit) (c := (c + z) / 2) hf ha hb hy hg (by linarith)
    (by linarith) hzd hdT hz hσ fun t ht => hslope t ⟨by linarith [ht.1], ht.2⟩
  refine ⟨K, min (min ε ε') ((z - c) / 2 / (p + 1)), hK, by
    have : 0 < (z - c) / 2 := by linarith
    positivity, ?_⟩
  intro init S δ E hM hcon htr bo argsort htol hA h s s' ts es o h0 h1 hE0 hE hs hrun i e tl hie he htl
  have k1 : h ≤ δ := h1.trans (min_le_left _ _)
  have k2 : h ≤ ε := h1.trans ((min_le_right _ _).trans ((min_le_left _ _).trans (min_le_left _ _)))
  have k3 : h ≤ ε' := h1.trans ((min_le_right _ _).trans ((min_le_left _ _).trans (min_le_right _ _)))
  have k4 : h ≤ (z - c) / 2 / (p + 1) := h1.trans ((min_le_right _ _).trans (min_le_right _ _))
  rw [le_div_iff₀ (by positivity)] at k4
  obtain ⟨e1, e2, e3, e4, e5⟩ := htr h s h0 k1 hs
  have hph : 0 ≤ (p : ℝ) * h := by positivity
  have hs0 : t₀ ≤ s.t := by rw [e2]; linarith
  obtain ⟨-, g2⟩ := hfind S bo argsort hM htol hA (E h) h s s' ts es o (hcon _ _ hs) e3 (by rw [e1]; exact h0) hs0 hE0
    (hE.trans ((min_le_left _ _).trans (min_le_left _ _))) h0.le k2 e5 e4 hrun i e tl hie he htl
  obtain ⟨g1, -⟩ := hfind' S bo argsort hM htol hA (E h) h s s' ts es o (hcon _ _ hs) e3 (by rw [e1]; exact h0) hs0 hE0
    (hE.trans ((min_le_left _ _).trans (min_le_right _ _))) h0.le k3 e5 e4 hrun i e tl hie he htl
  refine ⟨fun hreach hdir => ?_, g2⟩
  obtain ⟨τ, hτ, h2, h3⟩ := g1 (by rw [e2]; linarith) hreach hdir
  exact ⟨τ, hτ, by linarith, h3⟩

/-! ### Classes -/

section classes
variable {p q : ℕ} {init : Constructor n p}

theorem start_records (hq1 : 1 ≤ q) (hq : q ≤ 4) {cls : Rhs ℝ n → Solver ℝ n (histExtra p) Unit} (hM : ∀ rhs, IsFixed (cls rhs).method)
    (hc : ∀ rhs t y h s, init rhs t y h = some (.ok s) → Constructed (cls rhs) s) (hin : StartsNear init q)
    (hconv : StartConverges init cls q)
    (hS : ∀ (f : ℝ → Vec ℝ n → Vec ℝ n) (u v : St ℝ n (histExtra p) Unit), Takes (cls (pureRhs f)) u v →
      ∃ y', v = ⟨u.cache.push (u.t + u.h) y' (f (u.t + u.h) y'), u.h, ()⟩) :
    StartRecordsZeros init cls q ∧ StartFindsCrossings init cls q := by
  constructor
  · intro f y a b t₀ T g hf ha ht hb hy hg
    obtain ⟨C, δ, hC, hδ, htr⟩ := start_tracks hq1 hq hM hin hconv hS hf ha ht hb hy
    obtain ⟨K, δ', hK, hδ', hrec⟩ := tracks_records (p := p) hf.continuous ha hb hy hg
    refine ⟨K * (1 + C), min (min δ δ') (min 1 (δ' / (C + 1))), by positivity, ?_⟩
    intro bo argsort htol hA h s s' ts es o h0 h1 hs hrun i e tl hie he htl τ hτ hτT
    have hE := scale_small hq1 hC h0.le (h1.trans ((min_le_right _ _).trans (min_le_left _ _))) hδ'
      (h1.trans ((min_le_right _ _).trans (min_le_right _ _)))
    have := hrec init _ δ _ (Or.inl (hM _)) (fun h s hs => hc _ _ _ _ _ hs) htr bo argsort htol hA h s s' ts es o h0 (h1.trans (min_le_left _ _))
      (by positivity) hE.le hs hrun i e tl hie he htl τ hτ hτT
    refine this.trans (add_le_add le_rfl ?_)
    rw [mul_assoc]
    refine mul_le_mul_of_nonneg_left ?_ hK
    have a1 : 0 ≤ C * (h / 2 ^ bo.maxiter) := by positivity
    have a2 : 0 ≤ h ^ q := by positivity
    linarith
  · intro f y a b t₀ T g c z d σ hf ha hb hy hg htc hcz hzd hdT hz hσ hslope
    obtain ⟨C, δ, hC, hδ, htr⟩ := start_tracks hq1 hq hM hin hconv hS hf ha (by linarith) hb hy
    obtain ⟨K, δ', hK, hδ', hrec⟩ := tracks_finds (p := p) hf.continuous ha hb hy hg htc hcz hzd hdT hz hσ hslope
    refine ⟨K * (1 + C), min (min δ δ') (min 1 (δ' / (C + 1))), by positivity, ?_⟩
    intro bo argsort htol hA h s s' ts es o h0 h1 hs hrun i e tl hie he htl
    have hE := scale_small hq1 hC h0.le (h1.trans ((min_le_right _ _).trans (min_le_left _ _))) hδ'
      (h1.trans ((min_le_right _ _).trans (min_le_right _ _)))
    obtain ⟨g1, g2⟩ := hrec init _ δ _ (Or.inl (hM _)) (fun h s hs => hc _ _ _ _ _ hs) htr bo argsort htol hA h s s' ts es o h0
      (h1.trans (min_le_left _ _)) (by positivity) hE.le hs hrun i e tl hie he htl
    refine ⟨g1, fun τ hτ h2 h3 => (g2 τ hτ h2 h3).trans ?_⟩
    rw [mul_assoc]
    refine mul_le_mul_of_nonneg_left ?_ hK
    have a1 : 0 ≤ C * (h / 2 ^ bo.maxiter) := by positivity
    have a2 : 0 ≤ h ^ q := by positivity
    have a3 : 0 ≤ C * bo.tol := by positivity
    linarith

theorem start_records_within (hq1 : 1 ≤ q) (hq : q ≤ 4) {cls : ZeroOpts ℝ → Rhs ℝ n → Solver ℝ n (histExtra p) Unit}
    (hM : ∀ zo rhs, IsFixed (cls zo rhs).method)
    (hc : ∀ zo rhs t y h s, init rhs t y h = some (.ok s) → Constructed (cls zo rhs) s) (hin : StartsNear init q)
    (hconv : StartConvergesWithin init cls q)
    (hS : ∀ (f : ℝ → Vec ℝ n → Vec ℝ n) (L : ℝ), 0 ≤ L → (∀ t u v, (∀ d, |f t u d - f t v d| ≤ L * ‖(u - v : Fin n → ℝ)‖)) →
      ∃ δ, 0 < δ ∧ ∀ zo, RootOpts zo → ∀ (u v : St ℝ n (histExtra p) Unit), 0 < u.h → u.h ≤ δ → Takes (cls zo (pureRhs f)) u v →
      ∃ y', v = ⟨u.cache.push (u.t + u.h) y' (f (u.t + u.h) y'), u.h, ()⟩) :
    StartRecordsZerosWithin init cls q ∧ StartFindsCrossingsWithin init cls q := by
  have small : ∀ {C δ' h tol : ℝ}, 0 ≤ C → 0 < δ' → 0 < h → h ≤ min 1 (δ' / 2 / (C + 1)) → 0 ≤ tol / h → tol / h ≤ δ' / 2 / (C + 1) →
      0 ≤ C * (h ^ q + tol / h) ∧ C * (h ^ q + tol / h) ≤ δ' := by
    intro C δ' h tol hC hδ' h0 h1 ht0 ht1
    have hE := scale_small hq1 hC h0.le (h1.trans (min_le_left _ _)) (half_pos hδ') (h1.trans (min_le_right _ _))
    rw [le_div_iff₀ (by positivity)] at ht1
    refine ⟨by positivity, ?_⟩
    nlinarith
  constructor
  · intro f y a b t₀ T L g hf ha ht hb hy hL hg
    obtain ⟨C, δ, hC, hδ, htr⟩ := start_tracks_within hq1 hq hM hin hconv hS hf ha ht hb hy hL
    obtain ⟨K, δ', hK, hδ', hrec⟩ := tracks_records (p := p) hf.continuous ha hb hy hg
    refine ⟨K * (1 + C), min (min δ δ') (min 1 (δ' / 2 / (C + 1))), by positivity, ?_⟩
    intro zo hzo bo argsort htol hA h s s' ts es o h0 h1 h2 hs hrun i e tl hie he htl τ hτ hτT
    have ht0 : 0 ≤ zo.tol / h := div_nonneg hzo.2.1 h0.le
    obtain ⟨hE0, hE⟩ := small hC hδ' h0 (h1.trans (min_le_right _ _)) ht0 (h2.trans ((min_le_right _ _).trans (min_le_right _ _)))
    have := hrec init _ δ _ (Or.inl (hM _ _)) (fun h s hs => hc zo _ _ _ _ _ hs) (htr zo hzo) bo argsort htol hA h s s' ts es o h0
      (h1.trans (min_le_left _ _)) hE0 hE hs hrun i e tl hie he htl τ hτ hτT
    refine this.trans (add_le_add le_rfl ?_)
    rw [mul_assoc]
    refine mul_le_mul_of_nonneg_left ?_ hK
    have a1 : 0 ≤ C * (h / 2 ^ bo.maxiter) := by positivity
    have a2 : 0 ≤ h ^ q := by positivity
    linarith
  · intro f y a b t₀ T L g c z d σ hf ha hb hy hL hg htc hcz hzd hdT hz hσ hslope
    obtain ⟨C, δ, hC, hδ, htr⟩ := start_tracks_within hq1 hq hM hin hconv hS hf ha (by linarith) hb hy hL
    obtain ⟨K, δ', hK, hδ', hrec⟩ := tracks_finds (p := p) hf.continuous ha hb hy hg htc hcz hzd hdT hz hσ hslope
    refine ⟨K * (1 + C), min (min δ δ') (min 1 (δ' / 2 / (C + 1))), by positivity, ?_⟩
    intro zo hzo bo argsort htol hA h s s' ts es o h0 h1 h2 hs hrun i e tl hie he htl
    have ht0 : 0 ≤ zo.tol / h := div_nonneg hzo.2.1 h0.le
    obtain ⟨hE0, hE⟩ := small hC hδ' h0 (h1.trans (min_le_right _ _)) ht0 (h2.trans ((min_le_right _ _).trans (min_le_right _ _)))
    obtain ⟨g1, g2⟩ := hrec init _ δ _ (Or.inl (hM _ _)) (fun h s hs => hc zo _ _ _ _ _ hs) (htr zo hzo) bo argsort htol hA h s s' ts es o h0
      (h1.trans (min_le_left _ _)) hE0 hE hs hrun i e tl hie he htl
    refine ⟨g1, fun τ hτ h3 h4 => (g2 τ hτ h3 h4).trans ?_⟩
    rw [mul_assoc]
    refine mul_le_mul_of_nonneg_left ?_ hK
    have a1 : 0 ≤ C * (h / 2 ^ bo.maxiter) := by positivity
    have a2 : 0 ≤ h ^ q := by positivity
    have a3 : 0 ≤ C * bo.tol := by positivity
    linarith

end classes

end Nbkode
