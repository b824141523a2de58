import Verif.Props.MultistepConvergence
import Verif.Props.Startup

/-!
# Convergence of constructed multistep solvers: C71
-/

set_option autoImplicit false
set_option linter.unusedSectionVars false

namespace Nbkode
open Py Spec Solver

variable {n p s : ℕ}

/-! ### The history made by the constructor -/

theorem erk_path_facts {T : Tableau ℝ s} (hT : Explicit T) {b lim : Bound ℝ} {f : ℝ → Vec ℝ n → Vec ℝ n}
    {u v : St ℝ n 0 (ErkAux ℝ n s)} {l : List (St ℝ n 0 (ErkAux ℝ n s))} (hp : Path ⟨erk T, pureRhs f, b⟩ lim u l v)
    (hf : u.f = f u.t u.y) {h : ℝ} (hh : u.h = h) (h0 : 0 < h) :
    (∀ w ∈ l, w.f = f w.t w.y) ∧ StepsUpTo h (u :: l) := by
  induction hp with
  | nil u => exact ⟨by simp, List.isChain_singleton _⟩
  | @cons u u1 v l _ htk _ ih =>
    obtain ⟨K, f', hK, hf', rfl⟩ := (erk_takes_iff T hT _ b u u1 (congrArg Except.ok hf.symm)).mp htk
    set u1 : St ℝ n 0 (ErkAux ℝ n s) := ⟨u.cache.push (u.t + u.h) (rkNew T u.h u.y K) f', u.h, K⟩ with hu1
    have e1 : u1.t = u.t + u.h := push_t ..
    have e2 : u1.y = rkNew T u.h u.y K := push_y ..
    have e3 : u1.f = f u1.t u1.y := by
      rw [e1, e2]
      exact (push_f ..).trans (Except.ok.inj hf').symm
    obtain ⟨g1, g2⟩ := ih e3 hh
    refine ⟨fun w hw => ?_, List.isChain_cons_cons.mpr ⟨?_, g2⟩⟩
    · rcases List.mem_cons.mp hw with rfl | hw
      · exact e3
      · exact g1 w hw
    · rw [e1, add_sub_cancel_left, hh]
      exact ⟨h0, le_rfl⟩

/-- The history made by a fixed-step Runge-Kutta starter of order `r` follows the solution within `C * h^(r+1)`. -/
theorem erk_start_follows (hp : p ≠ 0) {T : Tableau ℝ s} (hT : Explicit T) (hR : RowSums T) {r : ℕ} (hr : 1 ≤ r)
    (hB : OrderConditions T.A T.B r) {f : ℝ → Vec ℝ n → Vec ℝ n} {y : ℝ → Vec ℝ n} {a b t₀ T₁ : ℝ}
    (hf : ContDiff ℝ r (joint f)) (ha : a < t₀) (ht : t₀ < T₁) (hb : T₁ < b) (hy : ∀ t ∈ Set.Ioo a b, SolvesAt f y t) :
    ∃ C δ, 0 ≤ C ∧ 0 < δ ∧ ∀ (h : ℝ) (g : Buffer ℝ n (histExtra p)) (bo : BisectOpts ℝ) (argsort : List ℝ → List Nat)
      (gs : Buffer ℝ n 0) (K : ErkAux ℝ n s) (st : St ℝ n (histExtra p) Unit), 0 < h → h ≤ δ →
      multistepInit g bo argsort (erkStarter T gs K) (pureRhs f) t₀ (y t₀) (some h) = some (.ok st) →
      st.h = h ∧ st.t = t₀ + p * h ∧ Follows f y (C * h ^ (r + 1)) st := by
  obtain ⟨C, δ, hC, hδ, hconv⟩ := converges_early (erk_steps (n := n) hT .inf) hT hR hr hB hf ha hb hy
  have hp0 : (0 : ℝ) < p := by exact_mod_cast Nat.pos_of_ne_zero hp
  refine ⟨C * p, min δ ((T₁ - t₀) / p), by positivity, lt_min hδ (div_pos (by linarith) hp0),
    fun h g bo argsort gs K st h0 h1 hs => ?_⟩
  have hk : histExtra p + 1 = p := by unfold histExtra; omega
  have hmake : ∀ s1, erkInit gs K (pureRhs f) t₀ (y t₀) (some h) = .ok s1 →
      s1.t = t₀ ∧ s1.y = y t₀ ∧ s1.h = h ∧ s1.f = f t₀ (y t₀) := by
    intro s1 hm
    obtain ⟨f0, hf0, hc, hh, -⟩ := solverInit_ok hm
    refine ⟨?_, ?_, hh, ?_⟩
    · rw [St.t, hc]; exact init_ts _ _ _ _ _
    · rw [St.y, hc]; exact init_ys _ _ _ _ _
    · rw [St.f, hc, ← Except.ok.inj hf0]; exact init_fs _ _ _ _ _
  have hts := C34_erk_starter hp T gs K g bo argsort (pureRhs f) t₀ (y t₀) h st hs
  obtain ⟨f0, s1, s2, l, hf0, hm, hl, hlen, rfl⟩ := multistepInit_fixed hp hs
  obtain ⟨m1, m2, m3, m4⟩ := hmake s1 hm
  have hslot := slots_of_pushes hp g t₀ (y t₀) f0 (l.map point) (by simp [hlen])
  simp only at hslot
  set st : St ℝ n (histExtra p) Unit :=
    ⟨(l.map point).foldl (fun b p => b.push p.1 p.2.1 p.2.2) (Buffer.init g t₀ (y t₀) f0), h, ()⟩ with hst
  have hstt : st.t = t₀ + p * h := by
    have := hts (Buffer.iLast _)
    rw [show (Buffer.iLast (histExtra p)).val = p from hk] at this
    exact this
  obtain ⟨fa, fb⟩ := erk_path_facts hT hl (by rw [m4, m1, m2]) m3 h0
  have hon : On f y s1 := ⟨by rw [m2, m1], by rw [m4, m1, m2]⟩
  have hE := hconv h s1 s2 l .inf (h1.trans (min_le_left _ _)) m1 hon hl fb
  have hph : (p : ℝ) * h ≤ T₁ - t₀ := by
    have := h1.trans (min_le_right _ _)
    rw [le_div_iff₀ hp0] at this
    linarith
  refine ⟨rfl, hstt, fun i hi => ?_, fun i hi d => ?_, fun i hi => ?_⟩
  · have h2 := hts ⟨histExtra p + 1 - i, by omega⟩
    have e : ((histExtra p + 1 - i : ℕ) : ℝ) = p - i := by rw [hk, Nat.cast_sub hi]
    rw [e] at h2
    rw [hstt]
    show st.cache.ts _ = _ - i * h
    rw [h2]; ring
  all_goals
    have h2 := hts ⟨histExtra p + 1 - i, by omega⟩
    have e : ((histExtra p + 1 - i : ℕ) : ℝ) = p - i := by rw [hk, Nat.cast_sub hi]
    rw [e] at h2
    have e' : st.t - i * h = t₀ + ((p : ℝ) - i) * h := by rw [hstt]; ring
    have h3 := hslot ⟨histExtra p + 1 - i, by omega⟩
  · show |ago st.cache.ys i d - y (st.t - i * h) d| ≤ _
    rw [e']
    by_cases hip : i = p
    · subst hip
      have e3 : histExtra i + 1 - i = 0 := by omega
      simp only [e3, List.getElem?_cons_zero, Option.some.injEq, Prod.mk.injEq] at h3
      have e4 : ago st.cache.ys i = y t₀ := by
        unfold ago
        simp only [e3]
        exact h3.2.1.symm
      rw [e4, sub_self, zero_mul, add_zero, sub_self, abs_zero]
      positivity
    · obtain ⟨j, hj⟩ : ∃ j, histExtra p + 1 - i = j + 1 := ⟨p - i - 1, by omega⟩
      simp only [hj, List.getElem?_cons_succ, List.getElem?_map] at h3
      have hjl : j < l.length := by omega
      rw [List.getElem?_eq_getElem hjl] at h3
      simp only [Option.map_some, Option.some.injEq, point, Prod.mk.injEq] at h3
      have e4 : ago st.cache.ys i = l[j].y := by
        unfold ago
        simp only [hj]
        exact h3.2.1.symm
      have e5 : l[j].t = t₀ + ((p : ℝ) - i) * h := by
        rw [h3.1, ← h2]
        simp only [hj]; rfl
      have hir : (0 : ℝ) ≤ i * h := by positivity
      obtain ⟨-, -, h5⟩ := hE l[j] (List.getElem_mem _) (by rw [e5]; nlinarith)
      rw [e4, ← e5]
      refine (h5 d).trans ?_
      rw [e5, add_sub_cancel_left, pow_succ]
      have h6 : ((p : ℝ) - i) * h ≤ p * h := by nlinarith
      calc C * (((p : ℝ) - i) * h) * h ^ r ≤ C * (p * h) * h ^ r :=
            mul_le_mul_of_nonneg_right (mul_le_mul_of_nonneg_left h6 hC) (by positivity)
        _ = _ := by ring
  · show ago st.cache.fs i = f (st.t - i * h) (ago st.cache.ys i)
    rw [e']
    by_cases hip : i = p
    · subst hip
      have e3 : histExtra i + 1 - i = 0 := by omega
      simp only [e3, List.getElem?_cons_zero, Option.some.injEq, Prod.mk.injEq] at h3
      have e4 : ago st.cache.ys i = y t₀ := by
        unfold ago
        simp only [e3]
        exact h3.2.1.symm
      have e5 : ago st.cache.fs i = f0 := by
        unfold ago
        simp only [e3]
        exact h3.2.2.symm
      rw [e4, e5, sub_self, zero_mul, add_zero]
      exact (Except.ok.inj hf0).symm
    · obtain ⟨j, hj⟩ : ∃ j, histExtra p + 1 - i = j + 1 := ⟨p - i - 1, by omega⟩
      simp only [hj, List.getElem?_cons_succ, List.getElem?_map] at h3
      have hjl : j < l.length := by omega
      rw [List.getElem?_eq_getElem hjl] at h3
      simp only [Option.map_some, Option.some.injEq, point, Prod.mk.injEq] at h3
      have e4 : ago st.cache.ys i = l[j].y := by
        unfold ago
        simp only [hj]
        exact h3.2.1.symm
      have e5 : l[j].t = t₀ + ((p : ℝ) - i) * h := by
        rw [h3.1, ← h2]
        simp only [hj]; rfl
      have e6 : ago st.cache.fs i = l[j].f := by
        unfold ago
        simp only [hj]
        exact h3.2.2.symm
      rw [e4, e6, ← e5]
      exact fa _ (List.getElem_mem _)

/-- The history made for a one-step method is the initial point. -/
theorem single_start_follows {f : ℝ → Vec ℝ n → Vec ℝ n} {y : ℝ → Vec ℝ n} {t₀ h : ℝ} {g : Buffer ℝ n (histExtra 0)}
    {bo : BisectOpts ℝ} {argsort : List ℝ → List Nat} {starter : Starter ℝ n} {st : St ℝ n (histExtra 0) Unit}
    (hs : multistepInit g bo argsort starter (pureRhs f) t₀ (y t₀) (some h) = some (.ok st)) :
    st.h = h ∧ st.t = t₀ ∧ Follows (p := 0) f y 0 st := by
  unfold multistepInit at hs
  cases h0 : solverInit g () (pureRhs f) t₀ (y t₀) (some h) with
  | error e => rw [h0] at hs; simp at hs
  | ok s0 =>
    rw [h0] at hs
    simp only [if_true, Option.some.injEq, Except.ok.injEq] at hs
    obtain ⟨f0, hf0, hc, hh, -⟩ := solverInit_ok h0
    subst hs
    have e1 : s0.t = t₀ := by rw [St.t, hc]; exact init_ts _ _ _ _ _
    have e2 : s0.y = y t₀ := by rw [St.y, hc]; exact init_ys _ _ _ _ _
    have e3 : s0.f = f t₀ (y t₀) := by rw [St.f, hc, ← Except.ok.inj hf0]; exact init_fs _ _ _ _ _
    have w1 : ∀ i, (s0.cache.pushN s0.t s0.y s0.f (histExtra 0 + 1)).ts i = t₀ := by
      intro i
      rw [hc, show (Buffer.init g t₀ (y t₀) f0).pushN s0.t s0.y s0.f (histExtra 0 + 1) =
        (Buffer.init g t₀ (y t₀) f0).push s0.t s0.y s0.f from rfl]
      unfold Buffer.push shiftIn
      simp only
      split
      · exact init_ts _ _ _ _ _
      · exact e1
    have w2 : ∀ i, (s0.cache.pushN s0.t s0.y s0.f (histExtra 0 + 1)).ys i = y t₀ := by
      intro i
      rw [hc, show (Buffer.init g t₀ (y t₀) f0).pushN s0.t s0.y s0.f (histExtra 0 + 1) =
        (Buffer.init g t₀ (y t₀) f0).push s0.t s0.y s0.f from rfl]
      unfold Buffer.push shiftIn
      simp only
      split
      · exact init_ys _ _ _ _ _
      · exact e2
    have w3 : ∀ i, (s0.cache.pushN s0.t s0.y s0.f (histExtra 0 + 1)).fs i = f t₀ (y t₀) := by
      intro i
      rw [hc, show (Buffer.init g t₀ (y t₀) f0).pushN s0.t s0.y s0.f (histExtra 0 + 1) =
        (Buffer.init g t₀ (y t₀) f0).push s0.t s0.y s0.f from rfl]
      unfold Buffer.push shiftIn
      simp only
      split
      · rw [init_fs]; exact (Except.ok.inj hf0).symm
      · exact e3
    set st : St ℝ n (histExtra 0) Unit := { s0 with cache := s0.cache.pushN s0.t s0.y s0.f (histExtra 0 + 1) } with hst
    have et : st.t = t₀ := w1 _
    refine ⟨hh, et, fun i hi => ?_, fun i hi d => ?_, fun i hi => ?_⟩
    all_goals obtain rfl : i = 0 := by omega
    · rw [et, Nat.cast_zero, zero_mul, sub_zero]; exact w1 _
    · rw [et, Nat.cast_zero, zero_mul, sub_zero, show ago st.cache.ys 0 = y t₀ from w2 _]; simp
    · rw [et, Nat.cast_zero, zero_mul, sub_zero, show ago st.cache.ys 0 = y t₀ from w2 _]; exact w3 _

/-! ### Convergence -/

theorem pow_bound {C D h : ℝ} {q r : ℕ} (hC : 0 ≤ C) (hD : 0 ≤ D) (h0 : 0 < h) (h1 : h ≤ 1) (hqr : q ≤ r + 1) :
    C * (D * h ^ (r + 1) + h ^ q) ≤ C * (D + 1) * h ^ q := by
  have h2 : h ^ (r + 1) ≤ h ^ q := pow_le_pow_of_le_one h0.le h1 hqr
  have h3 : D * h ^ (r + 1) ≤ D * h ^ q := mul_le_mul_of_nonneg_left h2 hD
  calc _ ≤ C * (D * h ^ q + h ^ q) := mul_le_mul_of_nonneg_left (by linarith) hC
    _ = _ := by ring

/-- **C71**, explicit methods in general: the solver constructed with a fixed-step Runge-Kutta starter of order `r ≥ q - 1`
converges with the order `q` of the method. -/
theorem C71_explicit (hp : p ≠ 0) {cls : Rhs ℝ n → Solver ℝ n (histExtra p) Unit} {q r : ℕ} (hr : 1 ≤ r) (hrq : r ≤ q)
    (hqr : q ≤ r + 1) (h : MultistepConverges cls q) {T : Tableau ℝ s} (hT : Explicit T) (hR : RowSums T)
    (hB : OrderConditions T.A T.B r) (g : Buffer ℝ n (histExtra p)) (bo : BisectOpts ℝ) (argsort : List ℝ → List Nat)
    (gs : Buffer ℝ n 0) (K : ErkAux ℝ n s) :
    StartConverges (fun rhs t y h => multistepInit g bo argsort (erkStarter T gs K) rhs t y (some h)) cls q := by
  intro f y a b t₀ T₁ hf ha ht hb hy
  obtain ⟨D, δ₁, hD, hδ₁, hstart⟩ := erk_start_follows hp hT hR hr hB (hf.of_le (by exact_mod_cast hrq)) ha ht hb hy
  obtain ⟨C, δ, hδ, hconv⟩ := h f y a b t₀ T₁ hf ha hb hy
  refine ⟨|C| * (D + 1), min (min δ δ₁) (min 1 (δ / (D + 1))), by positivity, fun h st s' l lim h0 h1 hs hl u hu hut d => ?_⟩
  have k1 : h ≤ δ := h1.trans ((min_le_left _ _).trans (min_le_left _ _))
  have k2 : h ≤ δ₁ := h1.trans ((min_le_left _ _).trans (min_le_right _ _))
  have k3 : h ≤ 1 := h1.trans ((min_le_right _ _).trans (min_le_left _ _))
  have k4 : h ≤ δ / (D + 1) := h1.trans ((min_le_right _ _).trans (min_le_right _ _))
  obtain ⟨e1, e2, e3⟩ := hstart h g bo argsort gs K st h0 k2 hs
  have hE : D * h ^ (r + 1) ≤ δ := by
    have h2 : h ^ (r + 1) ≤ h := by
      calc h ^ (r + 1) ≤ h ^ 1 := pow_le_pow_of_le_one h0.le k3 (by omega)
        _ = h := pow_one _
    rw [le_div_iff₀ (by positivity)] at k4
    nlinarith
  have h3 := hconv _ st s' l lim (by rw [e1]; exact h0) (by rw [e1]; exact k1) hE (by rw [e1, e2]; linarith) e3 hl u hu hut d
  rw [e1] at h3
  have h4 : 0 ≤ D * h ^ (r + 1) + h ^ q := by positivity
  exact h3.trans ((mul_le_mul_of_nonneg_right (le_abs_self C) h4).trans (pow_bound (abs_nonneg _) hD h0 k3 hqr))

/-- **C71**, implicit methods in general. -/
theorem C71_implicit (hp : p ≠ 0) {cls : ZeroOpts ℝ → Rhs ℝ n → Solver ℝ n (histExtra p) Unit} {q r : ℕ} (hr : 1 ≤ r) (hrq : r ≤ q)
    (hqr : q ≤ r + 1) (h : ConvergesWithin cls q) {T : Tableau ℝ s} (hT : Explicit T)
    (hR : RowSums T) (hB : OrderConditions T.A T.B r) (g : Buffer ℝ n (histExtra p)) (bo : BisectOpts ℝ)
    (argsort : List ℝ → List Nat) (gs : Buffer ℝ n 0) (K : ErkAux ℝ n s) :
    StartConvergesWithin (fun rhs t y h => multistepInit g bo argsort (erkStarter T gs K) rhs t y (some h)) cls q := by
  intro f y a b t₀ T₁ L hf ha ht hb hy hL
  obtain ⟨D, δ₁, hD, hδ₁, hstart⟩ := erk_start_follows hp hT hR hr hB (hf.of_le (by exact_mod_cast hrq)) ha ht hb hy
  obtain ⟨C, δ, hδ, hconv⟩ := h f y a b t₀ T₁ L hf ha hb hy hL
  refine ⟨|C| * (D + 1), min (min δ δ₁) 1, by positivity, fun zo hzo h st s' l lim h0 h1 hs hl u hu hut d => ?_⟩
  have htol : 0 ≤ zo.tol := hzo.2.1
  set tol := zo.tol
  have k1 : h ≤ δ := h1.trans ((min_le_left _ _).trans (min_le_left _ _))
  have k2 : h ≤ δ₁ := h1.trans ((min_le_left _ _).trans (min_le_right _ _))
  have k3 : h ≤ 1 := h1.trans (min_le_right _ _)
  obtain ⟨e1, e2, e3⟩ := hstart h g bo argsort gs K st h0 k2 hs
  have h3 := hconv zo hzo _ st s' l lim (by rw [e1]; exact h0) (by rw [e1]; exact k1) (by rw [e1, e2]; linarith) e3 hl u hu hut d
  rw [e1] at h3
  have h4 : 0 ≤ D * h ^ (r + 1) + h ^ q := by positivity
  have h5 : 0 ≤ tol / h := by positivity
  have h6 := pow_bound (abs_nonneg C) hD h0 k3 hqr
  refine h3.trans ((mul_le_mul_of_nonneg_right (le_abs_self C) (by linarith)).trans ?_)
  have h7 : 0 ≤ |C| * D * (tol / h) := by positivity
  calc |C| * (D * h ^ (r + 1) + h ^ q + tol / h) = |C| * (D * h ^ (r + 1) + h ^ q) + |C| * (tol / h) := by ring
    _ ≤ |C| * (D + 1) * h ^ q + |C| * (tol / h) := by linarith
    _ ≤ |C| * (D + 1) * (h ^ q + tol / h) := by linarith [show |C| * (D + 1) * (h ^ q + tol / h) =
        |C| * (D + 1) * h ^ q + |C| * (tol / h) + |C| * D * (tol / h) by ring]

/-- **C71**, one-step methods: no starter is involved. -/
theorem C71_single_explicit {cls : Rhs ℝ n → Solver ℝ n (histExtra 0) Unit} {q : ℕ} (h : MultistepConverges (p := 0) cls q)
    (g : Buffer ℝ n (histExtra 0)) (bo : BisectOpts ℝ) (argsort : List ℝ → List Nat) (starter : Starter ℝ n) :
    StartConverges (p := 0) (fun rhs t y h => multistepInit g bo argsort starter rhs t y (some h)) cls q := by
  intro f y a b t₀ T₁ hf ha ht hb hy
  obtain ⟨C, δ, hδ, hconv⟩ := h f y a b t₀ T₁ hf ha hb hy
  refine ⟨C, δ, hδ, fun h st s' l lim h0 h1 hs hl u hu hut d => ?_⟩
  obtain ⟨e1, e2, e3⟩ := single_start_follows hs
  have h3 := hconv 0 st s' l lim (by rw [e1]; exact h0) (by rw [e1]; exact h1) hδ.le (by rw [e1, e2]; simp) e3 hl u hu hut d
  rwa [e1, zero_add] at h3

/-- The same for implicit ones. -/
theorem C71_single_implicit {cls : ZeroOpts ℝ → Rhs ℝ n → Solver ℝ n (histExtra 0) Unit} {q : ℕ}
    (h : ConvergesWithin (p := 0) cls q) (g : Buffer ℝ n (histExtra 0)) (bo : BisectOpts ℝ) (argsort : List ℝ → List Nat)
    (starter : Starter ℝ n) :
    StartConvergesWithin (p := 0) (fun rhs t y h => multistepInit g bo argsort starter rhs t y (some h)) cls q := by
  intro f y a b t₀ T₁ L hf ha ht hb hy hL
  obtain ⟨C, δ, hδ, hconv⟩ := h f y a b t₀ T₁ L hf ha hb hy hL
  refine ⟨C, δ, hδ, fun zo hzo h st s' l lim h0 h1 hs hl u hu hut d => ?_⟩
  obtain ⟨e1, e2, e3⟩ := single_start_follows hs
  have h3 := hconv zo hzo 0 st s' l lim (by rw [e1]; exact h0) (by rw [e1]; exact h1) (by rw [e1, e2]; simp) e3 hl u hu hut d
  rwa [e1, zero_add] at h3

theorem OrderConditions.mono {m : ℕ} {A : Fin m → Fin m → ℝ} {B : Fin m → ℝ} {q r : ℕ} (h : OrderConditions A B r) (hq : q ≤ r) :
    OrderConditions A B q := fun τ hτ => h τ (hτ.trans hq)

theorem ExactOnPolynomials.mono {c : MultistepCoef ℝ p} {q r : ℕ} (h : ExactOnPolynomials c r) (hq : q ≤ r) :
    ExactOnPolynomials c q := fun P hP => h P (hP.trans hq)

section named
variable (bo : BisectOpts ℝ) (argsort : List ℝ → List Nat) (lib : Lib ℝ) (hlib : ∀ x, lib.sqrt x = Real.sqrt x)
  (b : Bound ℝ) (gs : Buffer ℝ n 0) (K : ErkAux ℝ n 3)

/-- **C71**: `AdamsBashforth1` (`ForwardEuler`), whatever the starter. -/
theorem C71_AB1 (g : Buffer ℝ n (histExtra 0)) (starter : Starter ℝ n) :
    StartConverges (p := 0) (fun rhs t y h => multistepInit g bo argsort starter rhs t y (some h))
      (fun rhs => ⟨explicitMultistep AdamsBashforth1, rhs, b⟩) 1 :=
  C71_single_explicit (C70_AB1 b) g bo argsort starter

/-- **C71**, `AdamsBashforth2` to `5` started with `RungeKutta4`: order 1. Missing: their own orders (`C70_AB_refuted`). -/
theorem C71_AB_partial (g2 : Buffer ℝ n (histExtra 1)) (g3 : Buffer ℝ n (histExtra 2)) (g4 : Buffer ℝ n (histExtra 3))
    (g5 : Buffer ℝ n (histExtra 4)) :
    StartConverges (fun rhs t y h => multistepInit g2 bo argsort (erkStarter RungeKutta4 gs K) rhs t y (some h))
      (fun rhs => ⟨explicitMultistep AdamsBashforth2, rhs, b⟩) 1 ∧
    StartConverges (fun rhs t y h => multistepInit g3 bo argsort (erkStarter RungeKutta4 gs K) rhs t y (some h))
      (fun rhs => ⟨explicitMultistep AdamsBashforth3, rhs, b⟩) 1 ∧
    StartConverges (fun rhs t y h => multistepInit g4 bo argsort (erkStarter RungeKutta4 gs K) rhs t y (some h))
      (fun rhs => ⟨explicitMultistep AdamsBashforth4, rhs, b⟩) 1 ∧
    StartConverges (fun rhs t y h => multistepInit g5 bo argsort (erkStarter RungeKutta4 gs K) rhs t y (some h))
      (fun rhs => ⟨explicitMultistep AdamsBashforth5, rhs, b⟩) 1 := by
  obtain ⟨c2, c3, c4, c5⟩ := C70_AB_partial (n := n) b
  have hB : OrderConditions RungeKutta4.A RungeKutta4.B 1 := OrderConditions.mono RungeKutta4_tree (by norm_num)
  exact ⟨C71_explicit (by norm_num) le_rfl le_rfl (by norm_num) c2 RungeKutta4_conditions.explicit RungeKutta4_rows hB _ _ _ _ _,
    C71_explicit (by norm_num) le_rfl le_rfl (by norm_num) c3 RungeKutta4_conditions.explicit RungeKutta4_rows hB _ _ _ _ _,
    C71_explicit (by norm_num) le_rfl le_rfl (by norm_num) c4 RungeKutta4_conditions.explicit RungeKutta4_rows hB _ _ _ _ _,
    C71_explicit (by norm_num) le_rfl le_rfl (by norm_num) c5 RungeKutta4_conditions.explicit RungeKutta4_rows hB _ _ _ _ _⟩

include hlib

/-- **C71**: `AdamsMoulton1` (`BackwardEuler`), `AdamsMoulton2` and `BDF1`, whatever the starter. -/
theorem C71_single (g : Buffer ℝ n (histExtra 0)) (starter : Starter ℝ n) :
    StartConvergesWithin (p := 0) (fun rhs t y h => multistepInit g bo argsort starter rhs t y (some h))
      (fun zo rhs => ⟨implicitMultistep lib zo AdamsMoulton1, rhs, b⟩) 1 ∧
    StartConvergesWithin (p := 0) (fun rhs t y h => multistepInit g bo argsort starter rhs t y (some h))
      (fun zo rhs => ⟨implicitMultistep lib zo AdamsMoulton2, rhs, b⟩) 2 ∧
    StartConvergesWithin (p := 0) (fun rhs t y h => multistepInit g bo argsort starter rhs t y (some h))
      (fun zo rhs => ⟨implicitMultistep lib zo BDF1, rhs, b⟩) 1 :=
  ⟨C71_single_implicit (C70_AM lib hlib b).1 g bo argsort starter,
    C71_single_implicit (C70_AM lib hlib b).2.1 g bo argsort starter,
    C71_single_implicit (C70_BDF lib hlib b).1 g bo argsort starter⟩

/-- **C71**: `AdamsMoulton3`, `BDF2`, `BDF3`, `BDF4`, `BDF5` started with `RungeKutta4` converge with orders 3, 2, 3, 4, 5. -/
theorem C71_started (g2 : Buffer ℝ n (histExtra 1)) (g3 : Buffer ℝ n (histExtra 2)) (g4 : Buffer ℝ n (histExtra 3))
    (g5 : Buffer ℝ n (histExtra 4)) :
    StartConvergesWithin (fun rhs t y h => multistepInit g2 bo argsort (erkStarter RungeKutta4 gs K) rhs t y (some h))
      (fun zo rhs => ⟨implicitMultistep lib zo AdamsMoulton3, rhs, b⟩) 3 ∧
    StartConvergesWithin (fun rhs t y h => multistepInit g2 bo argsort (erkStarter RungeKutta4 gs K) rhs t y (some h))
      (fun zo rhs => ⟨implicitMultistep lib zo BDF2, rhs, b⟩) 2 ∧
    StartConvergesWithin (fun rhs t y h => multistepInit g3 bo argsort (erkStarter RungeKutta4 gs K) rhs t y (some h))
      (fun zo rhs => ⟨implicitMultistep lib zo BDF3, rhs, b⟩) 3 ∧
    StartConvergesWithin (fun rhs t y h => multistepInit g4 bo argsort (erkStarter RungeKutta4 gs K) rhs t y (some h))
      (fun zo rhs => ⟨implicitMultistep lib zo BDF4, rhs, b⟩) 4 ∧
    StartConvergesWithin (fun rhs t y h => multistepInit g5 bo argsort (erkStarter RungeKutta4 gs K) rhs t y (some h))
      (fun zo rhs => ⟨implicitMultistep lib zo BDF5, rhs, b⟩) 5 := by
  obtain ⟨-, -, a3⟩ := C70_AM (n := n) lib hlib b
  obtain ⟨-, c2, c3, c4, c5, -⟩ := C70_BDF (n := n) lib hlib b
  have hB : ∀ q ≤ 4, OrderConditions RungeKutta4.A RungeKutta4.B q := fun q hq => OrderConditions.mono RungeKutta4_tree hq
  have ex := RungeKutta4_conditions (α := ℝ) |>.explicit
  exact ⟨C71_implicit (by norm_num) (r := 3) (by norm_num) le_rfl (by norm_num) a3 ex RungeKutta4_rows (hB 3 (by norm_num)) _ _ _ _ _,
    C71_implicit (by norm_num) (r := 2) (by norm_num) le_rfl (by norm_num) c2 ex RungeKutta4_rows (hB 2 (by norm_num)) _ _ _ _ _,
    C71_implicit (by norm_num) (r := 3) (by norm_num) le_rfl (by norm_num) c3 ex RungeKutta4_rows (hB 3 (by norm_num)) _ _ _ _ _,
    C71_implicit (by norm_num) (r := 4) (by norm_num) le_rfl (by norm_num) c4 ex RungeKutta4_rows (hB 4 le_rfl) _ _ _ _ _,
    C71_implicit (by norm_num) (r := 4) (by norm_num) (by norm_num) le_rfl c5 ex RungeKutta4_rows (hB 4 le_rfl) _ _ _ _ _⟩

/-- **C71**, `AdamsMoulton4`, `5` and `BDF6` started with `RungeKutta4`: orders 1, 1 and 5. Missing: the orders 4 and 5 of the first
two (`C70_AM_refuted`), the order 6 of `BDF6`, for which the starter is not accurate enough. -/
theorem C71_started_partial (g4 : Buffer ℝ n (histExtra 2)) (g5 : Buffer ℝ n (histExtra 3)) (g6 : Buffer ℝ n (histExtra 5)) :
    StartConvergesWithin (fun rhs t y h => multistepInit g4 bo argsort (erkStarter RungeKutta4 gs K) rhs t y (some h))
      (fun zo rhs => ⟨implicitMultistep lib zo AdamsMoulton4, rhs, b⟩) 1 ∧
    StartConvergesWithin (fun rhs t y h => multistepInit g5 bo argsort (erkStarter RungeKutta4 gs K) rhs t y (some h))
      (fun zo rhs => ⟨implicitMultistep lib zo AdamsMoulton5, rhs, b⟩) 1 ∧
    StartConvergesWithin (fun rhs t y h => multistepInit g6 bo argsort (erkStarter RungeKutta4 gs K) rhs t y (some h))
      (fun zo rhs => ⟨implicitMultistep lib zo BDF6, rhs, b⟩) 5 := by
  obtain ⟨a4, a5⟩ := C70_AM_partial (n := n) lib hlib b
  have c6 := C70_implicit (n := n) _ stable_BDF6 (ExactOnPolynomials.mono C31_BDF6 (show 5 ≤ 6 by norm_num)) lib hlib b
  have hB : ∀ q ≤ 4, OrderConditions RungeKutta4.A RungeKutta4.B q := fun q hq => OrderConditions.mono RungeKutta4_tree hq
  have ex := RungeKutta4_conditions (α := ℝ) |>.explicit
  exact ⟨C71_implicit (by norm_num) (r := 1) le_rfl le_rfl (by norm_num) a4 ex RungeKutta4_rows (hB 1 (by norm_num)) _ _ _ _ _,
    C71_implicit (by norm_num) (r := 1) le_rfl le_rfl (by norm_num) a5 ex RungeKutta4_rows (hB 1 (by norm_num)) _ _ _ _ _,
    C71_implicit (by norm_num) (r := 4) (by norm_num) (by norm_num) le_rfl c6 ex RungeKutta4_rows (hB 4 le_rfl) _ _ _ _ _⟩

end named

/-- Non-vacuity for C71: `AdamsBashforth3` on `y' = y²`, `y(0) = 1`, `y = 1 / (1 - t)`, up to `T = 1/2`: the solver can be constructed
with any `h` and takes any number of steps. -/
example (g : Buffer ℝ 1 (histExtra 2)) (g2 : Buffer ℝ 1 (histExtra 1)) (g4 : Buffer ℝ 1 (histExtra 3))
    (g5 : Buffer ℝ 1 (histExtra 4)) (bo : BisectOpts ℝ) (argsort : List ℝ → List Nat) (gs : Buffer ℝ 1 0) (K : ErkAux ℝ 1 3) :
    ∃ C δ, 0 < δ ∧ ∀ h : ℝ, 0 < h → h ≤ δ → ∀ m : ℕ, ∃ st l v,
      multistepInit g bo argsort (erkStarter RungeKutta4 gs K) (pureRhs fun _ v i => v i ^ 2) 0 (fun _ => 1) (some h) = some (.ok st) ∧
      l.length = m ∧ Path ⟨explicitMultistep AdamsBashforth3, pureRhs fun _ v i => v i ^ 2, .inf⟩ .inf st l v ∧
      ∀ u ∈ l, u.t ≤ 1 / 2 → |u.y 0 - 1 / (1 - u.t)| ≤ C * h := by
  obtain ⟨C, δ, hδ, hC⟩ := (C71_AB_partial (n := 1) bo argsort .inf gs K g2 g g4 g5).2.1 (fun _ v i => v i ^ 2)
    (fun t _ => 1 / (1 - t)) (-1) 1 0 (1 / 2) (square_smooth 1) (by norm_num) (by norm_num) (by norm_num) square_solves
  refine ⟨C, δ, hδ, fun h h0 h1 m => ?_⟩
  obtain ⟨st, hst⟩ := C34_erk_starter_succeeds (by norm_num) RungeKutta4 gs K g bo argsort (fun _ v i => v i ^ 2) 0 (fun _ => 1) h
  obtain ⟨l, v, hl, hp⟩ := paths_exist (p := 2) (S := ⟨explicitMultistep AdamsBashforth3, pureRhs fun _ v i => v i ^ 2, .inf⟩)
    (fun u => ⟨_, by unfold Takes; exact explicitMultistepBody_run _ _ _⟩) m st
  refine ⟨st, l, v, hst, hl, hp, fun u hu hut => ?_⟩
  have key := hC h st v l .inf h0 h1 (by
    have e : (fun (t : ℝ) (_ : Fin 1) => 1 / (1 - t)) 0 = fun _ => 1 := by funext; simp
    simp only [e]; exact hst) hp u hu hut 0
  rwa [pow_one] at key

/-- Non-vacuity for C71: `BDF3` on `y' = -y`, `y(0) = 1`, `y = exp(-t)`, up to `T = 1`, with the tolerance of the code. -/
example (g : Buffer ℝ 1 (histExtra 2)) (g2 : Buffer ℝ 1 (histExtra 1)) (g4 : Buffer ℝ 1 (histExtra 3)) (g5 : Buffer ℝ 1 (histExtra 4))
    (bo : BisectOpts ℝ) (argsort : List ℝ → List Nat) (gs : Buffer ℝ 1 0) (K : ErkAux ℝ 1 3) :
    ∃ C δ, 0 < δ ∧ ∀ h : ℝ, 0 < h → h ≤ δ → ∀ m : ℕ, ∃ st l v,
      multistepInit g bo argsort (erkStarter RungeKutta4 gs K) (pureRhs fun _ v i => -1 * v i + 0) 0 (fun _ => 1) (some h) =
        some (.ok st) ∧
      l.length = m ∧
      Path ⟨implicitMultistep Demo.realLib Demo.realZeros BDF3, pureRhs fun _ v i => -1 * v i + 0, .inf⟩ .inf st l v ∧
      ∀ u ∈ l, u.t ≤ 1 → |u.y 0 - Real.exp (-u.t)| ≤ C * (h ^ 3 + 148 / 10 ^ 10 / h) := by
  have z1 : (0 : ℝ) < Demo.realZeros.secantEps := by norm_num [Demo.realZeros]
  have z2 : (0 : ℝ) ≤ Demo.realZeros.tol := by norm_num [Demo.realZeros]
  obtain ⟨C, δ, hδ, hC⟩ := (C71_started (n := 1) bo argsort Demo.realLib (fun _ => rfl) .inf gs K
    g2 g g4 g5).2.2.1 (fun _ v i => -1 * v i + 0) (fun t _ => Real.exp (-t)) (-1) 2 0 1 1
    (contDiff_pi.mpr fun i => (contDiff_const.mul ((contDiff_apply ℝ ℝ i).comp contDiff_snd)).add contDiff_const)
    (by norm_num) (by norm_num) (by norm_num) (fun t _ => exp_solves t) (fun _ u v d => by
      have h1 := norm_le_pi_norm (u - v : Fin 1 → ℝ) d
      have e : -1 * u d + 0 - (-1 * v d + 0) = -(u d - v d) := by ring
      rw [e, abs_neg, one_mul]
      exact h1)
  refine ⟨C, δ, hδ, fun h h0 h1 m => ?_⟩
  obtain ⟨st, hst⟩ := C34_erk_starter_succeeds (by norm_num) RungeKutta4 gs K g bo argsort (fun _ v i => -1 * v i + 0) 0 (fun _ => 1) h
  have hh : st.h = h := by
    obtain ⟨_, _, _, _, -, -, -, -, rfl⟩ := multistepInit_fixed (p := 2) (by norm_num) hst
    rfl
  obtain ⟨l, v, hl, hp⟩ := implicit_paths (p := 2) (c := BDF3) Demo.realLib Demo.realZeros z1 z2 le_rfl .inf m st (by
      have : (0 : ℝ) < 1 - st.h * (BDF3 (α := ℝ)).Bn * (-1) := by
        rw [hh]; simp [BDF3, q]; positivity
      exact this.ne')
  refine ⟨st, l, v, hst, hl, hp, fun u hu hut => ?_⟩
  exact hC Demo.realZeros ⟨z1, z2, rfl⟩ h st v l .inf h0 h1 (by
    have e : (fun (t : ℝ) (_ : Fin 1) => Real.exp (-t)) 0 = fun _ => 1 := by funext; simp
    simp only [e]; exact hst) hp u hu hut 0

end Nbkode
