import Verif.Props.MultistepStart
import Verif.Props.Implicit
import Verif.Props.RealLib

/-!
# BDF6 started with RungeKutta4 does not have order 6: C71
-/

set_option autoImplicit false
set_option linter.unusedSectionVars false

namespace Nbkode
open Py Spec Solver

/-- `RungeKutta4` on `y' = 5 t^4` adds `h^5 / 24` to the increment of `t^5` in every step. -/
theorem rk4_quintic {lim : Bound ℝ} {u v : St ℝ 1 0 (ErkAux ℝ 1 3)} {l : List (St ℝ 1 0 (ErkAux ℝ 1 3))}
    (hp : Path ⟨erk RungeKutta4, pureRhs fun t y i => 0 * y i + 5 * t ^ 4, .inf⟩ lim u l v)
    (hf : u.f = fun i => 0 * u.y i + 5 * u.t ^ 4) {h : ℝ} (hh : u.h = h) (hu : u.y 0 = u.t ^ 5 + u.t * h ^ 4 / 24) :
    ∀ w ∈ l, w.y 0 = w.t ^ 5 + w.t * h ^ 4 / 24 := by
  induction hp with
  | nil u => simp
  | @cons u u1 v l _ htk _ ih =>
    obtain ⟨K, f', hK, hf', rfl⟩ := (erk_takes_iff RungeKutta4 (RungeKutta4_conditions (α := ℝ) |>.explicit) _ .inf u u1
      (congrArg Except.ok hf.symm)).mp htk
    set u1 : St ℝ 1 0 (ErkAux ℝ 1 3) := ⟨u.cache.push (u.t + u.h) (rkNew RungeKutta4 u.h u.y K) f', u.h, K⟩ with hu1
    have e1 : u1.t = u.t + u.h := push_t ..
    have e2 : u1.y = rkNew RungeKutta4 u.h u.y K := push_y ..
    have e3 : u1.f = fun i => 0 * u1.y i + 5 * u1.t ^ 4 := by
      rw [e1, e2]
      exact (push_f ..).trans (Except.ok.inj hf').symm
    have hKv : ∀ i, K i 0 = 5 * (u.t + RungeKutta4.C i * u.h) ^ 4 := by
      intro i
      have := congrFun (Except.ok.inj (hK i)) 0
      rw [← this]
      simp
    have e4 : u1.y 0 = u1.t ^ 5 + u1.t * h ^ 4 / 24 := by
      rw [e1, e2]
      simp only [rkNew, hu, hKv, hh]
      rw [Fin.sum_univ_succ, Fin.sum_univ_three]
      simp [RungeKutta4, q, Fin.succ]
      ring
    intro w hw
    rcases List.mem_cons.mp hw with rfl | hw
    · exact e4
    · exact ih e3 hh e4 w hw

/-- What the constructor records of the starter's steps. -/
theorem start_states {p n s : ℕ} (hp : p ≠ 0) {T : Tableau ℝ s} {rhs : Rhs ℝ n} {t₀ h : ℝ} {y₀ : Vec ℝ n} {g : Buffer ℝ n (histExtra p)}
    {bo : BisectOpts ℝ} {argsort : List ℝ → List Nat} {gs : Buffer ℝ n 0} {K : ErkAux ℝ n s} {st : St ℝ n (histExtra p) Unit}
    (hs : multistepInit g bo argsort (erkStarter T gs K) rhs t₀ y₀ (some h) = some (.ok st)) :
    st.h = h ∧ ∃ s1 s2 l, rhs t₀ y₀ = .ok s1.f ∧ s1.t = t₀ ∧ s1.y = y₀ ∧ s1.h = h ∧ Path ⟨erk T, rhs, .inf⟩ .inf s1 l s2 ∧
      ∀ i ≤ p, ∃ w ∈ s1 :: l, w.t = t₀ + ((p : ℝ) - i) * h ∧ ago st.cache.ys i = w.y ∧ ago st.cache.fs i = w.f := by
  have hk : histExtra p + 1 = p := by unfold histExtra; omega
  have hts := C34_erk_starter hp T gs K g bo argsort rhs t₀ y₀ h st hs
  obtain ⟨f0, s1, s2, l, hf0, hm, hl, hlen, rfl⟩ := multistepInit_fixed hp hs
  have hmm : erkInit gs K rhs t₀ y₀ (some h) = .ok s1 := hm
  obtain ⟨f1, hf1, hc, hh, -⟩ := solverInit_ok hmm
  have m1 : s1.t = t₀ := by rw [St.t, hc]; exact init_ts _ _ _ _ _
  have m2 : s1.y = y₀ := by rw [St.y, hc]; exact init_ys _ _ _ _ _
  have m3 : s1.f = f1 := by rw [St.f, hc]; exact init_fs _ _ _ _ _
  have hslot := slots_of_pushes hp g t₀ y₀ f0 (l.map point) (by simp [hlen])
  simp only at hslot
  set st : St ℝ n (histExtra p) Unit :=
    ⟨(l.map point).foldl (fun b p => b.push p.1 p.2.1 p.2.2) (Buffer.init g t₀ y₀ f0), h, ()⟩ with hst
  refine ⟨rfl, s1, s2, l, by rw [m3]; exact hf1, m1, m2, hh, hl, fun i hi => ?_⟩
  have h2 := hts ⟨histExtra p + 1 - i, by omega⟩
  have e : ((histExtra p + 1 - i : ℕ) : ℝ) = p - i := by rw [hk, Nat.cast_sub hi]
  rw [e] at h2
  have h3 := hslot ⟨histExtra p + 1 - i, by omega⟩
  have hpt : (t₀, y₀, f0) = point s1 := by
    unfold point
    rw [m1, m2, m3]
    rw [hf0] at hf1
    rw [Except.ok.inj hf1]
  rw [hpt, ← List.map_cons, List.getElem?_map] at h3
  have hjl : histExtra p + 1 - i < (s1 :: l).length := by simp [hlen]; omega
  rw [List.getElem?_eq_getElem hjl] at h3
  simp only [Option.map_some, Option.some.injEq, point, Prod.mk.injEq] at h3
  refine ⟨(s1 :: l)[histExtra p + 1 - i], List.getElem_mem _, ?_, h3.2.1.symm, h3.2.2.symm⟩
  rw [h3.1, ← h2]

/-- **C71 refuted** for `BDF6` with a `RungeKutta4` starter: although its steps have order 6 (`C70_BDF`), the solver constructed with
that starter does not have order 6. On `y' = 5 t^4`, `y = t^5`, the first new point is already off by `822 / 147 * h^5 / 24`. -/
theorem C71_refuted (bo : BisectOpts ℝ) (argsort : List ℝ → List Nat) (lib : Lib ℝ) (gs : Buffer ℝ 1 0) (K : ErkAux ℝ 1 3)
    (g6 : Buffer ℝ 1 (histExtra 5)) :
    ¬ StartConvergesWithin (fun rhs t y h => multistepInit g6 bo argsort (erkStarter RungeKutta4 gs K) rhs t y (some h))
      (fun zo rhs => ⟨implicitMultistep lib zo BDF6, rhs, .inf⟩) 6 := by
  intro hcon
  obtain ⟨C, δ, hδ, hC⟩ := hcon (fun t y i => 0 * y i + 5 * t ^ 4) (fun t _ => t ^ 5) (-1) 2 0 1 0
    (contDiff_pi.mpr fun i => ((contDiff_const.mul ((contDiff_apply ℝ ℝ i).comp contDiff_snd)).add
      (contDiff_const.mul (contDiff_fst.pow 4)))) (by norm_num)
    (by norm_num) (by norm_num) (fun t _ => hasDerivAt_pi.mpr fun _ => by simpa using hasDerivAt_pow 5 t) (by simp)
  obtain ⟨h, h0, k1, k2, k3⟩ : ∃ h : ℝ, 0 < h ∧ h ≤ δ ∧ h ≤ 1 / 6 ∧ h ≤ 1 / (100 * (|C| + 1)) :=
    ⟨min δ (min (1 / 6) (1 / (100 * (|C| + 1)))), by positivity, min_le_left _ _, (min_le_right _ _).trans (min_le_left _ _),
      (min_le_right _ _).trans (min_le_right _ _)⟩
  rw [le_div_iff₀ (by positivity)] at k3
  obtain ⟨st, hst⟩ := C34_erk_starter_succeeds (by norm_num) RungeKutta4 gs K g6 bo argsort (fun t y i => 0 * y i + 5 * t ^ 4) 0
    (fun _ => (0 : ℝ) ^ 5) h
  obtain ⟨e1, s1, s2, l, hf, m1, m2, m3, hl, hslot⟩ := start_states (by norm_num) hst
  have hstart := rk4_quintic hl (by rw [m1, m2]; exact (Except.ok.inj hf).symm) m3 (by rw [m1, m2]; norm_num)
  have hv : ∀ i : ℕ, i ≤ 5 → ago st.cache.ys i 0 = ((5 - i) * h) ^ 5 + ((5 - i) * h) * h ^ 4 / 24 := by
    intro i hi
    obtain ⟨w, hw, hwt, hwy, -⟩ := hslot i hi
    have hwt' : w.t = (5 - i) * h := by rw [hwt]; push_cast; ring
    rw [hwy, ← hwt']
    rcases List.mem_cons.mp hw with rfl | hw
    · rw [m1, m2]; norm_num
    · exact hstart w hw
  have hstt : st.t = 5 * h := by
    have := C34_erk_starter (by norm_num) RungeKutta4 gs K g6 bo argsort _ 0 _ h st hst (Buffer.iLast _)
    rw [show st.t = st.cache.ts (Buffer.iLast _) from rfl, this]
    norm_num [Buffer.iLast, histExtra]
  set zo : ZeroOpts ℝ := { Demo.realZeros with tol := 0, rtol := 0 } with hzo
  have hro : RootOpts zo := ⟨by norm_num [hzo, Demo.realZeros], le_rfl, rfl⟩
  obtain ⟨y', f', hf', htk, hd⟩ := linear_exact lib zo (by norm_num [hzo, Demo.realZeros]) le_rfl le_rfl BDF6 0 (fun t => 5 * t ^ 4)
    .inf st (by norm_num)
  set v : St ℝ 1 (histExtra 5) Unit := ⟨st.cache.push (st.t + st.h) y' f', st.h, ()⟩ with hv'
  have hvt : v.t = 6 * h := by rw [show v.t = st.t + st.h from push_t .., hstt, e1]; ring
  have key := hC zo hro h st v [v] .inf h0 k1 hst (.cons (by trivial) htk (.nil _)) v List.mem_cons_self
    (by rw [hvt]; linarith) 0
  rw [hvt, show v.y = y' from push_y ..] at key
  have hd0 := congrFun hd 0
  simp only [defect, Pi.zero_apply, hf', hstt, e1] at hd0
  rw [Fin.sum_univ_succ, Fin.sum_univ_five] at hd0
  simp at hd0
  rw [show (∑ x : Fin 6, (BDF6 : MultistepCoef ℝ 5).B x.rev * ago st.cache.fs x 0) = 0 from
    Finset.sum_eq_zero fun x _ => by simp [BDF6], hv 0 (by norm_num), hv 1 (by norm_num), hv 2 (by norm_num), hv 3 (by norm_num),
    hv 4 (by norm_num), hv 5 (by norm_num)] at hd0
  simp only [BDF6, q, Matrix.cons_val] at hd0
  norm_num at hd0
  simp only [hzo, zero_div, add_zero] at key
  have hval : y' 0 - (6 * h) ^ 5 = 822 / 147 / 24 * h ^ 5 := by linear_combination hd0
  rw [hval, abs_of_pos (by positivity)] at key
  have h5 : 0 < h ^ 5 := by positivity
  have h7 : C * h ^ 6 ≤ |C| * (h ^ 5 * h) := by
    rw [show h ^ 6 = h ^ 5 * h by ring]
    exact mul_le_mul_of_nonneg_right (le_abs_self _) (by positivity)
  have h9 : h ^ 5 * (h * (100 * (|C| + 1))) ≤ h ^ 5 * 1 := mul_le_mul_of_nonneg_left k3 h5.le
  have h10 : 0 < h ^ 5 * h := by positivity
  nlinarith

end Nbkode
