import Verif.Props.Nearby
import Verif.Props.MultistepRun

/-!
# C107 for the Adams-Bashforth classes

Nearby problems get nearby answers from AdamsBashforth2-5, started by any fixed-step Runge-Kutta method. Their order does not matter, so this is
true of the classes as coded.
-/

set_option autoImplicit false
set_option linter.unusedSectionVars false

namespace Nbkode
open Py Spec Solver

variable {n k p s : ℕ} {X : Type}

/-- A multistep solver constructed with a fixed-step Runge-Kutta method as starter. -/
def Spec.startedBy (T : Tableau ℝ s) (rhs : Rhs ℝ n) (t0 : ℝ) (y0 : Vec ℝ n) (st : St ℝ n (histExtra p) Unit) : Prop :=
  ∃ g bo argsort gs K h, multistepInit g bo argsort (erkStarter T gs K) rhs t0 y0 (some h) = some (.ok st)

/-- Two histories on the same even grid, whose states differ by at most `D` and whose derivatives by at most `L D + ε`. -/
structure HistNear (L ε D : ℝ) (u v : St ℝ n k X) : Prop where
  h : u.h = v.h
  grid : ∀ i : Fin (k + 2), u.cache.ts i = u.t - ((k : ℝ) + 1 - (i : ℕ)) * u.h
  ts : ∀ i, u.cache.ts i = v.cache.ts i
  ys : ∀ i, Within D (u.cache.ys i) (v.cache.ys i)
  fs : ∀ i, Within (L * D + ε) (u.cache.fs i) (v.cache.fs i)

theorem within_mono {D D' : ℝ} (h : D ≤ D') {y z : Vec ℝ n} (hw : Within D y z) : Within D' y z := fun i => (hw i).trans h

theorem adams_formula (c : MultistepCoef ℝ p) (hA : c.A = adamsA p) (b : Buffer ℝ n (histExtra p)) (h : ℝ) (d : Fin n) :
    multistepK c b h d = b.y d + h * ∑ j, c.B j * lastRows b.fs j d := by
  have e1 : vdot c.A (lastRows b.ys) d = -b.y d := by
    rw [vdot_apply, hA, Fin.sum_univ_castSucc, Finset.sum_eq_zero, zero_add]
    · have : lastRows b.ys (Fin.last p) = b.y := by
        rw [lastRows_eq]
        unfold ago Buffer.y Buffer.iLast
        congr 1
        exact Fin.ext (by simp)
      rw [this]
      simp [adamsA]
    · intro i _
      have : i.val ≠ p := by have := i.isLt; omega
      simp [adamsA, this]
  unfold multistepK
  rw [Pi.sub_apply, e1, vdot_apply, Finset.mul_sum, sub_neg_eq_add, add_comm]
  congr 1
  exact Finset.sum_congr rfl fun j _ => by ring

theorem histNear_step {c : MultistepCoef ℝ p} (hA : c.A = adamsA p) {L ε D : ℝ} (hL : 0 ≤ L) (hε : 0 ≤ ε) (hD : 0 ≤ D)
    {f g : ℝ → Vec ℝ n → Vec ℝ n} (hf : SlopeBound L f) (hfg : ∀ t y, Within ε (f t y) (g t y)) {b b' : Bound ℝ}
    {u u1 v v1 : St ℝ n (histExtra p) Unit} (h0 : 0 ≤ u.h) (hN : HistNear L ε D u v) (hu : Takes ⟨explicitMultistep c, pureRhs f, b⟩ u u1)
    (hv : Takes ⟨explicitMultistep c, pureRhs g, b'⟩ v v1) :
    HistNear L ε (D + u.h * ((∑ j, |c.B j|) * (L * D + ε))) u1 v1 ∧ u1.t = u.t + u.h ∧ u1.h = u.h := by
  obtain rfl : (⟨u.cache.push (u.t + u.h) (multistepK c u.cache u.h) (f (u.t + u.h) (multistepK c u.cache u.h)), u.h, ()⟩ :
      St ℝ n (histExtra p) Unit) = u1 := by
    have : (some (Except.ok (), _) : Option (Except Err Unit × St ℝ n (histExtra p) Unit)) = some (.ok (), u1) := hu
    exact (Prod.mk.inj (Option.some.inj this)).2
  obtain rfl : (⟨v.cache.push (v.t + v.h) (multistepK c v.cache v.h) (g (v.t + v.h) (multistepK c v.cache v.h)), v.h, ()⟩ :
      St ℝ n (histExtra p) Unit) = v1 := by
    have : (some (Except.ok (), _) : Option (Except Err Unit × St ℝ n (histExtra p) Unit)) = some (.ok (), v1) := hv
    exact (Prod.mk.inj (Option.some.inj this)).2
  have ht : u.t = v.t := hN.ts _
  have hB : 0 ≤ ∑ j, |c.B j| := Finset.sum_nonneg fun j _ => abs_nonneg _
  have hE : 0 ≤ L * D + ε := by positivity
  have hDD : D ≤ D + u.h * ((∑ j, |c.B j|) * (L * D + ε)) := le_add_of_nonneg_right (by positivity)
  have hy : Within (D + u.h * ((∑ j, |c.B j|) * (L * D + ε))) (multistepK c u.cache u.h) (multistepK c v.cache v.h) := by
    have e1 : multistepK c u.cache u.h = fun d => u.y d + u.h * ∑ j, c.B j * lastRows u.cache.fs j d := funext fun d => adams_formula c hA _ _ d
    have e2 : multistepK c v.cache v.h = fun d => v.y d + v.h * ∑ j, c.B j * lastRows v.cache.fs j d := funext fun d => adams_formula c hA _ _ d
    rw [e1, e2, ← hN.h]
    exact sum_near h0 (hN.ys _) fun j => by rw [lastRows_eq, lastRows_eq]; exact hN.fs _
  have hg : Within (L * (D + u.h * ((∑ j, |c.B j|) * (L * D + ε))) + ε) (f (u.t + u.h) (multistepK c u.cache u.h))
      (g (v.t + v.h) (multistepK c v.cache v.h)) := by
    intro i
    rw [← ht, ← hN.h]
    refine (abs_sub_le _ (f (u.t + u.h) (multistepK c v.cache v.h) i) _).trans (add_le_add (hf _ _ _ _ hy i) ?_)
    rw [← hN.h]
    exact hfg _ _ i
  have et : (⟨u.cache.push (u.t + u.h) (multistepK c u.cache u.h) (f (u.t + u.h) (multistepK c u.cache u.h)), u.h, ()⟩ :
      St ℝ n (histExtra p) Unit).t = u.t + u.h := push_t _ _ _ _
  refine ⟨⟨hN.h, fun i => ?_, fun i => ?_, fun i => ?_, fun i => ?_⟩, et, rfl⟩
  · rw [et]
    show shiftIn u.cache.ts (u.t + u.h) i = _
    unfold shiftIn
    split
    · rw [hN.grid]; push_cast; ring
    · have : i.val = histExtra p + 1 := by have := i.isLt; omega
      rw [this]; push_cast; ring
  · show shiftIn u.cache.ts (u.t + u.h) i = shiftIn v.cache.ts (v.t + v.h) i
    unfold shiftIn
    split
    · exact hN.ts _
    · rw [ht, hN.h]
  · show Within _ (shiftIn u.cache.ys _ i) (shiftIn v.cache.ys _ i)
    unfold shiftIn
    split
    · exact within_mono hDD (hN.ys _)
    · exact hy
  · show Within _ (shiftIn u.cache.fs _ i) (shiftIn v.cache.fs _ i)
    unfold shiftIn
    split
    · refine within_mono ?_ (hN.fs _)
      have := mul_le_mul_of_nonneg_left hDD hL
      linarith
    · exact hg

theorem histNear_path {c : MultistepCoef ℝ p} (hA : c.A = adamsA p) {L ε : ℝ} (hL : 0 ≤ L) (hε : 0 ≤ ε)
    {f g : ℝ → Vec ℝ n → Vec ℝ n} (hf : SlopeBound L f) (hfg : ∀ t y, Within ε (f t y) (g t y)) {b b' lim lim' : Bound ℝ}
    {u u1 : St ℝ n (histExtra p) Unit} {l : List (St ℝ n (histExtra p) Unit)} (hu : Path ⟨explicitMultistep c, pureRhs f, b⟩ lim u l u1) :
    ∀ {v v1 : St ℝ n (histExtra p) Unit} {l' : List (St ℝ n (histExtra p) Unit)} {D : ℝ},
      Path ⟨explicitMultistep c, pureRhs g, b'⟩ lim' v l' v1 → l.length = l'.length → 0 ≤ u.h → 0 ≤ D → HistNear L ε D u v →
      ∃ D', 0 ≤ D' ∧ HistNear L ε D' u1 v1 ∧ D' + ε ≤ Real.exp ((∑ j, |c.B j|) * (L + 1) * (l.length * u.h)) * (D + ε) := by
  induction hu with
  | nil u =>
    intro v v1 l' D hv hl h0 hD hN
    cases hv with
    | nil => exact ⟨D, hD, hN, by simp⟩
    | cons => simp at hl
  | @cons u u1 u2 l hfit htk hp ih =>
    intro v v2 l' D hv hl h0 hD hN
    cases hv with
    | nil => simp at hl
    | @cons _ v1 _ l' hfit' htk' hv =>
      obtain ⟨hN1, -, e⟩ := histNear_step hA hL hε hD hf hfg h0 hN htk htk'
      have hB : 0 ≤ ∑ j, |c.B j| := Finset.sum_nonneg fun j _ => abs_nonneg _
      have hE : 0 ≤ L * D + ε := by positivity
      obtain ⟨D', k1, k2, k3⟩ := ih hv (by simpa using hl) (by rw [e]; exact h0) (by positivity) hN1
      refine ⟨D', k1, k2, k3.trans ?_⟩
      rw [e]
      have e1 : D + u.h * ((∑ j, |c.B j|) * (L * D + ε)) + ε ≤ (1 + (∑ j, |c.B j|) * (L + 1) * u.h) * (D + ε) := by
        have h1 : L * D + ε ≤ (L + 1) * (D + ε) := by nlinarith [mul_nonneg hL hε]
        have h2 := mul_le_mul_of_nonneg_left h1 (mul_nonneg h0 hB)
        nlinarith
      have e2 : 1 + (∑ j, |c.B j|) * (L + 1) * u.h ≤ Real.exp ((∑ j, |c.B j|) * (L + 1) * u.h) := by
        have := Real.add_one_le_exp ((∑ j, |c.B j|) * (L + 1) * u.h); linarith
      have e3 : (∑ j, |c.B j|) * (L + 1) * (((l.length + 1 : ℕ) : ℝ) * u.h) =
          (∑ j, |c.B j|) * (L + 1) * (l.length * u.h) + (∑ j, |c.B j|) * (L + 1) * u.h := by push_cast; ring
      rw [List.length_cons, e3, Real.exp_add, mul_assoc (Real.exp _)]
      exact mul_le_mul_of_nonneg_left (e1.trans (mul_le_mul_of_nonneg_right e2 (add_nonneg hD hε))) (Real.exp_pos _).le

/-- The dense output of two such histories. -/
theorem histNear_dense {L ε D : ℝ} {u v u' v' : St ℝ n k X} (hh : 0 < u.h) (hN : HistNear L ε D u v) {t : ℝ}
    (h1 : u.cache.ts (Buffer.iOld k) ≤ t) (h2 : t ≤ u.t) {r r' : Ref ℝ n k}
    (hr : (hermiteInterp t : Py (St ℝ n k X) _).run u = some (.ok r, u')) (hr' : (hermiteInterp t : Py (St ℝ n k X) _).run v = some (.ok r', v')) :
    Within (D + ((k : ℝ) + 1) * u.h * (L * D + ε)) (r.deref u.cache) (r'.deref v.cache) := by
  have ht : u.t = v.t := hN.ts _
  have hold := hN.ts (Buffer.iOld k)
  have hw : u.t - u.cache.ts (Buffer.iOld k) = ((k : ℝ) + 1) * u.h := by
    rw [hN.grid]; show _ - (_ - (((k : ℝ) + 1 - ((0 : ℕ) : ℝ)) * u.h)) = _; push_cast; ring
  have hk : 0 < ((k : ℝ) + 1) * u.h := by positivity
  have hlt : u.cache.ts (Buffer.iOld k) < u.t := by linarith
  obtain ⟨a, ha, hav⟩ := hermite_value (t := t) (s := u) hlt
  obtain ⟨b, hb, hbv⟩ := hermite_value (t := t) (s := v) (by rw [← hold, ← ht]; exact hlt)
  rw [hr] at ha
  rw [hr'] at hb
  simp only [Option.some.injEq, Prod.mk.injEq, Except.ok.injEq] at ha hb
  obtain ⟨rfl, -⟩ := ha
  obtain ⟨rfl, -⟩ := hb
  intro d
  have e1 : r.deref u.cache d = herm ((t - u.cache.ts (Buffer.iOld k)) / (u.t - u.cache.ts (Buffer.iOld k)))
      (u.t - u.cache.ts (Buffer.iOld k)) (u.cache.ys (Buffer.iOld k) d) (u.y d) (u.cache.fs (Buffer.iOld k) d) (u.f d) := by rw [hav]; rfl
  have e2 : r'.deref v.cache d = herm ((t - u.cache.ts (Buffer.iOld k)) / (u.t - u.cache.ts (Buffer.iOld k)))
      (u.t - u.cache.ts (Buffer.iOld k)) (v.cache.ys (Buffer.iOld k) d) (v.y d) (v.cache.fs (Buffer.iOld k) d) (v.f d) := by
    rw [hbv, hold, ht]; rfl
  rw [e1, e2, herm_sub, hw]
  have hθ0 : 0 ≤ (t - u.cache.ts (Buffer.iOld k)) / (((k : ℝ) + 1) * u.h) := div_nonneg (by linarith) hk.le
  have hθ1 : (t - u.cache.ts (Buffer.iOld k)) / (((k : ℝ) + 1) * u.h) ≤ 1 := (div_le_one hk).mpr (by rw [← hw]; linarith)
  exact herm_le hθ0 hθ1 hk.le (hN.ys _ d) (hN.ys _ d) (hN.fs _ d) (hN.fs _ d)

theorem path_at {S : Solver ℝ n k X} {b : Bound ℝ} {u v : St ℝ n k X} {l : List (St ℝ n k X)} (hp : Path S b u l v) (i : ℕ) (hi : i < l.length) :
    ∃ l1, l1.length = i + 1 ∧ Path S b u l1 l[i] := by
  induction hp generalizing i with
  | nil => simp at hi
  | @cons u u1 v l hf ht hp ih =>
    cases i with
    | zero => exact ⟨[u1], rfl, .cons hf ht (.nil _)⟩
    | succ i =>
      obtain ⟨l1, h1, h2⟩ := ih i (by simpa using hi)
      exact ⟨u1 :: l1, by simp [h1], .cons hf ht h2⟩

/-- The histories made by the constructors. -/
theorem started_near (hp : p ≠ 0) {T : Tableau ℝ s} (hT : Explicit T) {L H : ℝ} (hL : 0 ≤ L) (hH : 0 ≤ H) :
    ∃ C, 1 ≤ C ∧ ∀ (f g : ℝ → Vec ℝ n → Vec ℝ n) (t0 : ℝ) (y0 z0 : Vec ℝ n) (ε : ℝ), 0 ≤ ε → SlopeBound L f →
      (∀ t y, Within ε (f t y) (g t y)) → Within ε y0 z0 → ∀ u v : St ℝ n (histExtra p) Unit, startedBy T (pureRhs f) t0 y0 u →
      startedBy T (pureRhs g) t0 z0 v → u.h = v.h → 0 < u.h → u.h ≤ H →
      HistNear L ε (C * ε) u v ∧ u.cache.ts (Buffer.iOld _) = t0 ∧ u.t = t0 + p * u.h := by
  obtain ⟨M, hM0, hst⟩ := stages_near (n := n) hT hL hH
  set B := ∑ j, |T.B j| with hB
  have hB0 : 0 ≤ B := Finset.sum_nonneg fun j _ => abs_nonneg _
  have hC1 : 1 ≤ Real.exp (B * M * (p * H)) * 2 := by
    have : 1 ≤ Real.exp (B * M * (p * H)) := Real.one_le_exp (by positivity)
    linarith
  refine ⟨Real.exp (B * M * (p * H)) * 2, hC1, fun f g t0 y0 z0 ε hε hf hfg hyz u v hu hv hh hpos hhH => ?_⟩
  set C := Real.exp (B * M * (p * H)) * 2 with hC
  have hk : histExtra p + 1 = p := by unfold histExtra; omega
  have hmake : ∀ (f : ℝ → Vec ℝ n → Vec ℝ n) (y0 : Vec ℝ n) (gs : Buffer ℝ n 0) (K : ErkAux ℝ n s) (h : ℝ) (s1 : St ℝ n 0 (ErkAux ℝ n s)),
      erkInit gs K (pureRhs f) t0 y0 (some h) = .ok s1 → s1.t = t0 ∧ s1.y = y0 ∧ s1.h = h ∧ s1.f = f t0 y0 := by
    intro f y0 gs K h s1 hm
    obtain ⟨f0, hf0, hc, hh, -⟩ := solverInit_ok hm
    refine ⟨?_, ?_, hh, ?_⟩
    · rw [St.t, hc]; exact init_ts _ _ _ _ _
    · rw [St.y, hc]; exact init_ys _ _ _ _ _
    · rw [St.f, hc, ← Except.ok.inj hf0]; exact init_fs _ _ _ _ _
  obtain ⟨g1, bo, argsort, gs, K, h, hs⟩ := hu
  obtain ⟨g1', bo', argsort', gs', K', h', hs'⟩ := hv
  have hts := C34_erk_starter hp T gs K g1 bo argsort (pureRhs f) t0 y0 h u hs
  have hts' := C34_erk_starter hp T gs' K' g1' bo' argsort' (pureRhs g) t0 z0 h' v hs'
  obtain ⟨f0, s1, s2, l, hf0, hm, hl, hlen, eu⟩ := multistepInit_fixed hp hs
  obtain ⟨f0', s1', s2', l', hf0', hm', hl', hlen', ev⟩ := multistepInit_fixed hp hs'
  obtain ⟨m1, m2, m3, m4⟩ := hmake f y0 _ _ _ s1 hm
  obtain ⟨m1', m2', m3', m4'⟩ := hmake g z0 _ _ _ s1' hm'
  have hslot := slots_of_pushes hp g1 t0 y0 f0 (l.map point) (by simp [hlen])
  have hslot' := slots_of_pushes hp g1' t0 z0 f0' (l'.map point) (by simp [hlen'])
  simp only at hslot hslot'
  have euh : u.h = h := by rw [eu]
  have evh : v.h = h' := by rw [ev]
  have hhh : h = h' := by rw [← euh, ← evh, hh]
  have huc : u.cache = (l.map point).foldl (fun b p => b.push p.1 p.2.1 p.2.2) (Buffer.init g1 t0 y0 f0) := by rw [eu]
  have hvc : v.cache = (l'.map point).foldl (fun b p => b.push p.1 p.2.1 p.2.2) (Buffer.init g1' t0 z0 f0') := by rw [ev]
  rw [← huc] at hslot
  rw [← hvc] at hslot'
  have hut : u.t = t0 + p * u.h := by
    have := hts (Buffer.iLast _)
    rw [show (Buffer.iLast (histExtra p)).val = p from hk, ← euh] at this
    exact this
  have hCε : ε ≤ C * ε := le_mul_of_one_le_left hε hC1
  have key : ∀ i : Fin (histExtra p + 2), Within (C * ε) (u.cache.ys i) (v.cache.ys i) ∧
      Within (L * (C * ε) + ε) (u.cache.fs i) (v.cache.fs i) := by
    intro i
    have q1 := hslot i
    have q2 := hslot' i
    cases hi : i.val with
    | zero =>
      rw [hi] at q1 q2
      simp only [List.getElem?_cons_zero, Option.some.injEq, Prod.mk.injEq] at q1 q2
      obtain ⟨-, a2, a3⟩ := q1
      obtain ⟨-, b2, b3⟩ := q2
      rw [← a2, ← a3, ← b2, ← b3]
      refine ⟨within_mono hCε hyz, fun d => ?_⟩
      rw [← Except.ok.inj hf0, ← Except.ok.inj hf0']
      refine (abs_sub_le _ (f t0 z0 d) _).trans (add_le_add ?_ (hfg _ _ d))
      refine (hf t0 _ _ _ hyz d).trans (mul_le_mul_of_nonneg_left hCε hL)
    | succ j =>
      rw [hi] at q1 q2
      have hj : j < l.length := by have := i.isLt; omega
      have hj' : j < l'.length := by have := i.isLt; omega
      simp only [List.getElem?_cons_succ, List.getElem?_map, List.getElem?_eq_getElem hj, List.getElem?_eq_getElem hj', Option.map_some,
        Option.some.injEq, point, Prod.mk.injEq] at q1 q2
      obtain ⟨-, a2, a3⟩ := q1
      obtain ⟨-, b2, b3⟩ := q2
      obtain ⟨l1, c1, c2⟩ := path_at hl j hj
      obtain ⟨l1', c1', c2'⟩ := path_at hl' j hj'
      obtain ⟨r1, r2, r3, r4, r5, r6, D, r7, r8, r9⟩ := path_near (cls := fun rhs => (⟨erk T, rhs, .inf⟩ : Solver ℝ n 0 (ErkAux ℝ n s)))
        (fun _ => .erk _) (erk_steps hT .inf) (L := L) hH hM0 hε
        (fun t x D v w K K' e4 e5 e6 e7 e8 e9 => hst f g t x D ε v w K K' hε hf hfg e4 e5 e6 e7 e8 e9) c2 c2' (c1.trans c1'.symm)
        (m1.trans m1'.symm) (by rw [m3, m3', hhh]) (by rw [m3, ← euh]; exact hpos.le) (by rw [m3, ← euh]; exact hhH)
        (by rw [m4, m1, m2]) (by rw [m4', m1', m2']) hε (by rw [m2, m2']; exact hyz)
      have hD : D ≤ C * ε := by
        have h1 : ((l1.length : ℝ)) * s1.h ≤ p * H := by
          rw [c1, m3, ← euh]
          have : ((j + 1 : ℕ) : ℝ) ≤ p := by exact_mod_cast (by omega : j + 1 ≤ p)
          exact mul_le_mul this hhH hpos.le (by positivity)
        have h2 : Real.exp (B * M * (l1.length * s1.h)) ≤ Real.exp (B * M * (p * H)) :=
          Real.exp_le_exp.2 (mul_le_mul_of_nonneg_left h1 (by positivity))
        have h3 := mul_le_mul_of_nonneg_right h2 (add_nonneg hε hε)
        rw [hC]
        linarith
      rw [← a2, ← a3, ← b2, ← b3]
      refine ⟨within_mono hD r8, fun d => ?_⟩
      show |l[j].f d - l'[j].f d| ≤ _
      rw [r5, r6, ← r1]
      refine (abs_sub_le _ (f l[j].t l'[j].y d) _).trans (add_le_add ?_ (hfg _ _ d))
      exact (hf _ _ _ _ r8 d).trans (mul_le_mul_of_nonneg_left hD hL)
  refine ⟨⟨hh, fun i => ?_, fun i => ?_, fun i => (key i).1, fun i => (key i).2⟩, ?_, hut⟩
  · rw [hts i, hut, euh]
    have : (p : ℝ) = (histExtra p : ℝ) + 1 := by rw [← hk]; push_cast; rfl
    rw [this]; ring
  · rw [hts i, hts' i, hhh]
  · rw [hts]
    show t0 + ((0 : ℕ) : ℝ) * h = t0
    simp

/-- Where an answer of `run` comes from: the dense output after the number of steps needed to reach its time. -/
theorem fixed_origin {S : Solver ℝ n k X} (hM : IsFixed S.method) {bo : BisectOpts ℝ} {argsort : List ℝ → List Nat}
    (hA : ∀ l, IsArgsort l (argsort l)) {u u' : St ℝ n k X} (hc : Constructed S u) (ho : Ordered u) (hh : 0 < u.h) {ts : List ℝ}
    {out : List (ℝ × Vec ℝ n)} (hrun : (S.run bo argsort ts).run u = some (.ok out, u')) {a : ℝ × Vec ℝ n} (ha : a ∈ out) :
    ∃ l x r x', Path S S.tBound u l x ∧ x.t = u.t + l.length * u.h ∧ x.h = u.h ∧ x.cache.ts (Buffer.iOld k) ≤ a.1 ∧ a.1 ≤ x.t ∧
      (l.length ≠ 0 → u.t + (l.length - 1) * u.h < a.1) ∧ (hermiteInterp a.1 : Py (St ℝ n k X) _).run x = some (.ok r, x') ∧
      r.deref x.cache = a.2 := by
  have t1 : ∀ {s0 y : St ℝ n k X} {l : List (St ℝ n k X)}, Path S S.tBound s0 l y → y.t = s0.t + l.length * s0.h ∧ y.h = s0.h := by
    intro s0 y l hp
    induction hp with
    | nil => simp
    | @cons p p1 y l hf ht hp ih =>
      have c1 := (IsFixed.shaped hM).body_fixed _ _ _ ht
      have c2 : p1.h = p.h := (IsFixed.shaped hM).body_h _ _ _ _ ht
      rw [ih.1, ih.2, c1, c2]
      refine ⟨?_, rfl⟩
      push_cast [List.length_cons]; ring
  obtain ⟨x, r, x', hreach, hint, hval⟩ := C20_interpolant S (Or.inl hM) bo argsort hA u u hc ho hh (.start u) ts out u' hrun a ha
  have hrange : x.cache.ts (Buffer.iOld k) ≤ a.1 ∧ a.1 ≤ x.t := by
    by_contra hc
    rw [C10_interpolate_outside _ _ _ hc] at hint
    simp at hint
  rw [interpolate_inside hrange.1 hrange.2, fixed_interp hM] at hint
  rcases reach_last hreach with rfl | ⟨l, y, hp, hy, hfits, htakes⟩
  · exact ⟨[], x, r, x', .nil _, by simp, rfl, hrange.1, hrange.2, by simp, hint, hval⟩
  · have hp1 : Path S S.tBound u (l ++ [x]) x := path_append hp (.cons hfits htakes (.nil _))
    refine ⟨l ++ [x], x, r, x', hp1, (t1 hp1).1, (t1 hp1).2, hrange.1, hrange.2, fun _ => ?_, hint, hval⟩
    have := (t1 hp).1
    rw [List.length_append, List.length_singleton]
    push_cast
    rw [add_sub_cancel_right, ← this]
    exact hy

theorem dense_bound {κ H h L D ε G : ℝ} (hκ : 0 ≤ κ) (hh : 0 ≤ h) (hH : h ≤ H) (hL : 0 ≤ L) (hD : 0 ≤ D) (hε : 0 ≤ ε) (hG : D + ε ≤ G * ε) :
    D + κ * h * (L * D + ε) ≤ (1 + κ * H * (L + 1)) * (G + 1) * ε := by
  have h1 : L * D + ε ≤ (L + 1) * (D + ε) := by
    have e : (L + 1) * (D + ε) = L * D + L * ε + D + ε := by ring
    have := mul_nonneg hL hε
    rw [e]; linarith
  have h2 : κ * h * (L * D + ε) ≤ κ * H * ((L + 1) * (D + ε)) :=
    mul_le_mul (mul_le_mul_of_nonneg_left hH hκ) h1 (by positivity) (mul_nonneg hκ (hh.trans hH))
  have h3 : 0 ≤ κ * H * (L + 1) := mul_nonneg (mul_nonneg hκ (hh.trans hH)) (by linarith)
  calc D + κ * h * (L * D + ε) ≤ (D + ε) + κ * H * ((L + 1) * (D + ε)) := by linarith
    _ = (1 + κ * H * (L + 1)) * (D + ε) := by ring
    _ ≤ (1 + κ * H * (L + 1)) * ((G + 1) * ε) := mul_le_mul_of_nonneg_left (by linarith) (by linarith)
    _ = _ := by ring

/-- **C107**, explicit multistep classes of Adams type with a fixed-step Runge-Kutta starter. -/
theorem C107_adams (hp : p ≠ 0) {c : MultistepCoef ℝ p} (hA : c.A = adamsA p) {T : Tableau ℝ s} (hT : Explicit T) (b : Bound ℝ) :
    NearbyAnswers (fun rhs : Rhs ℝ n => (⟨explicitMultistep c, rhs, b⟩ : Solver ℝ n (histExtra p) Unit)) (startedBy T) := by
  intro L T₁ H hL hT0 hH
  obtain ⟨C, hC1, hstart⟩ := started_near (n := n) hp hT hL hH
  set B := ∑ j, |c.B j| with hB
  have hB0 : 0 ≤ B := Finset.sum_nonneg fun j _ => abs_nonneg _
  set κ : ℝ := ((histExtra p : ℕ) : ℝ) + 1 with hκ
  have hκ0 : 0 < κ := by positivity
  set G := Real.exp (B * (L + 1) * (T₁ + H)) * (C + 1) with hG
  have hG0 : 0 ≤ G := by positivity
  have hGC : C ≤ G := by
    have : 1 ≤ Real.exp (B * (L + 1) * (T₁ + H)) := Real.one_le_exp (by positivity)
    rw [hG]; nlinarith
  refine ⟨(1 + κ * H * (L + 1)) * (G + 1), fun f g t0 y0 z0 ε hε hf hfg hyz bo argsort hAr u u' v v' hu hv hh hpos hhH ts out out'
    hrun hrun' a ha q hq hpq hpT => ?_⟩
  obtain ⟨hN0, hold, hut⟩ := hstart f g t0 y0 z0 ε hε hf hfg hyz u v hu hv hh hpos hhH
  have hM : ∀ rhs : Rhs ℝ n, IsFixed ((⟨explicitMultistep c, rhs, b⟩ : Solver ℝ n (histExtra p) Unit)).method := fun _ => .explicitMultistep c
  have hou : Ordered u := by
    intro i j hij
    rw [hN0.grid, hN0.grid]
    have : ((i : ℕ) : ℝ) ≤ ((j : ℕ) : ℝ) := by exact_mod_cast hij
    nlinarith
  have hov : Ordered v := by
    intro i j hij
    rw [← hN0.ts, ← hN0.ts]
    exact hou i j hij
  have hcu : Constructed (⟨explicitMultistep c, pureRhs f, b⟩ : Solver ℝ n (histExtra p) Unit) u := by
    obtain ⟨g1, bo, as, gs, K, h, hs⟩ := hu
    exact .explicitMultistep _ _ _ _ _ _ _ _ _ _ _ hs
  have hcv : Constructed (⟨explicitMultistep c, pureRhs g, b⟩ : Solver ℝ n (histExtra p) Unit) v := by
    obtain ⟨g1, bo, as, gs, K, h, hs⟩ := hv
    exact .explicitMultistep _ _ _ _ _ _ _ _ _ _ _ hs
  obtain ⟨l, x, r, x', p1, p2, p3, p4, p5, p6, p7, p8⟩ := fixed_origin (hM _) hAr hcu hou hpos hrun ha
  obtain ⟨l', w, r', w', q1, q2, q3, q4, q5, q6, q7, q8⟩ := fixed_origin (hM _) hAr hcv hov (hh ▸ hpos) hrun' hq
  have hvt : u.t = v.t := hN0.ts _
  rw [← hvt, ← hh] at q2 q6
  rw [← hpq] at q4 q5 q6 q7
  have hlen : l.length = l'.length := by
    rcases lt_trichotomy l.length l'.length with hlt | heq | hlt
    · have h1 := q6 (by omega)
      rw [p2] at p5
      have h2 : (l.length : ℝ) ≤ l'.length - 1 := by
        have : ((l.length + 1 : ℕ) : ℝ) ≤ l'.length := by exact_mod_cast hlt
        push_cast at this; linarith
      have := mul_le_mul_of_nonneg_right h2 hpos.le
      linarith
    · exact heq
    · have h1 := p6 (by omega)
      rw [q2] at q5
      have h2 : (l'.length : ℝ) ≤ l.length - 1 := by
        have : ((l'.length + 1 : ℕ) : ℝ) ≤ l.length := by exact_mod_cast hlt
        push_cast at this; linarith
      have := mul_le_mul_of_nonneg_right h2 hpos.le
      linarith
  obtain ⟨D, d0, hN, d1⟩ := histNear_path hA hL hε hf hfg p1 q1 hlen hpos.le (mul_nonneg (by linarith) hε) hN0
  have htl : (l.length : ℝ) * u.h ≤ T₁ + H := by
    by_cases hl : l.length = 0
    · rw [hl]; simp; linarith
    · have h1 := p6 hl
      have h2 : (0 : ℝ) ≤ p * u.h := by positivity
      rw [hut] at h1
      linarith
  have hD : D + ε ≤ G * ε := by
    refine d1.trans ?_
    have : Real.exp (B * (L + 1) * (l.length * u.h)) ≤ Real.exp (B * (L + 1) * (T₁ + H)) :=
      Real.exp_le_exp.2 (mul_le_mul_of_nonneg_left htl (by positivity))
    have h2 : C * ε + ε = (C + 1) * ε := by ring
    have h3 : 0 ≤ (C + 1) * ε := mul_nonneg (by linarith) hε
    rw [h2, hG, mul_assoc (Real.exp (B * (L + 1) * (T₁ + H)))]
    exact mul_le_mul_of_nonneg_right this h3
  have hx := histNear_dense (by rw [p3]; exact hpos) hN p4 p5 p7 q7
  rw [p8, q8, p3, ← hκ] at hx
  refine within_mono ?_ hx
  exact dense_bound hκ0.le hpos.le hhH hL d0 hε hD

/-- **C107**, `AdamsBashforth2`, as coded. -/
theorem C107_AdamsBashforth2 {T : Tableau ℝ s} (hT : Explicit T) (b : Bound ℝ) :
    NearbyAnswers (fun rhs : Rhs ℝ n => (⟨explicitMultistep AdamsBashforth2, rhs, b⟩ : Solver ℝ n (histExtra 1) Unit)) (startedBy T) :=
  C107_adams one_ne_zero rfl hT b

/-- **C107**, `AdamsBashforth3`, as coded. -/
theorem C107_AdamsBashforth3 {T : Tableau ℝ s} (hT : Explicit T) (b : Bound ℝ) :
    NearbyAnswers (fun rhs : Rhs ℝ n => (⟨explicitMultistep AdamsBashforth3, rhs, b⟩ : Solver ℝ n (histExtra 2) Unit)) (startedBy T) :=
  C107_adams two_ne_zero rfl hT b

/-- **C107**, `AdamsBashforth4`, as coded. -/
theorem C107_AdamsBashforth4 {T : Tableau ℝ s} (hT : Explicit T) (b : Bound ℝ) :
    NearbyAnswers (fun rhs : Rhs ℝ n => (⟨explicitMultistep AdamsBashforth4, rhs, b⟩ : Solver ℝ n (histExtra 3) Unit)) (startedBy T) :=
  C107_adams three_ne_zero rfl hT b

/-- **C107**, `AdamsBashforth5`, as coded. -/
theorem C107_AdamsBashforth5 {T : Tableau ℝ s} (hT : Explicit T) (b : Bound ℝ) :
    NearbyAnswers (fun rhs : Rhs ℝ n => (⟨explicitMultistep AdamsBashforth5, rhs, b⟩ : Solver ℝ n (histExtra 4) Unit)) (startedBy T) :=
  C107_adams four_ne_zero rfl hT b

/-- Non-vacuity: `AdamsBashforth3` started by `RungeKutta4` can be constructed for every problem and step size, and its runs succeed. -/
example (f : ℝ → Vec ℝ 2 → Vec ℝ 2) (t0 : ℝ) (y0 : Vec ℝ 2) (h : ℝ) (g : Buffer ℝ 2 (histExtra 2)) (bo : BisectOpts ℝ) (argsort : List ℝ → List Nat)
    (gs : Buffer ℝ 2 0) (K : ErkAux ℝ 2 3) :
    (∃ st : St ℝ 2 (histExtra 2) Unit, startedBy RungeKutta4 (pureRhs f) t0 y0 st) ∧
    NearbyAnswers (fun rhs : Rhs ℝ 2 => (⟨explicitMultistep AdamsBashforth3, rhs, .inf⟩ : Solver ℝ 2 (histExtra 2) Unit)) (startedBy RungeKutta4) := by
  obtain ⟨st, hst⟩ := C34_erk_starter_succeeds two_ne_zero RungeKutta4 gs K g bo argsort f t0 y0 h
  exact ⟨⟨st, g, bo, argsort, gs, K, h, hst⟩, C107_AdamsBashforth3 RungeKutta4_conditions.explicit .inf⟩

end Nbkode
