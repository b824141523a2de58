import Verif.Proofs.MultistepEvents
import Verif.Props.EventError
import Verif.Props.MultistepRun
import Verif.Props.Watching
import Verif.Props.RunLeaves
import Mathlib.Analysis.Complex.ExponentialBounds

/-!
# Event times with multistep methods: C83

`run_events` looks for crossings along the cubic through the oldest and the newest recorded point. Its error is of order 4 in `h`, so the
recorded times have the order of the method, up to order 4. The constructor makes `ORDER - 1` steps without looking for events.
-/

set_option autoImplicit false
set_option linter.unusedSectionVars false

namespace Nbkode
open Py Spec Solver

variable {n p m k : ℕ} {X : Type}

/-! ### In general -/

/-- **C83**, explicit methods in general: a zero-stable formula which is exact on polynomials of degree `q`, `1 ≤ q ≤ 4`, started by a
fixed-step Runge-Kutta method of order `r ≥ q - 1`, records the events of the true solution, with an error of order `q`. -/
theorem C83_explicit (hp : p ≠ 0) {q r : ℕ} (hr : 1 ≤ r) (hrq : r ≤ q) (hqr : q ≤ r + 1) (hq : q ≤ 4) (c : MultistepCoef ℝ p)
    (hc : c.Bn = 0) (hst : ZeroStable c) (hx : ExactOnPolynomials c q) (b : Bound ℝ) {T : Tableau ℝ m} (hT : Explicit T)
    (hR : RowSums T) (hB : OrderConditions T.A T.B r) (g : Buffer ℝ n (histExtra p)) (bo : BisectOpts ℝ)
    (argsort : List ℝ → List Nat) (gs : Buffer ℝ n 0) (K : ErkAux ℝ n m) :
    StartEvents (fun rhs t y h => multistepInit g bo argsort (erkStarter T gs K) rhs t y (some h))
      (fun rhs => ⟨explicitMultistep c, rhs, b⟩) q :=
  start_records (hr.trans hrq) hq (fun _ => .explicitMultistep c)
    (fun rhs _ _ _ s h => .explicitMultistep c rhs b g bo argsort _ _ _ _ s h)
    (erk_starts_near hp hr hrq hqr hT hR hB g bo argsort gs K)
    (C71_explicit hp hr hrq hqr (C70_explicit (hr.trans hrq) c hc hst hx b) hT hR hB g bo argsort gs K)
    (fun f u v h => by
      obtain ⟨y', e, -⟩ := explicit_within c hc b f u v h
      exact ⟨y', e⟩)

/-- **C83**, implicit methods in general. -/
theorem C83_implicit (hp : p ≠ 0) {q r : ℕ} (hr : 1 ≤ r) (hrq : r ≤ q) (hqr : q ≤ r + 1) (hq : q ≤ 4) (c : MultistepCoef ℝ p)
    (hst : ZeroStable c) (hx : ExactOnPolynomials c q) (lib : Lib ℝ) (hlib : ∀ x, lib.sqrt x = Real.sqrt x) (b : Bound ℝ)
    {T : Tableau ℝ m} (hT : Explicit T) (hR : RowSums T) (hB : OrderConditions T.A T.B r) (g : Buffer ℝ n (histExtra p))
    (bo : BisectOpts ℝ) (argsort : List ℝ → List Nat) (gs : Buffer ℝ n 0) (K : ErkAux ℝ n m) :
    StartEventsWithin (fun rhs t y h => multistepInit g bo argsort (erkStarter T gs K) rhs t y (some h))
      (fun zo rhs => ⟨implicitMultistep lib zo c, rhs, b⟩) q :=
  start_records_within (hr.trans hrq) hq (fun _ _ => .implicitMultistep lib _ c)
    (fun zo rhs _ _ _ s h => .implicitMultistep lib zo c rhs b g bo argsort _ _ _ _ s h)
    (erk_starts_near hp hr hrq hqr hT hR hB g bo argsort gs K)
    (C71_implicit hp hr hrq hqr (C70_implicit c hst hx lib hlib b) hT hR hB g bo argsort gs K)
    (fun f L hL0 hL => by
      obtain ⟨δ, hδ, h⟩ := implicit_within hlib c b f L hL0 hL
      exact ⟨δ, hδ, fun zo hzo u v h0 h1 htk => by
        obtain ⟨y', e, -⟩ := h zo hzo u v h0 h1 htk
        exact ⟨y', e⟩⟩)

/-- **C83**, one-step formulas: no starter is involved. -/
theorem C83_single_implicit {q : ℕ} (hq1 : 1 ≤ q) (hq : q ≤ 4) (c : MultistepCoef ℝ 0) (hst : ZeroStable c)
    (hx : ExactOnPolynomials c q) (lib : Lib ℝ) (hlib : ∀ x, lib.sqrt x = Real.sqrt x) (b : Bound ℝ)
    (g : Buffer ℝ n (histExtra 0)) (bo : BisectOpts ℝ) (argsort : List ℝ → List Nat) (starter : Starter ℝ n) :
    StartEventsWithin (p := 0) (fun rhs t y h => multistepInit g bo argsort starter rhs t y (some h))
      (fun zo rhs => ⟨implicitMultistep lib zo c, rhs, b⟩) q :=
  start_records_within hq1 hq (fun _ _ => .implicitMultistep lib _ c)
    (fun zo rhs _ _ _ s h => .implicitMultistep lib zo c rhs b g bo argsort _ _ _ _ s h)
    (single_starts_near q g bo argsort starter)
    (C71_single_implicit (C70_implicit c hst hx lib hlib b) g bo argsort starter)
    (fun f L hL0 hL => by
      obtain ⟨δ, hδ, h⟩ := implicit_within hlib c b f L hL0 hL
      exact ⟨δ, hδ, fun zo hzo u v h0 h1 htk => by
        obtain ⟨y', e, -⟩ := h zo hzo u v h0 h1 htk
        exact ⟨y', e⟩⟩)

/-! ### The methods of the package -/

section named
variable (bo : BisectOpts ℝ) (argsort : List ℝ → List Nat) (lib : Lib ℝ) (hlib : ∀ x, lib.sqrt x = Real.sqrt x)
  (b : Bound ℝ) (gs : Buffer ℝ n 0) (K : ErkAux ℝ n 3)

/-- **C83**, `AdamsBashforth2` to `5` started with `RungeKutta4`: order 1. Missing: their own orders (`C70_AB_refuted`). -/
theorem C83_AB_partial (g2 : Buffer ℝ n (histExtra 1)) (g3 : Buffer ℝ n (histExtra 2)) (g4 : Buffer ℝ n (histExtra 3))
    (g5 : Buffer ℝ n (histExtra 4)) :
    StartEvents (fun rhs t y h => multistepInit g2 bo argsort (erkStarter RungeKutta4 gs K) rhs t y (some h))
      (fun rhs => ⟨explicitMultistep AdamsBashforth2, rhs, b⟩) 1 ∧
    StartEvents (fun rhs t y h => multistepInit g3 bo argsort (erkStarter RungeKutta4 gs K) rhs t y (some h))
      (fun rhs => ⟨explicitMultistep AdamsBashforth3, rhs, b⟩) 1 ∧
    StartEvents (fun rhs t y h => multistepInit g4 bo argsort (erkStarter RungeKutta4 gs K) rhs t y (some h))
      (fun rhs => ⟨explicitMultistep AdamsBashforth4, rhs, b⟩) 1 ∧
    StartEvents (fun rhs t y h => multistepInit g5 bo argsort (erkStarter RungeKutta4 gs K) rhs t y (some h))
      (fun rhs => ⟨explicitMultistep AdamsBashforth5, rhs, b⟩) 1 := by
  have hB : OrderConditions RungeKutta4.A RungeKutta4.B 1 := OrderConditions.mono RungeKutta4_tree (by norm_num)
  have ex := RungeKutta4_conditions (α := ℝ) |>.explicit
  exact ⟨C83_explicit (by norm_num) le_rfl le_rfl (by norm_num) (by norm_num) _ rfl (stable_adams _ rfl) C29_AB2_partial b ex
      RungeKutta4_rows hB _ _ _ _ _,
    C83_explicit (by norm_num) le_rfl le_rfl (by norm_num) (by norm_num) _ rfl (stable_adams _ rfl) C29_AB3_partial b ex
      RungeKutta4_rows hB _ _ _ _ _,
    C83_explicit (by norm_num) le_rfl le_rfl (by norm_num) (by norm_num) _ rfl (stable_adams _ rfl) C29_AB4_partial b ex
      RungeKutta4_rows hB _ _ _ _ _,
    C83_explicit (by norm_num) le_rfl le_rfl (by norm_num) (by norm_num) _ rfl (stable_adams _ rfl) C29_AB5_partial b ex
      RungeKutta4_rows hB _ _ _ _ _⟩

include hlib

/-- **C83**: `AdamsMoulton1` (`BackwardEuler`), `AdamsMoulton2` and `BDF1`, whatever the starter: orders 1, 2 and 1. -/
theorem C83_single (g : Buffer ℝ n (histExtra 0)) (starter : Starter ℝ n) :
    StartEventsWithin (p := 0) (fun rhs t y h => multistepInit g bo argsort starter rhs t y (some h))
      (fun zo rhs => ⟨implicitMultistep lib zo AdamsMoulton1, rhs, b⟩) 1 ∧
    StartEventsWithin (p := 0) (fun rhs t y h => multistepInit g bo argsort starter rhs t y (some h))
      (fun zo rhs => ⟨implicitMultistep lib zo AdamsMoulton2, rhs, b⟩) 2 ∧
    StartEventsWithin (p := 0) (fun rhs t y h => multistepInit g bo argsort starter rhs t y (some h))
      (fun zo rhs => ⟨implicitMultistep lib zo BDF1, rhs, b⟩) 1 :=
  ⟨C83_single_implicit le_rfl (by norm_num) _ (stable_adams _ rfl) C30_AM1 lib hlib b g bo argsort starter,
    C83_single_implicit (by norm_num) (by norm_num) _ (stable_adams _ rfl) C30_AM2 lib hlib b g bo argsort starter,
    C83_single_implicit le_rfl (by norm_num) _ stable_BDF1 C31_BDF1 lib hlib b g bo argsort starter⟩

/-- **C83**: `AdamsMoulton3`, `BDF2`, `BDF3`, `BDF4` started with `RungeKutta4`: orders 3, 2, 3, 4. -/
theorem C83_started (g2 : Buffer ℝ n (histExtra 1)) (g3 : Buffer ℝ n (histExtra 2)) (g4 : Buffer ℝ n (histExtra 3)) :
    StartEventsWithin (fun rhs t y h => multistepInit g2 bo argsort (erkStarter RungeKutta4 gs K) rhs t y (some h))
      (fun zo rhs => ⟨implicitMultistep lib zo AdamsMoulton3, rhs, b⟩) 3 ∧
    StartEventsWithin (fun rhs t y h => multistepInit g2 bo argsort (erkStarter RungeKutta4 gs K) rhs t y (some h))
      (fun zo rhs => ⟨implicitMultistep lib zo BDF2, rhs, b⟩) 2 ∧
    StartEventsWithin (fun rhs t y h => multistepInit g3 bo argsort (erkStarter RungeKutta4 gs K) rhs t y (some h))
      (fun zo rhs => ⟨implicitMultistep lib zo BDF3, rhs, b⟩) 3 ∧
    StartEventsWithin (fun rhs t y h => multistepInit g4 bo argsort (erkStarter RungeKutta4 gs K) rhs t y (some h))
      (fun zo rhs => ⟨implicitMultistep lib zo BDF4, rhs, b⟩) 4 := by
  have hB : ∀ q ≤ 4, OrderConditions RungeKutta4.A RungeKutta4.B q := fun q hq => OrderConditions.mono RungeKutta4_tree hq
  have ex := RungeKutta4_conditions (α := ℝ) |>.explicit
  exact ⟨C83_implicit (by norm_num) (r := 3) (by norm_num) le_rfl (by norm_num) (by norm_num) _ (stable_adams _ rfl) C30_AM3 lib hlib b
      ex RungeKutta4_rows (hB 3 (by norm_num)) _ _ _ _ _,
    C83_implicit (by norm_num) (r := 2) (by norm_num) le_rfl (by norm_num) (by norm_num) _ stable_BDF2 C31_BDF2 lib hlib b
      ex RungeKutta4_rows (hB 2 (by norm_num)) _ _ _ _ _,
    C83_implicit (by norm_num) (r := 3) (by norm_num) le_rfl (by norm_num) (by norm_num) _ stable_BDF3 C31_BDF3 lib hlib b
      ex RungeKutta4_rows (hB 3 (by norm_num)) _ _ _ _ _,
    C83_implicit (by norm_num) (r := 4) (by norm_num) le_rfl (by norm_num) le_rfl _ stable_BDF4 C31_BDF4 lib hlib b
      ex RungeKutta4_rows (hB 4 le_rfl) _ _ _ _ _⟩

/-- **C83**, `AdamsMoulton4`, `5`, `BDF5` and `BDF6` started with `RungeKutta4`: orders 1, 1, 4 and 4. Missing: the orders 4 and 5 of
the first two (`C70_AM_refuted`), the orders 5 and 6 of the last two, which the interpolation does not keep (`C81_refuted`). -/
theorem C83_started_partial (g4 : Buffer ℝ n (histExtra 2)) (g5 : Buffer ℝ n (histExtra 3)) (g5' : Buffer ℝ n (histExtra 4))
    (g6 : Buffer ℝ n (histExtra 5)) :
    StartEventsWithin (fun rhs t y h => multistepInit g4 bo argsort (erkStarter RungeKutta4 gs K) rhs t y (some h))
      (fun zo rhs => ⟨implicitMultistep lib zo AdamsMoulton4, rhs, b⟩) 1 ∧
    StartEventsWithin (fun rhs t y h => multistepInit g5 bo argsort (erkStarter RungeKutta4 gs K) rhs t y (some h))
      (fun zo rhs => ⟨implicitMultistep lib zo AdamsMoulton5, rhs, b⟩) 1 ∧
    StartEventsWithin (fun rhs t y h => multistepInit g5' bo argsort (erkStarter RungeKutta4 gs K) rhs t y (some h))
      (fun zo rhs => ⟨implicitMultistep lib zo BDF5, rhs, b⟩) 4 ∧
    StartEventsWithin (fun rhs t y h => multistepInit g6 bo argsort (erkStarter RungeKutta4 gs K) rhs t y (some h))
      (fun zo rhs => ⟨implicitMultistep lib zo BDF6, rhs, b⟩) 4 := by
  have hB : ∀ q ≤ 4, OrderConditions RungeKutta4.A RungeKutta4.B q := fun q hq => OrderConditions.mono RungeKutta4_tree hq
  have ex := RungeKutta4_conditions (α := ℝ) |>.explicit
  exact ⟨C83_implicit (by norm_num) (r := 1) le_rfl le_rfl (by norm_num) (by norm_num) _ (stable_adams _ rfl) C30_AM4_partial lib hlib b
      ex RungeKutta4_rows (hB 1 (by norm_num)) _ _ _ _ _,
    C83_implicit (by norm_num) (r := 1) le_rfl le_rfl (by norm_num) (by norm_num) _ (stable_adams _ rfl) C30_AM5_partial lib hlib b
      ex RungeKutta4_rows (hB 1 (by norm_num)) _ _ _ _ _,
    C83_implicit (by norm_num) (r := 4) (by norm_num) le_rfl (by norm_num) le_rfl _ stable_BDF5
      (ExactOnPolynomials.mono C31_BDF5 (show 4 ≤ 5 by norm_num)) lib hlib b ex RungeKutta4_rows (hB 4 le_rfl) _ _ _ _ _,
    C83_implicit (by norm_num) (r := 4) (by norm_num) le_rfl (by norm_num) le_rfl _ stable_BDF6
      (ExactOnPolynomials.mono C31_BDF6 (show 4 ≤ 6 by norm_num)) lib hlib b ex RungeKutta4_rows (hB 4 le_rfl) _ _ _ _ _⟩

end named

/-! ### Events during the start-up steps -/

/-- **C83**, what is missing for a given `h`: an event that happens before `t₀ + (ORDER - 1) h` along the true solution is not found. No
recorded time is before this time, whatever the event; and an event at a time `c` before it is not recorded at all. -/
theorem C83_startup_refuted (hp : p ≠ 0) (c : MultistepCoef ℝ p) (S : Solver ℝ n (histExtra p) Unit)
    (hS : S.method = explicitMultistep c ∨ ∃ lib zo, S.method = implicitMultistep lib zo c) (T : Tableau ℝ m)
    (g : Buffer ℝ n (histExtra p)) (bo : BisectOpts ℝ) (argsort : List ℝ → List Nat) (gs : Buffer ℝ n 0) (K : ErkAux ℝ n m)
    (t₀ : ℝ) (y₀ : Vec ℝ n) (h : ℝ) (hh : 0 < h) (s s' : St ℝ n (histExtra p) Unit)
    (hs : multistepInit g bo argsort (erkStarter T gs K) S.rhs t₀ y₀ (some h) = some (.ok s))
    (bo' : BisectOpts ℝ) (htol : 0 ≤ bo'.tol) (hA : ∀ l, IsArgsort l (argsort l)) (ts : List ℝ) (es : List (EventSpec ℝ n))
    (o : RunOut ℝ n (histExtra p)) (hrun : (S.runEvents bo' argsort ts (some es)).run s = some (.ok o, s')) (i : Nat)
    (e : EventSpec ℝ n) (tl : List ℝ) (he : es[i]? = some e) (htl : o.tEvents[i]? = some tl) :
    (∀ τ ∈ tl, t₀ + p * h ≤ τ) ∧ ∀ x, x < t₀ + p * h → (e.func = fun t _ => t - x) → tl = [] := by
  have hM : WellConfigured S.method := by
    rcases hS with e | ⟨lib, zo, e⟩ <;> rw [e]
    · exact Or.inl (.explicitMultistep _)
    · exact Or.inl (.implicitMultistep _ _ _)
  have hcon : Constructed S s := by
    obtain ⟨M, rhs, b⟩ := S
    rcases hS with e | ⟨lib, zo, e⟩ <;> (simp only at e; subst e)
    · exact .explicitMultistep c rhs b g bo argsort _ t₀ y₀ _ s hs
    · exact .implicitMultistep lib zo c rhs b g bo argsort _ t₀ y₀ _ s hs
  have hts := C34_erk_starter hp T gs K g bo argsort _ t₀ y₀ h s hs
  have hsh : s.h = h := by
    obtain ⟨_, _, _, _, -, -, -, -, rfl⟩ := multistepInit_fixed hp hs
    rfl
  have ho : Ordered s := fun i j hij => by
    rw [hts, hts]
    have : ((i : ℕ) : ℝ) ≤ ((j : ℕ) : ℝ) := by exact_mod_cast hij
    nlinarith
  have hst : s.t = t₀ + p * h := by
    have := hts (Buffer.iLast _)
    rw [show s.t = s.cache.ts (Buffer.iLast _) from rfl, this]
    congr 2
    have : (Buffer.iLast (histExtra p)).val = p := by
      show histExtra p + 1 = p
      unfold histExtra; omega
    exact_mod_cast this
  have hes : es ≠ [] := by rintro rfl; simp at he
  obtain ⟨l, q, h1, -, -, -, h3⟩ := C41_records S hM bo' htol argsort hA s s hcon ho (by rw [hsh]; exact hh) (.start s) ts es hes o s' hrun
  obtain ⟨-, h4, -⟩ := h3 i e tl he htl
  have after : ∀ u v, Consecutive (s :: l) u v → t₀ + p * h ≤ u.t ∧ t₀ + p * h ≤ v.t := by
    intro u v huv
    obtain ⟨l', h5, h6, h7⟩ := path_consecutive h1 huv
    have a1 := (path_pos hM h5 (by rw [hsh]; exact hh)).2
    have a2 := (path_pos hM (path_append h5 (.cons h6 h7 (.nil _))) (by rw [hsh]; exact hh)).2
    rw [hst] at a1 a2
    exact ⟨a1, a2⟩
  refine ⟨fun τ hτ => ?_, fun x hx hx' => ?_⟩
  · obtain ⟨u, v, huv, -, h5, -⟩ := h4 τ hτ
    exact (after u v huv).1.trans h5
  · refine List.eq_nil_iff_forall_not_mem.mpr fun τ hτ => ?_
    obtain ⟨u, v, huv, h5, -, -⟩ := h4 τ hτ
    obtain ⟨a1, a2⟩ := after u v huv
    have b1 : 0 < value e u := by unfold value; rw [hx']; exact sub_pos.mpr (hx.trans_le a1)
    have b2 : 0 < value e v := by unfold value; rw [hx']; exact sub_pos.mpr (hx.trans_le a2)
    have c1 : ¬ Upward (value e u) (value e v) := fun c => by linarith [c.1]
    have c2 : ¬ Downward (value e u) (value e v) := fun c => by linarith [c.2]
    unfold CrossesOn Crosses at h5
    cases hd : e.direction with
    | none => rw [hd] at h5; exact h5.elim c1 c2
    | some x =>
      rw [hd] at h5
      exact h5.elim (fun c => c1 c.2) fun c => c.elim (fun c => c2 c.2) fun c => c.2.elim c1 c2

open Demo in
/-- Non-vacuity for C83: `AdamsBashforth2` started with `RungeKutta4` on `y' = y²`, `y(0) = 1`, with the default search, the event
`y = 3/2`, which happens at `1/3`, and the event `t = h / 2`, in the middle of the start-up step. Any run with the events up to `1/2`, with
any small `h`, comes back, has a record of the first event in `[1/4, 2/5]`, each of them there is close to `1/3`, and has no record
of the second. -/
example (g : Buffer ℝ 1 (histExtra 1)) (g3 : Buffer ℝ 1 (histExtra 2)) (g4 : Buffer ℝ 1 (histExtra 3))
    (g5 : Buffer ℝ 1 (histExtra 4)) (argsort : List ℝ → List Nat) (hA : ∀ l, IsArgsort l (argsort l)) (gs : Buffer ℝ 1 0)
    (K : ErkAux ℝ 1 3) :
    ∃ C δ, 0 < δ ∧ ∀ h : ℝ, 0 < h → h ≤ δ → ∃ st o s' tl,
      multistepInit g .std argsort (erkStarter RungeKutta4 gs K) (pureRhs fun _ v i => v i ^ 2) 0 (fun _ => 1) (some h) = some (.ok st) ∧
      ((⟨explicitMultistep AdamsBashforth2, pureRhs fun _ v i => v i ^ 2, .inf⟩ : Solver ℝ 1 _ _).runEvents .std argsort [1 / 2]
        (some [⟨fun _ v => v 0 - 3 / 2, none, some 1⟩, ⟨fun t _ => t - h / 2, none, none⟩])).run st = some (.ok o, s') ∧
      o.tEvents = [tl, []] ∧ (∃ τ ∈ tl, 1 / 4 ≤ τ ∧ τ ≤ 2 / 5) ∧
      (∀ τ ∈ tl, 1 / 4 ≤ τ → τ ≤ 2 / 5 → |τ - 1 / 3| ≤ C * (148 / 10 ^ 10 + h + h / 2 ^ 50)) ∧
      ∀ τ ∈ tl, τ < 9 / 20 → |1 / (1 - τ) - 3 / 2| ≤ 148 / 10 ^ 10 + C * (h + h / 2 ^ 50) := by
  obtain ⟨hz, hcr⟩ := (C83_AB_partial (n := 1) .std argsort .inf gs K g g3 g4 g5).1
  obtain ⟨C1, δ1, hδ1, h1⟩ := hcr (fun _ v i => v i ^ 2) (fun t _ => 1 / (1 - t)) (-1) 1 0 (9 / 20)
    (fun _ v => v 0 - 3 / 2) (1 / 4) (1 / 3) (2 / 5) 1
    (square_smooth 1) (by norm_num) (by norm_num) square_solves height_smooth (by norm_num) (by norm_num) (by norm_num) (by norm_num)
    (by norm_num) (Or.inl rfl) height_slope
  obtain ⟨C2, δ2, hδ2, h2⟩ := hz (fun _ v i => v i ^ 2) (fun t _ => 1 / (1 - t)) (-1) 1 0 (9 / 20)
    (fun _ v => v 0 - 3 / 2) (square_smooth 1) (by norm_num) (by norm_num) (by norm_num) square_solves height_smooth
  refine ⟨max C1 C2, min (min δ1 δ2) (1 / 4), by positivity, fun h hh hδ => ?_⟩
  obtain ⟨s0, hst⟩ := C34_erk_starter_succeeds (by norm_num) RungeKutta4 gs K g .std argsort (fun _ v i => v i ^ 2) 0 (fun _ => 1) h
  have hts := C34_erk_starter (p := 1) (by norm_num) RungeKutta4 gs K g .std argsort _ 0 (fun _ => 1) h s0 hst
  have hsh : s0.h = h := by
    obtain ⟨_, _, _, _, -, -, -, -, rfl⟩ := multistepInit_fixed (p := 1) (by norm_num) hst
    rfl
  have ho : Ordered s0 := fun i j hij => by
    rw [hts, hts]
    have : ((i : ℕ) : ℝ) ≤ ((j : ℕ) : ℝ) := by exact_mod_cast hij
    nlinarith
  have ht0 : s0.t = h := by
    rw [show s0.t = s0.cache.ts (Buffer.iLast _) from rfl, hts]
    simp [Buffer.iLast, histExtra]
  have hp0 : 0 < s0.h := by rw [hsh]; exact hh
  have hst' : multistepInit g .std argsort (erkStarter RungeKutta4 gs K) (pureRhs fun _ v i => v i ^ 2) 0 (fun _ => 1 / (1 - 0))
      (some h) = some (.ok s0) := by
    rw [← hst]; norm_num
  set S : Solver ℝ 1 (histExtra 1) Unit := ⟨explicitMultistep AdamsBashforth2, pureRhs (n := 1) fun _ v i => v i ^ 2, .inf⟩ with hS
  have hM : WellConfigured S.method := Or.inl (.explicitMultistep _)
  have hcon : Constructed S s0 := .explicitMultistep _ _ _ g .std argsort _ _ _ _ s0 hst
  have htol : (0 : ℝ) ≤ (BisectOpts.std : BisectOpts ℝ).tol := by
    show (0 : ℝ) ≤ ((148 : Nat) : ℝ) / ((10 ^ 10 : Nat) : ℝ)
    positivity
  have etol : (BisectOpts.std : BisectOpts ℝ).tol = 148 / 10 ^ 10 := by
    show ((148 : Nat) : ℝ) / ((10 ^ 10 : Nat) : ℝ) = _
    norm_num
  have emax : (BisectOpts.std : BisectOpts ℝ).maxiter = 50 := rfl
  set es : List (EventSpec ℝ 1) := [⟨fun _ v => v 0 - 3 / 2, none, some 1⟩, ⟨fun t _ => t - h / 2, none, none⟩] with hes
  have hnt : ∀ e ∈ es, e.terminal ≠ some true := by simp [hes]
  have hq : h ≤ 1 / 4 := hδ.trans (min_le_right _ _)
  obtain ⟨out, s1, g1, g2⟩ := C69_answers_fixed S (.explicitMultistep _)
    (.explicitMultistep _) rfl (by rintro e ⟨t, y, h⟩; cases h) .std argsort hA [1 / 2] (by simp) s0 ho hp0
    (fun x hx => ⟨by
      rw [hts]; simp only [List.mem_singleton] at hx; rw [hx]
      simp [Buffer.iOld], trivial⟩)
  have hfut : ∀ x ∈ [(1 / 2 : ℝ)], s0.t < x := fun x hx => by
    rw [ht0, List.mem_singleton.mp hx]; linarith
  obtain ⟨o, s', g3, g4, g5⟩ : ∃ (o : RunOut ℝ 1 (histExtra 1)) (s' : St ℝ 1 (histExtra 1) Unit),
      (S.runEvents .std argsort [1 / 2] (some es)).run s0 = some (.ok o, s') ∧ o.out = out ∧ Alike S .std argsort s' s1 :=
    C46_returns_partial S hM .std htol (by decide) argsort hA (fun _ _ => ⟨_, rfl⟩) s0 s0 hcon
    ho hp0 (.start _) [1 / 2] hfut es hnt out s1 g1
  have hlen : out.length = 1 := by rw [← List.length_map (f := Prod.fst), g2]; rfl
  have hend : 1 / 2 ≤ s1.t := (C79_time S hM .std argsort hA s0 s0 hcon ho hp0 (.start _) [1 / 2] (1 / 2)
    (by simp) (by simp) out s1 g1).mpr hlen
  have e : s'.t = s1.t := by unfold St.t; rw [g5.1]
  obtain ⟨_, -, -, -, -, hlen', -⟩ := C41_records S hM .std htol argsort hA s0 s0 hcon ho hp0 (.start _) [1 / 2] es (by simp [hes]) o s' g3
  obtain ⟨tl, tl2, htl⟩ : ∃ tl tl2, o.tEvents = [tl, tl2] := by
    rw [hes] at hlen'
    match h : o.tEvents, hlen' with
    | [x, y], _ => exact ⟨x, y, rfl⟩
  have hx1 := h1 .std argsort htol hA h s0 s' [1 / 2] es o hh (hδ.trans ((min_le_left _ _).trans (min_le_left _ _))) hst' g3 0 _ tl rfl rfl
    (by rw [htl]; rfl)
  have hx2 := h2 .std argsort htol hA h s0 s' [1 / 2] es o hh (hδ.trans ((min_le_left _ _).trans (min_le_right _ _))) hst' g3 0 _ tl rfl rfl
    (by rw [htl]; rfl)
  have hx3 := (C83_startup_refuted (by norm_num) AdamsBashforth2 S (Or.inl rfl) RungeKutta4 g .std argsort gs K 0 (fun _ => 1) h hh s0 s' hst
    .std htol hA [1 / 2] es o g3 1 _ tl2 rfl (by rw [htl]; rfl)).2 (h / 2) (by norm_num; linarith) rfl
  rw [etol, emax, pow_one] at hx1 hx2
  refine ⟨s0, o, s', tl, hst, g3, by rw [htl, hx3], hx1.1 (by rw [e]; linarith) (by simp), fun τ hτ k1 k2 => ?_, fun τ hτ k1 => ?_⟩
  · exact (hx1.2 τ hτ k1 k2).trans (mul_le_mul_of_nonneg_right (le_max_left _ _) (by positivity))
  · exact (hx2 τ hτ k1).trans (by
      have : C2 * (h + h / 2 ^ 50) ≤ max C1 C2 * (h + h / 2 ^ 50) := mul_le_mul_of_nonneg_right (le_max_right _ _) (by positivity)
      linarith)

theorem half_slope (t : ℝ) (_ : t ∈ Set.Icc (1 / 2 : ℝ) (4 / 5)) :
    0 < (-1 : ℝ) * deriv (fun t : ℝ => Real.exp (-t) - 1 / 2) t := by
  have h1 : HasDerivAt (fun t : ℝ => Real.exp (-t) - 1 / 2) (Real.exp (-t) * -1) t :=
    ((hasDerivAt_id t).fun_neg.exp).sub_const _
  rw [h1.deriv]
  have := Real.exp_pos (-t)
  linarith

open Demo in
/-- Non-vacuity for C83: `BDF2` started with `RungeKutta4` on `y' = -y`, `y(0) = 1`, with the default search and the event `y = 1/2`, which
happens at `log 2`. For small `h` and a small tolerance of the root finder any run with the event up to `1` comes back, has a
record in `[1/2, 4/5]`, and each record there is close to `log 2`. -/
example (g : Buffer ℝ 1 (histExtra 1)) (g3 : Buffer ℝ 1 (histExtra 2)) (g4 : Buffer ℝ 1 (histExtra 3))
    (argsort : List ℝ → List Nat) (hA : ∀ l, IsArgsort l (argsort l)) (gs : Buffer ℝ 1 0) (K : ErkAux ℝ 1 3) :
    ∃ C δ, 0 < δ ∧ ∀ h ε : ℝ, 0 < h → h ≤ δ → 0 ≤ ε → ε / h ≤ δ → ∃ st o s' tl,
      multistepInit g .std argsort (erkStarter RungeKutta4 gs K) (pureRhs fun _ v i => -1 * v i + 0) 0 (fun _ => 1) (some h) =
        some (.ok st) ∧
      ((⟨implicitMultistep realLib { realZeros with tol := ε } BDF2, pureRhs fun _ v i => -1 * v i + 0, .inf⟩ :
        Solver ℝ 1 _ _).runEvents .std argsort [1] (some [⟨fun _ v => v 0 - 1 / 2, none, some (-1)⟩])).run st = some (.ok o, s') ∧
      o.tEvents = [tl] ∧ (∃ τ ∈ tl, 1 / 2 ≤ τ ∧ τ ≤ 4 / 5) ∧
      (∀ τ ∈ tl, 1 / 2 ≤ τ → τ ≤ 4 / 5 → |τ - Real.log 2| ≤ C * (148 / 10 ^ 10 + h ^ 2 + ε / h + h / 2 ^ 50)) ∧
      ∀ τ ∈ tl, τ < 9 / 10 → |Real.exp (-τ) - 1 / 2| ≤ 148 / 10 ^ 10 + C * (h ^ 2 + ε / h + h / 2 ^ 50) := by
  obtain ⟨hz, hcr⟩ := (C83_started (n := 1) .std argsort realLib (fun _ => rfl) .inf gs K g g3 g4).2.1
  have hsm : ContDiff ℝ 2 (joint (n := 1) fun _ v i => -1 * v i + 0) :=
    contDiff_pi.mpr fun i => (contDiff_const.mul ((contDiff_apply ℝ ℝ i).comp contDiff_snd)).add contDiff_const
  have hlip : ∀ (t : ℝ) (u v : Vec ℝ 1) (d : Fin 1), |(-1 * u d + 0) - (-1 * v d + 0)| ≤ 1 * ‖(u - v : Fin 1 → ℝ)‖ := by
    intro _ u v d
    have h1 := norm_le_pi_norm (u - v : Fin 1 → ℝ) d
    have e : -1 * u d + 0 - (-1 * v d + 0) = -(u d - v d) := by ring
    rw [e, abs_neg, one_mul]
    exact h1
  have hev : ContDiff ℝ 1 (jointEvent (n := 1) fun _ v => v 0 - 1 / 2) := by
    unfold jointEvent
    fun_prop
  obtain ⟨C1, δ1, hδ1, h1⟩ := hcr (fun _ v i => -1 * v i + 0) (fun t _ => Real.exp (-t)) (-1) 1 0 (9 / 10) 1
    (fun _ v => v 0 - 1 / 2) (1 / 2) (Real.log 2) (4 / 5) (-1) hsm (by norm_num) (by norm_num) (fun t _ => exp_solves t) hlip hev
    (by norm_num) (by linarith [Real.log_two_gt_d9]) (by linarith [Real.log_two_lt_d9]) (by norm_num)
    (by simp only; rw [Real.exp_neg, Real.exp_log (by norm_num)]; norm_num) (Or.inr rfl) half_slope
  obtain ⟨C2, δ2, hδ2, h2⟩ := hz (fun _ v i => -1 * v i + 0) (fun t _ => Real.exp (-t)) (-1) 1 0 (9 / 10) 1
    (fun _ v => v 0 - 1 / 2) hsm (by norm_num) (by norm_num) (by norm_num) (fun t _ => exp_solves t) hlip hev
  refine ⟨max C1 C2, min (min δ1 δ2) (1 / 4), by positivity, fun h ε hh hδ hε hεδ => ?_⟩
  obtain ⟨s0, hst⟩ := C34_erk_starter_succeeds (by norm_num) RungeKutta4 gs K g .std argsort (fun _ v i => -1 * v i + 0) 0 (fun _ => 1) h
  have hts := C34_erk_starter (p := 1) (by norm_num) RungeKutta4 gs K g .std argsort _ 0 (fun _ => 1) h s0 hst
  have hsh : s0.h = h := by
    obtain ⟨_, _, _, _, -, -, -, -, rfl⟩ := multistepInit_fixed (p := 1) (by norm_num) hst
    rfl
  have ho : Ordered s0 := fun i j hij => by
    rw [hts, hts]
    have : ((i : ℕ) : ℝ) ≤ ((j : ℕ) : ℝ) := by exact_mod_cast hij
    nlinarith
  have ht0 : s0.t = h := by
    rw [show s0.t = s0.cache.ts (Buffer.iLast _) from rfl, hts]
    simp [Buffer.iLast, histExtra]
  have hp0 : 0 < s0.h := by rw [hsh]; exact hh
  have hst' : multistepInit g .std argsort (erkStarter RungeKutta4 gs K) (pureRhs fun _ v i => -1 * v i + 0) 0
      (fun _ => Real.exp (-0)) (some h) = some (.ok s0) := by
    rw [← hst]; simp
  set zo : ZeroOpts ℝ := { realZeros with tol := ε } with hzo
  have z1 : (0 : ℝ) < zo.secantEps := by norm_num [hzo, realZeros]
  set S : Solver ℝ 1 (histExtra 1) Unit := ⟨implicitMultistep realLib zo BDF2, pureRhs (n := 1) fun _ v i => -1 * v i + 0, .inf⟩ with hS
  have hM : WellConfigured S.method := Or.inl (.implicitMultistep _ _ _)
  have hcon : Constructed S s0 := .implicitMultistep _ _ _ _ _ g .std argsort _ _ _ _ s0 hst
  have htol : (0 : ℝ) ≤ (BisectOpts.std : BisectOpts ℝ).tol := by
    show (0 : ℝ) ≤ ((148 : Nat) : ℝ) / ((10 ^ 10 : Nat) : ℝ)
    positivity
  have etol : (BisectOpts.std : BisectOpts ℝ).tol = 148 / 10 ^ 10 := by
    show ((148 : Nat) : ℝ) / ((10 ^ 10 : Nat) : ℝ) = _
    norm_num
  have emax : (BisectOpts.std : BisectOpts ℝ).maxiter = 50 := rfl
  set es : List (EventSpec ℝ 1) := [⟨fun _ v => v 0 - 1 / 2, none, some (-1)⟩] with hes
  have hnt : ∀ e ∈ es, e.terminal ≠ some true := by simp [hes]
  have hq : h ≤ 1 / 4 := hδ.trans (min_le_right _ _)
  obtain ⟨m, hm⟩ := exists_nat_gt (1 / h)
  rw [div_lt_iff₀ hh] at hm
  obtain ⟨l, v, hl, hp⟩ := implicit_paths (p := 1) (c := BDF2) realLib zo z1 hε le_rfl .inf m s0 (by
      have : (0 : ℝ) < 1 - s0.h * (BDF2 (α := ℝ)).Bn * (-1) := by
        rw [hsh]; simp [BDF2, q]; positivity
      exact this.ne')
  have hvt : ¬ v.t < 1 := by
    rw [(path_grid (.implicitMultistep _ _ _) hp).2.1, hl, hsh, ht0]
    linarith
  obtain ⟨s1, hs1⟩ := path_reaches hp hvt
  obtain ⟨w, g1⟩ := run_one (S := S) (.implicitMultistep _ _ _) rfl .std argsort ho hp0 (t := 1) (by
    rw [hts]
    simp [Buffer.iOld]) hs1
  have hfut : ∀ x ∈ [(1 : ℝ)], s0.t < x := fun x hx => by
    rw [ht0, List.mem_singleton.mp hx]; linarith
  obtain ⟨o, s', g3, g4, g5⟩ : ∃ (o : RunOut ℝ 1 (histExtra 1)) (s' : St ℝ 1 (histExtra 1) Unit),
      (S.runEvents .std argsort [1] (some es)).run s0 = some (.ok o, s') ∧ o.out = [(1, w)] ∧ Alike S .std argsort s' s1 :=
    C46_returns_partial S hM .std htol (by decide) argsort hA (fun _ _ => ⟨_, rfl⟩) s0 s0 hcon
    ho hp0 (.start _) [1] hfut es hnt _ s1 g1
  have hend : 1 ≤ s1.t := (C79_time S hM .std argsort hA s0 s0 hcon ho hp0 (.start _) [1] 1
    (by simp) (by simp) _ s1 g1).mpr rfl
  have e : s'.t = s1.t := by unfold St.t; rw [g5.1]
  obtain ⟨_, -, -, -, -, hlen', -⟩ := C41_records S hM .std htol argsort hA s0 s0 hcon ho hp0 (.start _) [1] es (by simp [hes]) o s' g3
  obtain ⟨tl, htl⟩ : ∃ tl, o.tEvents = [tl] := by
    rw [hes] at hlen'
    match h : o.tEvents, hlen' with
    | [x], _ => exact ⟨x, rfl⟩
  have hzr : RootOpts zo := ⟨z1, hε, rfl⟩
  have hx1 := h1 zo hzr .std argsort htol hA h s0 s' [1] es o hh (hδ.trans ((min_le_left _ _).trans (min_le_left _ _)))
    (hεδ.trans ((min_le_left _ _).trans (min_le_left _ _))) hst' g3 0 _ tl rfl rfl (by rw [htl]; rfl)
  have hx2 := h2 zo hzr .std argsort htol hA h s0 s' [1] es o hh (hδ.trans ((min_le_left _ _).trans (min_le_right _ _)))
    (hεδ.trans ((min_le_left _ _).trans (min_le_right _ _))) hst' g3 0 _ tl rfl rfl (by rw [htl]; rfl)
  rw [etol, emax] at hx1 hx2
  have a1 : 0 ≤ ε / h := by positivity
  refine ⟨s0, o, s', tl, hst, g3, htl, hx1.1 (by rw [e]; linarith) (by simp), fun τ hτ k1 k2 => ?_, fun τ hτ k1 => ?_⟩
  · exact (hx1.2 τ hτ k1 k2).trans (mul_le_mul_of_nonneg_right (le_max_left _ _) (by positivity))
  · exact (hx2 τ hτ k1).trans (by
      have : C2 * (h ^ 2 + ε / h + h / 2 ^ 50) ≤ max C1 C2 * (h ^ 2 + ε / h + h / 2 ^ 50) :=
        mul_le_mul_of_nonneg_right (le_max_right _ _) (by positivity)
      linarith)

end Nbkode
