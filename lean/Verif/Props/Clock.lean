import Verif.Proofs.Clock
import Verif.Props.Startup

/-!
# C98: time as a component of the state

A time-dependent problem `y' = f(t, y)` can be passed in autonomous form, `(y, u)' = (f(u, y), 1)` from `(y0, t0)`. With the explicit
fixed-step methods nothing changes: every call returns what it returns for the problem itself, with the clock as an additional component.
-/

set_option autoImplicit false
set_option linter.unusedSectionVars false

namespace Nbkode
open Py Spec Solver

section field
variable {α : Type} [Field α] [LinearOrder α] [IsStrictOrderedRing α] [BEq α] [LawfulBEq α]
variable {n k s p : Nat} {X : Type}

/-- The problem with a clock that is not looked at. -/
def idleClock (rhs : Rhs α n) : Rhs α (n + 1) := fun t z => (rhs t fun i => z i.castSucc).map fun f => addClock f 1

theorem addClock_last (y : Vec α n) (t : α) : addClock y t (Fin.last n) = t := Fin.snoc_last (α := fun _ => α) _ _

theorem addClock_init (y : Vec α n) (t : α) : (fun i : Fin n => addClock y t i.castSucc) = y := by
  funext i
  exact Fin.snoc_castSucc (α := fun _ => α) _ _ _

theorem idle_agree (rhs : Rhs α n) : Agree (Fin.last n) (autonomous rhs) (idleClock rhs) := by
  have key : ∀ e : Except Err (Vec α n), ∀ f, e.map (fun f => addClock f 1) = .ok f → f (Fin.last n) = 1 := by
    rintro (e | g) f h <;> cases h
    exact addClock_last _ _
  refine ⟨?_, fun t z f h => key _ f h, fun t z f h => key _ f h⟩
  rintro t z rfl
  rfl

theorem drop_time (t : α) : (dropClock α n).time t = t := by simp [Change.time, dropClock]

theorem drop_lin (z : Vec α (n + 1)) : (dropClock α n).lin z = fun i => z i.castSucc := by
  funext i
  simp [Change.lin, dropClock]

theorem drop_state (z : Vec α (n + 1)) : (dropClock α n).state z = fun i => z i.castSucc := by
  funext i
  simp only [Change.state, drop_lin]
  simp [dropClock]

theorem drop_slope (z : Vec α (n + 1)) : (dropClock α n).slope z = fun i => z i.castSucc := by
  funext i
  simp only [Change.slope, drop_lin]
  simp [dropClock]

theorem drop_bound (b : Bound α) : (dropClock α n).bound b = b := by
  cases b <;> simp [Change.bound, drop_time]

theorem drop_transforms (rhs : Rhs α n) : (dropClock α n).Transforms (idleClock rhs) rhs := by
  intro t z
  rw [drop_time, drop_state]
  unfold idleClock
  cases rhs t fun i => z i.castSucc with
  | error e => rfl
  | ok f =>
    show _ = Except.ok _
    rw [drop_slope, addClock_init]

theorem clock_interp {M : Method α n k X} (hM : IsFixed M) (d : Fin n) (rhs rhs' : Rhs α n) (hi : ∀ t, M.interp rhs t = M.interp rhs' t)
    (x : St α n k X) (t : α) (hx : Ticks d x.cache) : (M.interp rhs t).run x = (M.interp rhs' t).run x ∧
      ∀ r x', (M.interp rhs t).run x = some (r, x') → Ticks d x'.cache ∧ x'.cache = x.cache := by
  refine ⟨by rw [hi], fun r x' h => ?_⟩
  obtain ⟨h1, -⟩ := hM.shaped.toShaped.interp rhs t x r x' h
  exact ⟨h1 ▸ hx, h1⟩

theorem clock_solverInit {d : Fin n} {rhs rhs' : Rhs α n} (hf : Agree d rhs rhs') (g : Buffer α n k) (aux : X) {t0 : α} {y0 : Vec α n} (hy : y0 d = t0)
    (h : Option α) : solverInit g aux rhs t0 y0 h = solverInit g aux rhs' t0 y0 h ∧
      ∀ x, solverInit g aux rhs t0 y0 h = .ok x → Ticks d x.cache := by
  refine ⟨by unfold solverInit; rw [hf.same t0 y0 hy], fun x hx => ?_⟩
  obtain ⟨f0, h0, hc, -⟩ := solverInit_ok hx
  rw [hc]
  exact ticks_init g hy (hf.unit _ _ _ h0)

theorem startFixed_clock {k' : Nat} {X' : Type} {M : Method α n k' X'} {d : Fin n} {rhs rhs' : Rhs α n}
    (hbody : ∀ x, Ticks d x.cache → (M.body rhs).run x = (M.body rhs').run x ∧ ∀ r x', (M.body rhs).run x = some (r, x') → Ticks d x'.cache)
    (q : Nat) : ∀ (x : St α n k' X') (c : Buffer α n k), Ticks d x.cache → Ticks d c →
      (startFixed ⟨M, rhs, .inf⟩ q c).run x = (startFixed ⟨M, rhs', .inf⟩ q c).run x ∧
      ∀ c' x', (startFixed ⟨M, rhs, .inf⟩ q c).run x = some (.ok c', x') → Ticks d c' := by
  induction q with
  | zero => intro x c _ hc; exact ⟨rfl, fun c' x' h => by cases h; exact hc⟩
  | succ q ih =>
    intro x c hx hc
    obtain ⟨e1, e2⟩ := hbody x hx
    rw [startFixed, startFixed]
    simp only [run_bind, step_none_run, pstep_run, Bound.exceededBy, Bool.false_eq_true, if_false, ← e1]
    cases e : (M.body rhs).run x with
    | none => exact ⟨rfl, fun c' x' h => by cases h⟩
    | some z =>
      obtain ⟨r, x'⟩ := z
      cases r with
      | error e => exact ⟨rfl, fun c' x' h => by cases h⟩
      | ok u =>
        have hx' := e2 _ _ e
        simp only [andThen_ok, if_true, run_get]
        exact ih x' _ hx' (hc.push (hx'.ys _) (hx'.fs _))

theorem clock_multistepInit {d : Fin n} {rhs rhs' : Rhs α n} (hf : Agree d rhs rhs') {T : Tableau α s} (hT : KeepsTime T)
    (g : Buffer α n (histExtra p)) (bo : BisectOpts α) (argsort : List α → List Nat) (gs : Buffer α n 0) (K : ErkAux α n s) (starter : Starter α n)
    (hs : starter = .none ∨ starter = erkStarter T gs K) {t0 : α} {y0 : Vec α n} (hy : y0 d = t0) (h : α) :
    multistepInit g bo argsort starter rhs t0 y0 (some h) = multistepInit g bo argsort starter rhs' t0 y0 (some h) ∧
      ∀ x, multistepInit g bo argsort starter rhs t0 y0 (some h) = some (.ok x) → Ticks d x.cache := by
  obtain ⟨e1, e2⟩ := clock_solverInit hf g () hy (some h)
  unfold multistepInit
  rw [← e1]
  cases h0 : solverInit g () rhs t0 y0 (some h) with
  | error e => exact ⟨rfl, fun x h => by cases h⟩
  | ok x =>
    have hx := e2 x h0
    have hyx : x.y d = x.t := hx.ys _
    dsimp only
    by_cases hp : p = 0
    · rw [if_pos hp, if_pos hp]
      exact ⟨rfl, fun x' h => by cases h; exact hx.pushN hyx (hx.fs _) _⟩
    · rw [if_neg hp, if_neg hp]
      rcases hs with rfl | rfl
      · exact ⟨rfl, fun x' h => by cases h; exact hx.pushN hyx (hx.fs _) _⟩
      · simp only [erkStarter]
        obtain ⟨g1, g2⟩ := clock_solverInit hf gs K hyx (some x.h)
        have g1 : erkInit gs K rhs x.t x.y (some x.h) = erkInit gs K rhs' x.t x.y (some x.h) := g1
        rw [← g1]
        cases h1 : erkInit gs K rhs x.t x.y (some x.h) with
        | error e => exact ⟨rfl, fun x' h => by cases h⟩
        | ok z =>
          obtain ⟨k1, k2⟩ := startFixed_clock (k := histExtra p) (M := erk T) (erk_clock hT hf) p z x.cache (g2 z h1) hx
          simp only [runFrom]
          rw [← k1]
          cases h2 : (startFixed ⟨erk T, rhs, .inf⟩ p x.cache).run z with
          | none => exact ⟨rfl, fun x' h => by cases h⟩
          | some w =>
            obtain ⟨r, z'⟩ := w
            cases r with
            | error e => exact ⟨rfl, fun x' h => by cases h⟩
            | ok c => exact ⟨rfl, fun x' h => by cases h; exact k2 _ _ h2⟩

variable (rhs : Rhs α n) (b : Bound α) (bo : BisectOpts α) (argsort : List α → List Nat) (hA : ∀ l, IsArgsort l (argsort l))
  (ha : ComparisonSort argsort) (cs : List (Call α (n + 1))) (cs' : List (Call α n)) (hc : List.Forall₂ (dropClock α n).SameCall cs cs')
  (t0 : α) (y0 : Vec α n) (h : α)

include hA ha hc

/-- C98: explicit Runge-Kutta methods whose nodes are the row sums and whose weights add up to one. -/
theorem C98_erk (T : Tableau α s) (hT : KeepsTime T) (g : Buffer α n 0) (g' : Buffer α (n + 1) 0) (K : ErkAux α n s) (K' : ErkAux α (n + 1) s) :
    observe ⟨erk T, rhs, b⟩ bo argsort cs' (some (erkInit g K rhs t0 y0 (some h))) =
      (observe ⟨erk T, autonomous rhs, b⟩ bo argsort cs (some (erkInit g' K' (autonomous rhs) t0 (addClock y0 t0) (some h)))).map
        (Except.map (dropClock α n).seen) := by
  have h1 := C74_erk T (dropClock α n) one_pos (idleClock rhs) rhs (drop_transforms rhs) b bo argsort hA ha cs cs' hc g' g K' K t0 (addClock y0 t0) h
  rw [drop_bound, drop_time, drop_state, addClock_init, show (dropClock α n).lam = 1 from rfl, one_mul] at h1
  rw [h1]
  congr 1
  obtain ⟨e1, e2⟩ := clock_solverInit (idle_agree rhs) g' K' (addClock_last y0 t0) (some h)
  exact (same_observe (fun x => Ticks (Fin.last n) x.cache) (erk_clock hT (idle_agree rhs)) (fun x t hx => clock_interp (.erk T) _ _ _ (fun _ => rfl) x t hx)
    bo argsort hA cs (congrArg some e1) fun x hx => e2 x (Option.some.inj hx)).symm

/-- C98: the Adams-Bashforth methods, without a starter. -/
theorem C98_adams_bashforth (c : MultistepCoef α p) (hcA : c.A = adamsA p) (hcB : ∑ j, c.B j = 1) (g : Buffer α n (histExtra p))
    (g' : Buffer α (n + 1) (histExtra p)) :
    observe ⟨explicitMultistep c, rhs, b⟩ bo argsort cs' (multistepInit g bo argsort .none rhs t0 y0 (some h)) =
      (observe ⟨explicitMultistep c, autonomous rhs, b⟩ bo argsort cs
        (multistepInit g' bo argsort .none (autonomous rhs) t0 (addClock y0 t0) (some h))).map (Except.map (dropClock α n).seen) := by
  have hcf : ∑ j, c.A j = -1 := by
    rw [hcA, Finset.sum_eq_single (Fin.last p)]
    · simp [adamsA]
    · intro j _ hj
      have : j.val ≠ p := fun h => hj (Fin.ext h)
      simp [adamsA, this]
    · simp
  have h1 := (C74_explicit_multistep c hcf (dropClock α n) one_pos (idleClock rhs) rhs (drop_transforms rhs) b bo argsort hA ha cs cs' hc g' g
    (T := (⟨fun _ _ => 0, fun _ => 1, fun _ => 0⟩ : Tableau α 0)) (gT := ⟨0, 0, 0⟩) (gT' := ⟨0, 0, 0⟩) (K := 0) (K' := 0) t0 (addClock y0 t0) h).1
  rw [drop_bound, drop_time, drop_state, addClock_init, show (dropClock α n).lam = 1 from rfl, one_mul] at h1
  rw [h1]
  congr 1
  obtain ⟨e1, e2⟩ := clock_multistepInit (idle_agree rhs) (T := (⟨fun _ _ => 0, fun _ => 1, fun _ => 0⟩ : Tableau α 0))
    ⟨fun _ _ _ => rfl, fun _ => by simp, by simp⟩ g' bo argsort ⟨0, 0, 0⟩ 0 .none (Or.inl rfl) (addClock_last y0 t0) h
  exact (same_observe (fun x => Ticks (Fin.last n) x.cache) (explicit_clock hcA hcB (idle_agree rhs))
    (fun x t hx => clock_interp (.explicitMultistep c) _ _ _ (fun _ => rfl) x t hx) bo argsort hA cs e1 e2).symm

/-- C98: the Adams-Bashforth methods, started with such a Runge-Kutta method. -/
theorem C98_adams_bashforth_started (c : MultistepCoef α p) (hcA : c.A = adamsA p) (hcB : ∑ j, c.B j = 1) (T : Tableau α s) (hT : KeepsTime T)
    (g : Buffer α n (histExtra p)) (g' : Buffer α (n + 1) (histExtra p)) (gs : Buffer α n 0) (gs' : Buffer α (n + 1) 0) (K : ErkAux α n s)
    (K' : ErkAux α (n + 1) s) :
    observe ⟨explicitMultistep c, rhs, b⟩ bo argsort cs' (multistepInit g bo argsort (erkStarter T gs K) rhs t0 y0 (some h)) =
      (observe ⟨explicitMultistep c, autonomous rhs, b⟩ bo argsort cs
        (multistepInit g' bo argsort (erkStarter T gs' K') (autonomous rhs) t0 (addClock y0 t0) (some h))).map (Except.map (dropClock α n).seen) := by
  have hcf : ∑ j, c.A j = -1 := by
    rw [hcA, Finset.sum_eq_single (Fin.last p)]
    · simp [adamsA]
    · intro j _ hj
      have : j.val ≠ p := fun h => hj (Fin.ext h)
      simp [adamsA, this]
    · simp
  have h1 := (C74_explicit_multistep c hcf (dropClock α n) one_pos (idleClock rhs) rhs (drop_transforms rhs) b bo argsort hA ha cs cs' hc g' g
    T gs' gs K' K t0 (addClock y0 t0) h).2
  rw [drop_bound, drop_time, drop_state, addClock_init, show (dropClock α n).lam = 1 from rfl, one_mul] at h1
  refine h1.trans ?_
  congr 1
  obtain ⟨e1, e2⟩ := clock_multistepInit (idle_agree rhs) hT g' bo argsort gs' K' (erkStarter T gs' K') (Or.inr rfl) (addClock_last y0 t0) h
  exact (same_observe (fun x => Ticks (Fin.last n) x.cache) (explicit_clock hcA hcB (idle_agree rhs))
    (fun x t hx => clock_interp (.explicitMultistep c) _ _ _ (fun _ => rfl) x t hx) bo argsort hA cs e1 e2).symm

omit hA ha hc in
/-- C98: the registered explicit fixed-step methods are of these kinds. -/
theorem C98_registered : KeepsTime (Runge2 : Tableau α 1) ∧ KeepsTime (Runge3 : Tableau α 3) ∧ KeepsTime (Heun3 : Tableau α 2) ∧
    KeepsTime (RungeKutta4 : Tableau α 3) ∧ KeepsTime (RungeKutta3_8 : Tableau α 3) ∧
    ((ForwardEuler : MultistepCoef α 0).A = adamsA 0 ∧ ∑ j, (ForwardEuler : MultistepCoef α 0).B j = 1) ∧
    ((AdamsBashforth2 : MultistepCoef α 1).A = adamsA 1 ∧ ∑ j, (AdamsBashforth2 : MultistepCoef α 1).B j = 1) ∧
    ((AdamsBashforth3 : MultistepCoef α 2).A = adamsA 2 ∧ ∑ j, (AdamsBashforth3 : MultistepCoef α 2).B j = 1) ∧
    ((AdamsBashforth4 : MultistepCoef α 3).A = adamsA 3 ∧ ∑ j, (AdamsBashforth4 : MultistepCoef α 3).B j = 1) ∧
    ((AdamsBashforth5 : MultistepCoef α 4).A = adamsA 4 ∧ ∑ j, (AdamsBashforth5 : MultistepCoef α 4).B j = 1) := by
  refine ⟨⟨?_, ?_, ?_⟩, ⟨?_, ?_, ?_⟩, ⟨?_, ?_, ?_⟩, ⟨?_, ?_, ?_⟩, ⟨?_, ?_, ?_⟩, ⟨rfl, ?_⟩, ⟨rfl, ?_⟩, ⟨rfl, ?_⟩, ⟨rfl, ?_⟩, ⟨rfl, ?_⟩⟩
  all_goals first
    | (intro i j hij; fin_cases i <;> fin_cases j <;> first | rfl | exact absurd hij (by decide))
    | (intro i; fin_cases i <;> simp [Fin.sum_univ_succ, Runge2, Runge3, Heun3, RungeKutta4, RungeKutta3_8, q] <;> norm_num)
    | (simp [Fin.sum_univ_succ, Runge2, Runge3, Heun3, RungeKutta4, RungeKutta3_8, ForwardEuler, AdamsBashforth1, AdamsBashforth2, AdamsBashforth3,
        AdamsBashforth4, AdamsBashforth5, q] <;> norm_num)

end field
end Nbkode
