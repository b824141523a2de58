import Verif.Proofs.EventsTotal
import Verif.Props.Terminal
import Verif.Props.EventDemo

/-!
# C48, C50: which calls with events succeed
-/

set_option autoImplicit false
set_option linter.unusedSectionVars false

namespace Nbkode
open Py Spec Solver

section order
variable {α : Type} [LinearOrder α]
variable [Add α] [Sub α] [Mul α] [Div α] [Neg α] [Zero α] [One α] [NatCast α] [BEq α]
variable {n k : Nat} {X : Type}

/-- **C48 refuted** for every solver, events and times: with a requested time not after the current one, `run_events` with events
never returns. -/
theorem C48_past_refuted (S : Solver α n k X) (bo : BisectOpts α) (argsort : List α → List Nat)
    (hA : ∀ l, IsArgsort l (argsort l)) (ts : List α) (es : List (EventSpec α n)) (hes : es ≠ []) (s : St α n k X)
    (x : α) (hx : x ∈ ts) (hxs : x ≤ s.t) :
    ¬ ∃ o s', (S.runEvents bo argsort ts (some es)).run s = some (.ok o, s') := by
  rintro ⟨o, s', h⟩
  exact absurd ((runEvents_ok hA hes h).1 x hx) (not_lt.mpr hxs)

end order

section field
variable {α : Type} [Field α] [LinearOrder α] [IsStrictOrderedRing α] [BEq α] [LawfulBEq α]

/-- **C50**, what holds: for a method which keeps two points of history, and a right-hand side that does not raise, `run_events` on
future times in order and in range raises only what an integration step raised. Missing: methods which keep more points, see
`C50_refuted`. -/
theorem C50_search_total_partial {n : Nat} {X : Type} (S : Solver α n 0 X) (hM : WellConfigured S.method) (bo : BisectOpts α)
    (htol : 0 ≤ bo.tol) (hmax : bo.maxiter ≠ 0) (argsort : List α → List Nat) (hf : ∀ t y, ∃ f, S.rhs t y = .ok f)
    (s0 s : St α n 0 X) (hc : Constructed S s0) (ho : Ordered s0) (hh : 0 < s0.h) (hs : CleanSession S bo argsort s0 s)
    (ts : List α) (hts : ts.Pairwise (· ≤ ·)) (hne : ts ≠ []) (hfut : ∀ x ∈ ts, s.t < x) (hr : InRange S s ts)
    (es : List (EventSpec α n)) (hes : es ≠ []) (e : Err) (s' : St α n 0 X)
    (h : (S.runEvents bo argsort ts (some es)).run s = some (.error e, s')) :
    ∃ s1 s2, (S.method.body S.rhs).run s1 = some (.error e, s2) := by
  obtain ⟨D, hg⟩ := good_session hM.forward hc ho hh hs
  rw [runEvents_of_loop hts hne hes hr hfut, andThen_eq_error] at h
  rcases h with h | ⟨_, _, -, h⟩
  · exact runEvalEvents_noerr hM hf D (joins_two hM D) hmax htol es S.tBound hts h ⟨⟨rfl, rfl, rfl⟩, hg⟩ hg
      (watches_build (Located bo) es s) (noTerminal_single es s) (fun u hu => (hr u hu).1)
  · cases h

/-- **C48**, what holds: for times all in the future, in order and in range, and a method with two points of history, right-hand
side and steps that do not raise, `run_events` with events raises nothing. -/
theorem C48_future_partial {n : Nat} {X : Type} (S : Solver α n 0 X) (hM : WellConfigured S.method) (bo : BisectOpts α)
    (htol : 0 ≤ bo.tol) (hmax : bo.maxiter ≠ 0) (argsort : List α → List Nat) (hf : ∀ t y, ∃ f, S.rhs t y = .ok f)
    (hstep : ∀ s s' e, (S.method.body S.rhs).run s ≠ some (.error e, s'))
    (s0 s : St α n 0 X) (hc : Constructed S s0) (ho : Ordered s0) (hh : 0 < s0.h) (hs : CleanSession S bo argsort s0 s)
    (ts : List α) (hts : ts.Pairwise (· ≤ ·)) (hne : ts ≠ []) (hfut : ∀ x ∈ ts, s.t < x) (hr : InRange S s ts)
    (es : List (EventSpec α n)) (hes : es ≠ []) (e : Err) (s' : St α n 0 X) :
    (S.runEvents bo argsort ts (some es)).run s ≠ some (.error e, s') := by
  intro h
  obtain ⟨s1, s2, h⟩ := C50_search_total_partial S hM bo htol hmax argsort hf s0 s hc ho hh hs ts hts hne hfut hr es hes e s' h
  exact hstep _ _ _ h

end field

open Demo

-- C48 and C50: Forward Euler, with the times and events of `Demo.watched`.
example (argsort : List ℚ → List Nat) (e : Err) (s' : St ℚ 1 (histExtra 0) Unit) :
    ((euler .inf).runEvents .std argsort [1/2, 1] (some [atTime (1/4) false, atTime (3/4) true])).run s0 ≠
      some (.error e, s') :=
  C48_future_partial _ (euler_well .inf) .std std_tol (by decide) argsort (fun _ y => ⟨y, rfl⟩)
    (fun s s' e h => by
      obtain ⟨s1, h1⟩ := unfailing_explicitMultistep ForwardEuler (fun _ y => y) .inf s [] s (.nil s)
      cases h1.symm.trans h)
    s0 s0 (constructed_s0 .inf) ordered_s0 pos_s0 session0 _ (by norm_num) (by simp)
    (fun x hx => by
      show (0 : ℚ) < x
      simp at hx; rcases hx with rfl | rfl <;> norm_num)
    (fun x hx => ⟨by
      show (0 : ℚ) ≤ x
      simp at hx; rcases hx with rfl | rfl <;> norm_num, trivial⟩) _ (by simp) e s'

/-- **C48 refuted**, a concrete case: asked for the initial time and `1`, with an event at `1/4`, Forward Euler raises
`AttributeError`, after advancing. -/
theorem C48_refuted (argsort : List ℚ → List Nat) (hA : ∀ l, IsArgsort l (argsort l)) :
    ∃ s', ((euler .inf).runEvents BisectOpts.std argsort [0, 1] (some [atTime (1/4) false])).run s0 =
      some (.error .attributeError, s') ∧ s'.t = 1 := by
  have key : okAnd (((euler .inf).interpolateAll [0]).run s0) (fun _ s1 => okAnd (runEvFuel (euler .inf) BisectOpts.std .inf 10 [1]
      (buildHandler [atTime (1/4) false] s1.t s1.y) s1) (fun _ s2 => decide (s2.t = 1))) = true := by decide +kernel
  obtain ⟨rs, s1, h1, h2⟩ := of_okAnd key
  obtain ⟨p, s2, h3, h4⟩ := of_okAnd h2
  refine ⟨s2, ?_, of_decide_eq_true h4⟩
  have e : sortedTimes argsort [0, 1] = ([0, 1] : List ℚ) := by
    unfold sortedTimes; rw [if_pos (by decide +kernel)]
  have e1 : ([0, 1] : List ℚ).filter (fun ti => decide (ti ≤ s0.t)) = [0] := by decide +kernel
  have e2 : ([0, 1] : List ℚ).filter (fun ti => !decide (ti ≤ s0.t)) = [1] := by decide +kernel
  rw [runEvents_unfold _ _ hA _ (by simp), e]
  simp only [e1, e2]
  rw [if_neg (by decide +kernel), if_neg (by decide +kernel), h1, andThen_ok]
  show andThen (((euler .inf).runEvalEvents BisectOpts.std .inf [1] _).run s1) _ = _
  rw [runEv_of_fuel _ _ _ _ _ _ _ _ h3, andThen_ok]
  rfl

/-- **C50 refuted** for a method which keeps four points: the event goes from negative to positive over the second step, but along
the dense output it does not, and the search raises `ValueError`. -/
theorem C50_refuted (argsort : List ℚ → List Nat) :
    ∃ e s', Takes ab3 ab3s0 ab3s1 ∧ Takes ab3 ab3s1 ab3s2 ∧ value e ab3s1 < 0 ∧ 0 < value e ab3s2 ∧
    (ab3.runEvents BisectOpts.std argsort [2] (some [e])).run ab3s0 = some (.error .valueError, s') := by
  have key : errIs (runEvFuel ab3 BisectOpts.std .inf 10 [2]
      (buildHandler [⟨fun t y => -16 * y 0 + 2 * (t - 3/2), none, none⟩] ab3s0.t ab3s0.y) ab3s0) .valueError = true := by
    decide +kernel
  obtain ⟨s', h⟩ := of_errIs key
  refine ⟨⟨fun t y => -16 * y 0 + 2 * (t - 3/2), none, none⟩, s', ab3_takes01, ab3_takes12, by decide +kernel, by decide +kernel, ?_⟩
  rw [runEvents_of_loop (s := ab3s0) (by simp) (by simp) (by simp) (fun x hx => by
    simp at hx; subst hx; exact ⟨by decide +kernel, trivial⟩) (fun x hx => by simp at hx; subst hx; decide +kernel)]
  show andThen ((ab3.runEvalEvents BisectOpts.std .inf [2] _).run ab3s0) _ = _
  rw [runEv_of_fuel _ _ _ _ _ _ _ _ h]
  rfl

end Nbkode
