import Verif.Proofs.EventsApi
import Verif.Props.RunStates

/-! # A concrete run with events, for the non-vacuity examples -/

set_option autoImplicit false

namespace Nbkode
open Py Spec Solver

namespace Demo

/-- An event at time `c`. -/
def atTime (c : ℚ) (terminal : Bool) : EventSpec ℚ 1 := ⟨fun t _ => t - c, some terminal, none⟩

/-- `run_events` of the demo solver on future times in order, from its loop. -/
theorem euler_events {ts : List ℚ} (hts : ts.Pairwise (· ≤ ·)) (hne : ts ≠ []) (hf : ∀ x ∈ ts, 0 < x)
    {es : List (EventSpec ℚ 1)} (hes : es ≠ []) (argsort : List ℚ → List Nat)
    {p : EventHandler ℚ 1 (histExtra 0) × List (ℚ × Vec ℚ 1)} {s : St ℚ 1 (histExtra 0) Unit}
    (h : runEvFuel (euler .inf) BisectOpts.std .inf 10 ts (buildHandler es s0.t s0.y) s0 = some (.ok p, s)) :
    ((euler .inf).runEvents BisectOpts.std argsort ts (some es)).run s0 =
      some (.ok ⟨p.2, p.1.events.map fun e => e.t, p.1.events.map fun e => e.y⟩, s) := by
  rw [runEvents_of_loop (s := s0) hts hne hes (fun x hx => ⟨(hf x hx).le, by trivial⟩) hf]
  show andThen (((euler .inf).runEvalEvents BisectOpts.std .inf ts _).run s0) _ = _
  rw [runEv_of_fuel _ _ _ _ _ _ _ _ h, andThen_ok]

/-- The same for times out of order, given by the ordered times. -/
theorem euler_events_unsorted {ts tl : List ℚ} (hp : tl.Perm ts) (hts : tl.Pairwise (· ≤ ·)) (hns : isSorted ts = false)
    (hf : ∀ x ∈ tl, 0 < x)
    {es : List (EventSpec ℚ 1)} (hes : es ≠ []) (argsort : List ℚ → List Nat) (hA : ∀ l, IsArgsort l (argsort l))
    {p : EventHandler ℚ 1 (histExtra 0) × List (ℚ × Vec ℚ 1)} {s : St ℚ 1 (histExtra 0) Unit}
    (h : runEvFuel (euler .inf) BisectOpts.std .inf 10 tl (buildHandler es s0.t s0.y) s0 = some (.ok p, s)) :
    ((euler .inf).runEvents BisectOpts.std argsort ts (some es)).run s0 =
      some ((fancyIndex p.2 (invPerm (argsort ts))).map fun out =>
        ⟨out, p.1.events.map fun e => e.t, p.1.events.map fun e => e.y⟩, s) := by
  rw [runEvents_unfold _ _ hA _ hes]
  have e : sortedTimes argsort ts = tl :=
    sorted_unique ((sortedTimes_perm hA ts).trans hp.symm) (sortedTimes_sorted hA ts) hts
  rw [e]
  rcases tl with _ | ⟨t0, tl⟩
  · rw [hp.symm.eq_nil] at hns; cases hns
  have e1 : ((t0 :: tl).filter fun ti => decide (ti ≤ s0.t)) = [] := by
    rw [List.filter_eq_nil_iff]
    intro x hx
    have : s0.t < x := hf x hx
    simp [this]
  have e2 : ((t0 :: tl).filter fun ti => !decide (ti ≤ s0.t)) = t0 :: tl := by
    rw [List.filter_eq_self]
    intro x hx
    have : s0.t < x := hf x hx
    simp [this]
  simp only [e1, e2]
  have h0 : s0.cache.ts (Buffer.iOld (histExtra 0)) ≤ t0 := (hf t0 List.mem_cons_self).le
  rw [if_neg (not_lt.mpr h0), if_neg (by simp [euler, Bound.gt])]
  show andThen (some (.ok [], s0)) _ = _
  rw [andThen_ok]
  show andThen (((euler .inf).runEvalEvents BisectOpts.std .inf (t0 :: tl) _).run s0) _ = _
  rw [runEv_of_fuel _ _ _ _ _ _ _ _ h, andThen_ok]
  simp only [List.isEmpty_nil, if_true, hns, Bool.false_eq_true, if_false]
  rfl

theorem session0 {bo : BisectOpts ℚ} {argsort : List ℚ → List Nat} : CleanSession (euler .inf) bo argsort s0 s0 := .start _

/-- Asked for `1/2` and `1`, with an event at `1/4` and a terminal one at `3/4`: the run records both, and ends at `3/4`. -/
theorem watched (argsort : List ℚ → List Nat) : ∃ o s',
    ((euler .inf).runEvents BisectOpts.std argsort [1/2, 1] (some [atTime (1/4) false, atTime (3/4) true])).run s0 =
      some (.ok o, s') ∧ o.tEvents = [[1/4], [3/4]] ∧ o.out.map Prod.fst = [1/2, 3/4] := by
  have key : okAnd (runEvFuel (euler .inf) BisectOpts.std .inf 10 [1/2, 1]
      (buildHandler [atTime (1/4) false, atTime (3/4) true] s0.t s0.y) s0)
      (fun p _ => decide (p.1.events.map (fun e => e.t) = [[1/4], [3/4]]) && decide (p.2.map Prod.fst = [1/2, 3/4])) = true := by
    decide +kernel
  obtain ⟨p, s', h1, h2⟩ := of_okAnd key
  simp only [Bool.and_eq_true, decide_eq_true_iff] at h2
  exact ⟨_, s', euler_events (by norm_num) (by simp) (by norm_num) (by simp) argsort h1, h2.1, h2.2⟩

theorem std_tol : (0 : ℚ) ≤ (BisectOpts.std : BisectOpts ℚ).tol := by decide +kernel

theorem euler_well (b : Bound ℚ) : WellConfigured (euler b).method := Or.inl (.explicitMultistep _)

end Demo

end Nbkode
