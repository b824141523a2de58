import Verif.Proofs.Simulate
import Verif.Spec.Answers
import Verif.Props.EventSearch

/-!
# Watching does not disturb (C46)
-/

set_option autoImplicit false
set_option linter.unusedSectionVars false

namespace Nbkode
open Py Spec Solver

section field
variable {α : Type} [Field α] [LinearOrder α] [IsStrictOrderedRing α] [BEq α] [LawfulBEq α]
variable {n k : Nat} {X : Type} {S : Solver α n k X}

theorem sim_answer (hM : WellConfigured S.method) (D : Dense S.method S.rhs) (bo : BisectOpts α)
    {argsort : List α → List Nat} (hA : ∀ l, IsArgsort l (argsort l)) (c : Call α n) :
    Sim (Rel D) (fun _ => True) (c.answer S bo argsort) := by
  cases c with
  | step m u => exact sim_bind (sim_step hM D m u) fun _ _ => sim_pure trivial
  | skip m u => exact sim_bind (sim_skip hM D m u) fun _ _ => sim_pure trivial
  | interpolate t => exact sim_bind (sim_interpolate hM D t) fun _ _ => sim_pure trivial
  | run ts => exact sim_bind (sim_run hM D bo hA ts) fun _ _ => sim_pure trivial
  | runEvents ts es => exact sim_bind (sim_runEvents hM D bo hA ts es) fun _ _ => sim_pure trivial

theorem sim_answers (hM : WellConfigured S.method) (D : Dense S.method S.rhs) (bo : BisectOpts α)
    {argsort : List α → List Nat} (hA : ∀ l, IsArgsort l (argsort l)) (cs : List (Call α n)) :
    Sim (Rel D) (fun _ => True) (answers S bo argsort cs) := by
  induction cs with
  | nil => exact sim_pure trivial
  | cons c cs ih => exact sim_bind (sim_answer hM D bo hA c) fun _ _ => sim_bind ih fun _ _ => sim_pure trivial

theorem alike_rel (hM : WellConfigured S.method) {D : Dense S.method S.rhs} (bo : BisectOpts α)
    {argsort : List α → List Nat} (hA : ∀ l, IsArgsort l (argsort l)) {x y : St α n k X} (h : Rel D x y) :
    Alike S bo argsort x y := by
  refine ⟨h.1.1, fun cs l => ⟨?_, ?_⟩⟩
  · rintro ⟨x', hx⟩
    obtain ⟨⟨y', h1, -⟩, -⟩ := sim_answers hM D bo hA cs x y h l x' hx
    exact ⟨y', h1⟩
  · rintro ⟨x', hx⟩
    obtain ⟨⟨y', h1, -⟩, -⟩ := sim_answers hM D bo hA cs y x h.symm l x' hx
    exact ⟨y', h1⟩

/-- **C46**, what holds: when `run_events` with events none of which is terminal returns, `run` returns the same times and states,
and afterwards the two solvers cannot be told apart by any calls that return. Missing: `run_events` may raise where `run`
returns (`C46_refuted`), see `C46_returns_partial` for when it returns. -/
theorem C46_undisturbed_partial (S : Solver α n k X) (hM : WellConfigured S.method) (bo : BisectOpts α) (htol : 0 ≤ bo.tol)
    (argsort : List α → List Nat) (hA : ∀ l, IsArgsort l (argsort l)) (s0 s : St α n k X)
    (hc : Constructed S s0) (ho : Ordered s0) (hh : 0 < s0.h) (hs : CleanSession S bo argsort s0 s)
    (ts : List α) (es : List (EventSpec α n)) (hnt : ∀ e ∈ es, e.terminal ≠ some true) (o : RunOut α n k) (s' : St α n k X)
    (h : (S.runEvents bo argsort ts (some es)).run s = some (.ok o, s')) :
    ∃ s'', (S.run bo argsort ts).run s = some (.ok o.out, s'') ∧ Alike S bo argsort s' s'' := by
  obtain ⟨D, hg⟩ := good_session hM.forward hc ho hh hs
  rcases es with _ | ⟨e, es⟩
  · obtain ⟨h1, -⟩ := runEvents_none_ok (show (S.runEvents bo argsort ts none).run s = _ from h)
    refine ⟨s', h1, rfl, fun _ _ => Iff.rfl⟩
  · have hes : e :: es ≠ [] := by simp
    obtain ⟨hfut, hr, hne, eh, out, h3, h4, -⟩ := runEvents_ok hA hes h
    obtain ⟨l, c, pts', p1, p2, p3, p4, p5, p6⟩ := runEvalEvents_post hM.forward D (located_locates bo htol) _ S.tBound (sortedTimes_sorted hA ts) h3
      ⟨⟨rfl, rfl, rfl⟩, hg⟩ hg (watches_build (Located bo) (e :: es) s) (noTerminal_single _ s)
      (fun u hu => (hr u ((sortedTimes_perm hA ts).mem_iff.mp hu)).1)
    rcases p6 with ⟨-, c', q1, q2⟩ | ⟨_, _, _, _, _, ⟨e', he', ht', -⟩, -⟩
    · have hgc : Good D c' := by
        obtain ⟨y', g1, g2⟩ := sim_runEval hM D S.tBound (sortedTimes_sorted hA ts) (x := s) (y := s)
          ⟨⟨rfl, rfl, rfl⟩, hg, hg⟩ q1 (fun u hu => (hr u ((sortedTimes_perm hA ts).mem_iff.mp hu)).1)
        exact g2.2.1
      refine ⟨c', ?_, alike_rel hM (D := D) bo hA ?_⟩
      · rw [run_eq hM.library.shaped bo hA hne hr, q1, andThen_ok]
        split at h4
        · rw [if_pos ‹_›, h4]
        · rw [if_neg ‹_›, h4]
      · exact ⟨⟨p3.1.1.trans q2.1.symm, p3.1.2.1.trans q2.2.1.symm, p3.1.2.2.trans q2.2.2.symm⟩, p3.2, hgc⟩
    · exact absurd ht' (hnt e' he')

/-- **C46**, when the watched run returns: for a method with two points of history, a right-hand side that does not raise and times
all in the future, `run_events` with events none of which is terminal returns whenever `run` does, the same times and states,
and afterwards the solvers cannot be told apart. -/
theorem C46_returns_partial {n : Nat} {X : Type} (S : Solver α n 0 X) (hM : WellConfigured S.method) (bo : BisectOpts α)
    (htol : 0 ≤ bo.tol) (hmax : bo.maxiter ≠ 0) (argsort : List α → List Nat) (hA : ∀ l, IsArgsort l (argsort l))
    (hf : ∀ t y, ∃ f, S.rhs t y = .ok f)
    (s0 s : St α n 0 X) (hc : Constructed S s0) (ho : Ordered s0) (hh : 0 < s0.h) (hs : CleanSession S bo argsort s0 s)
    (ts : List α) (hfut : ∀ x ∈ ts, s.t < x) (es : List (EventSpec α n)) (hnt : ∀ e ∈ es, e.terminal ≠ some true)
    (out : List (α × Vec α n)) (s'' : St α n 0 X) (h : (S.run bo argsort ts).run s = some (.ok out, s'')) :
    ∃ o s', (S.runEvents bo argsort ts (some es)).run s = some (.ok o, s') ∧ o.out = out ∧ Alike S bo argsort s' s'' := by
  have key : ∃ o s', (S.runEvents bo argsort ts (some es)).run s = some (.ok o, s') := by
    obtain ⟨D, hg⟩ := good_session hM.forward hc ho hh hs
    rcases es with _ | ⟨e, es⟩
    · exact ⟨_, _, runEvents_none_of h⟩
    · have hes : e :: es ≠ [] := by simp
      obtain ⟨hne, hr, -⟩ := run_ok hM.library.shaped bo hA h
      rw [run_eq hM.library.shaped bo hA hne hr, andThen_eq_ok] at h
      obtain ⟨out1, s1, h1, h2⟩ := h
      have h0 : ∀ u ∈ sortedTimes argsort ts, s.cache.ts (Buffer.iOld 0) ≤ u :=
        fun u hu => (hr u ((sortedTimes_perm hA ts).mem_iff.mp hu)).1
      obtain ⟨⟨eh, out2⟩, s2, h3⟩ := runEvalEvents_returns hM hf (joins_two hM D) hmax htol hnt (sortedTimes_sorted hA ts) h1
        ⟨⟨rfl, rfl, rfl⟩, hg⟩ hg (watches_build (Located bo) (e :: es) s) h0
      have hout : out2 = out1 := by
        obtain ⟨l, c, pts', p1, p2, p3, p4, p5, p6⟩ := runEvalEvents_post hM.forward D (located_locates bo htol) _ S.tBound (sortedTimes_sorted hA ts) h3
          ⟨⟨rfl, rfl, rfl⟩, hg⟩ hg (watches_build (Located bo) (e :: es) s) (noTerminal_single _ s) h0
        rcases p6 with ⟨-, c', q1, q2⟩ | ⟨_, _, _, _, _, ⟨e', he', ht', -⟩, -⟩
        · rw [h1] at q1; cases q1; rfl
        · exact absurd ht' (hnt e' he')
      rw [runEvents_future hA hne hes hr hfut, h3, andThen_ok]
      subst hout
      split at h2
      · rw [if_pos ‹_›]; exact ⟨_, _, rfl⟩
      · rw [if_neg ‹_›]
        simp only [Option.some.injEq, Prod.mk.injEq] at h2
        simp only [h2.1]
        exact ⟨_, _, rfl⟩
  obtain ⟨o, s', h1⟩ := key
  obtain ⟨s3, h2, h3⟩ := C46_undisturbed_partial S hM bo htol argsort hA s0 s hc ho hh hs ts es hnt o s' h1
  rw [h] at h2
  cases h2
  exact ⟨o, s', h1, rfl, h3⟩

end field

open Demo

/-- Forward Euler asked for `1/2` and `1`, with an event at `1/4`. -/
theorem Demo.watched_only (argsort : List ℚ → List Nat) : ∃ o s',
    ((euler .inf).runEvents BisectOpts.std argsort [1/2, 1] (some [atTime (1/4) false])).run s0 =
      some (.ok o, s') ∧ o.tEvents = [[1/4]] ∧ o.out.map Prod.fst = [1/2, 1] := by
  have key : okAnd (runEvFuel (euler .inf) BisectOpts.std .inf 10 [1/2, 1]
      (buildHandler [atTime (1/4) false] s0.t s0.y) s0)
      (fun p _ => decide (p.1.events.map (fun e => e.t) = [[1/4]]) && decide (p.2.map Prod.fst = [1/2, 1])) = true := by
    decide +kernel
  obtain ⟨p, s', h1, h2⟩ := of_okAnd key
  simp only [Bool.and_eq_true, decide_eq_true_iff] at h2
  exact ⟨_, s', euler_events (by norm_num) (by simp) (by norm_num) (by simp) argsort h1, h2.1, h2.2⟩

-- C46: both theorems apply to it.
example (argsort : List ℚ → List Nat) (hA : ∀ l, IsArgsort l (argsort l)) : ∃ o s' s'',
    ((euler .inf).runEvents .std argsort [1/2, 1] (some [atTime (1/4) false])).run s0 = some (.ok o, s') ∧
    o.tEvents = [[1/4]] ∧ ((euler .inf).run .std argsort [1/2, 1]).run s0 = some (.ok o.out, s'') ∧
    o.out.map Prod.fst = [1/2, 1] ∧ Alike (euler .inf) .std argsort s' s'' := by
  obtain ⟨o, s', h1, h2, h3⟩ := watched_only argsort
  have hnt : ∀ e ∈ [atTime (1/4) false], e.terminal ≠ some true := by simp [atTime]
  obtain ⟨s'', h4, h5⟩ := C46_undisturbed_partial _ (euler_well .inf) .std std_tol argsort hA s0 s0 (constructed_s0 .inf) ordered_s0
    pos_s0 session0 _ _ hnt o s' h1
  obtain ⟨o', s3, h6, h7, h8⟩ := C46_returns_partial _ (euler_well .inf) .std std_tol (by decide) argsort hA (fun _ y => ⟨y, rfl⟩)
    s0 s0 (constructed_s0 .inf) ordered_s0 pos_s0 session0 _ (by
      intro x hx
      show (0 : ℚ) < x
      simp at hx; rcases hx with rfl | rfl <;> norm_num) _ hnt _ _ h4
  exact ⟨o, s', s'', h1, h2, h4, h3, h5⟩

/-- **C46 refuted** as stated: asked for the initial time and `1`, Forward Euler's `run` returns both, but `run_events` with an event
that is not terminal raises `AttributeError`. -/
theorem C46_refuted (argsort : List ℚ → List Nat) (hA : ∀ l, IsArgsort l (argsort l)) :
    (∃ out s', ((euler .inf).run BisectOpts.std argsort [0, 1]).run s0 = some (.ok out, s') ∧ out.map Prod.fst = [0, 1]) ∧
    (∃ s', ((euler .inf).runEvents BisectOpts.std argsort [0, 1] (some [atTime (1/4) false])).run s0 =
      some (.error .attributeError, s')) := by
  obtain ⟨s', h1, -⟩ := C48_refuted argsort hA
  refine ⟨?_, s', h1⟩
  have key : okAnd (runEvFuel (euler .inf) BisectOpts.std .inf 10 [1]
      (buildHandler [atTime (1/4) false] s0.t s0.y) s0) (fun p _ => decide (p.2.map Prod.fst = [1])) = true := by
    decide +kernel
  obtain ⟨p, s2, h2, h3⟩ := of_okAnd key
  obtain ⟨s3, h4, -⟩ := C46_undisturbed_partial _ (euler_well .inf) .std std_tol argsort hA s0 s0 (constructed_s0 .inf) ordered_s0
    pos_s0 session0 [1] _ (by simp [atTime]) _ _
    (euler_events (by norm_num) (by simp) (by norm_num) (by simp) argsort h2)
  have hM := (euler_well .inf).library.shaped
  have hr : ∀ l : List ℚ, (∀ x ∈ l, 0 ≤ x) → InRange (euler .inf) s0 l := fun l hl x hx => ⟨hl x hx, trivial⟩
  rw [run_eq hM _ hA (by simp) (hr [1] (by norm_num))] at h4
  have e1 : sortedTimes argsort [1] = ([1] : List ℚ) := rfl
  rw [e1, andThen_eq_ok] at h4
  obtain ⟨out, s4, h5, h6⟩ := h4
  rw [if_pos (show isSorted [(1 : ℚ)] = true from rfl)] at h6
  cases h6
  have e : sortedTimes argsort [0, 1] = ([0, 1] : List ℚ) := by
    unfold sortedTimes; rw [if_pos (by decide +kernel)]
  have hi0 : ((euler .inf).interpAt 0).run s0 = some (.ok (.row (Buffer.iOld _)), s0) := by
    show (hermiteInterp 0 : Py _ _).run s0 = _
    rw [hermiteInterp_run, if_pos (by simp [s0, st])]
  rw [run_eq hM _ hA (by simp) (hr [0, 1] (by norm_num)), e, runEval_cons,
    advance_true.mpr (.here (by norm_num [s0, st, St.t, Buffer.t]))]
  simp only [andThen_ok, if_true, hi0, h5]
  rw [if_pos (by decide +kernel)]
  refine ⟨_, _, rfl, ?_⟩
  simpa using h3

end Nbkode
