import Verif.Proofs.Quiet
import Verif.Props.NotANumber
import Verif.Props.Watching

/-!
# C114: an event that does not happen leaves no trace

Events whose function has one sign only, or is not a number, may be added to a call of `run_events` or left out, terminal or
not. For every solver, in every state, and for every arithmetic: nothing is assumed of the numbers.
-/

set_option autoImplicit false
set_option linter.unusedSectionVars false

namespace Nbkode
open Py Spec Solver

section lawless
variable {α : Type}
variable [Add α] [Sub α] [Mul α] [Div α] [Neg α] [Zero α] [One α] [NatCast α] [BEq α]
variable [LT α] [DecidableLT α] [LE α] [DecidableLE α]
variable {n k : Nat} {X : Type}

theorem oneSigned_triggers {e : EventSpec α n} (h : OneSigned e) (d : Int) (t : α) (y : Vec α n) (t' : α) (y' : Vec α n) :
    triggers d (e.func t y) (e.func t' y') = false := by
  have h1 := h t y t' y'
  have h2 := h t' y' t y
  unfold triggers
  by_cases a1 : e.func t y ≤ 0 <;> by_cases a2 : 0 ≤ e.func t' y' <;> by_cases a3 : 0 ≤ e.func t y <;>
    by_cases a4 : e.func t' y' ≤ 0 <;> simp_all

theorem oneSigned_silent {e : EventSpec α n} (h : OneSigned e) (t : α) (y : Vec α n) : Silent (buildEvent (k := k) e t y) :=
  ⟨rfl, rfl, fun _ _ => oneSigned_triggers h _ _ _ _ _, fun _ _ _ _ => oneSigned_triggers h _ _ _ _ _⟩

theorem oneSigned_calm (t : α) (y : Vec α n) : ∀ (ms : List Bool) (es : List (EventSpec α n)), ms.length = es.length →
    (∀ (i : Nat) e, ms[i]? = some false → es[i]? = some e → OneSigned e) → Calm ms (es.map fun e => buildEvent (k := k) e t y)
  | [], [], _, _ => trivial
  | m :: ms, e :: es, hl, h => ⟨fun hm => oneSigned_silent (h 0 e (by simp [hm]) rfl) t y,
      oneSigned_calm t y ms es (by simpa using hl) fun i e' h1 h2 => h (i + 1) e' (by simpa using h1) (by simpa using h2)⟩

theorem calm_lists {β : Type} : ∀ (es : List β) (evs : List (Event α n k)), Calm (es.map fun _ => false) evs →
    evs.map (fun e => e.t) = es.map (fun _ => []) ∧ evs.map (fun e => e.y) = es.map fun _ => []
  | [], [], _ => ⟨rfl, rfl⟩
  | [], _ :: _, h => h.elim
  | _ :: _, [], h => h.elim
  | _ :: es, ev :: evs, h => by
    obtain ⟨h1, h2⟩ := calm_lists es evs h.2
    simp only [List.map_cons, h1, h2, (h.1 rfl).t, (h.1 rfl).y, and_self]

/-- **C114** Events whose function does not have both signs, terminal or not, may be left out of a call of `run_events` that
watches others too: the points, the lists of the other events, the state of the solver, exceptions and whether the call comes
back at all are the same. The lists of the events left out are empty. -/
theorem C114_kept (S : Solver α n k X) (bo : BisectOpts α) (argsort : List α → List Nat) (ts : List α)
    (es : List (EventSpec α n)) (ms : List Bool) (hl : ms.length = es.length)
    (hq : ∀ (i : Nat) e, ms[i]? = some false → es[i]? = some e → OneSigned e) (hne : kept ms es ≠ []) (s : St α n k X) :
    (S.runEvents bo argsort ts (some (kept ms es))).run s = andThen ((S.runEvents bo argsort ts (some es)).run s)
      (fun o s' => some (.ok (keptOut ms o), s')) ∧
    ∀ o s', (S.runEvents bo argsort ts (some es)).run s = some (.ok o, s') → ∀ i : Nat, ms[i]? = some false →
      o.tEvents[i]? = some [] ∧ o.yEvents[i]? = some [] :=
  runEvents_kept S argsort ts es ms hne (fun t y => oneSigned_calm t y ms es hl hq) s

/-- An event function that is never a number does not have both signs. -/
theorem oneSigned_nan (e : EventSpec α n) (h : ∀ t y, Incomparable (e.func t y)) : OneSigned e :=
  fun t y _ _ hc => (h t y).not_le _ hc.1

/-- An event function that is never `≤ 0` does not have both signs. -/
theorem oneSigned_pos (e : EventSpec α n) (h : ∀ t y, ¬ e.func t y ≤ 0) : OneSigned e := fun t y _ _ hc => h t y hc.1

/-- An event function that is never `≥ 0` does not have both signs. -/
theorem oneSigned_neg (e : EventSpec α n) (h : ∀ t y, ¬ 0 ≤ e.func t y) : OneSigned e := fun _ _ t y hc => h t y hc.2

end lawless

section order
variable {α : Type} [LinearOrder α]
variable [Add α] [Sub α] [Mul α] [Div α] [Neg α] [Zero α] [One α] [NatCast α] [BEq α]
variable {n k : Nat} {X : Type}

/-- **C114** When none of the events happens, the call does what `run` does with the same times, if they lie ahead and up to
`t_bound`. (With a time that has been passed, any event makes the call fail: C48.) -/
theorem C114_none (S : Solver α n k X) (hM : Shaped S.method) (bo : BisectOpts α) (argsort : List α → List Nat)
    (hA : ∀ l, IsArgsort l (argsort l)) (ts : List α) (es : List (EventSpec α n)) (hq : ∀ e ∈ es, OneSigned e)
    (hes : es ≠ []) (s : St α n k X) (hne : ts ≠ []) (hr : InRange S s ts) (hf : ∀ t ∈ ts, s.t < t) :
    (S.runEvents bo argsort ts (some es)).run s = andThen ((S.run bo argsort ts).run s) fun out s' =>
      some (.ok ⟨out, es.map fun _ => [], es.map fun _ => []⟩, s') := by
  have hc : Calm (es.map fun _ => false) ((buildHandler (k := k) es s.t s.y).events) :=
    oneSigned_calm s.t s.y _ es (by simp) fun i e _ h => hq e (List.mem_of_getElem? h)
  rw [runEvents_future hA hne hes hr hf, run_eq hM bo hA hne hr, andThen_assoc]
  obtain ⟨g1, g2⟩ := runEvalEvents_kept (bo := bo) S S.tBound (es.map fun _ => false) (sortedTimes argsort ts)
    (buildHandler es s.t s.y) s hc
  have hk : keptHandler (es.map fun _ => false) (buildHandler (k := k) es s.t s.y) = ⟨[], none⟩ := by
    unfold keptHandler buildHandler
    rw [← kept_map, kept_none]
    rfl
  rw [hk, runEvalEvents_empty] at g1
  rcases hR : (S.runEval S.tBound (sortedTimes argsort ts)).run s with _ | ⟨e | out, s1⟩ <;>
    rcases hE : (S.runEvalEvents bo S.tBound (sortedTimes argsort ts) (buildHandler es s.t s.y)).run s with _ | ⟨e' | ⟨eh, out'⟩, s1'⟩ <;>
    rw [hR, hE] at g1
  · rfl
  · cases g1
  · cases g1
  · cases g1
  · cases g1
    rfl
  · cases g1
  · cases g1
  · cases g1
  · simp only [andThen_ok, Option.some.injEq, Prod.mk.injEq, Except.ok.injEq] at g1
    obtain ⟨⟨-, rfl⟩, rfl⟩ := g1
    obtain ⟨k1, k2⟩ := calm_lists es eh.events (g2 _ _ hE)
    simp only [andThen_ok, k1, k2]
    split
    · rfl
    · rcases fancyIndex out (invPerm (argsort ts)) with e | o <;> rfl

end order

open Demo

/-- A terminal event that does not happen: `t² + 1 = 0`. -/
def Demo.never : EventSpec ℚ 1 := ⟨fun t _ => t * t + 1, some true, none⟩

theorem Demo.never_oneSigned : OneSigned never :=
  oneSigned_pos _ fun t _ h => absurd h (not_le.mpr (by show 0 < t * t + 1; nlinarith [mul_self_nonneg t]))

/-- Non-vacuity: Forward Euler asked for `1/2` and `1` with an event at `1/4` and a terminal event that does not happen. The
first is recorded, both points are returned, the second event's list is empty. -/
example (argsort : List ℚ → List Nat) : ∃ o s',
    ((euler .inf).runEvents BisectOpts.std argsort [1/2, 1] (some [atTime (1/4) false, never])).run s0 = some (.ok o, s') ∧
    o.tEvents[0]? = some [1/4] ∧ o.tEvents[1]? = some [] ∧ o.out.map Prod.fst = [1/2, 1] := by
  obtain ⟨o, s', h1, h2, h3⟩ := watched_only argsort
  obtain ⟨g1, g2⟩ := C114_kept (euler .inf) BisectOpts.std argsort [1/2, 1] [atTime (1/4) false, never] [true, false] rfl
    (by
      intro i e hi he
      match i with
      | 0 => simp at hi
      | 1 =>
        simp only [List.getElem?_cons_succ, List.getElem?_cons_zero, Option.some.injEq] at he
        exact he ▸ never_oneSigned
      | i + 2 => simp at hi)
    (by simp [kept]) s0
  rw [show kept [true, false] [atTime (1/4) false, never] = [atTime (1/4) false] from rfl, h1] at g1
  obtain ⟨o', x, h4, h5⟩ := andThen_eq_ok.mp g1.symm
  cases h5
  refine ⟨o', _, h4, ?_, (g2 _ _ h4 1 rfl).1, h3⟩
  rcases ht : o'.tEvents with _ | ⟨a, l⟩
  · rw [keptOut, ht] at h2
    simp [kept] at h2
  · rw [keptOut, ht] at h2
    have : kept [true, false] (a :: l) = a :: kept [false] l := rfl
    simp only [this, List.cons.injEq] at h2
    simp [h2.1]

/-- Non-vacuity: the terminal event alone, which must not change what `run` does. -/
example (argsort : List ℚ → List Nat) (hA : ∀ l, IsArgsort l (argsort l)) :
    ((euler .inf).runEvents BisectOpts.std argsort [1/2, 1] (some [never])).run s0 =
      andThen (((euler .inf).run BisectOpts.std argsort [1/2, 1]).run s0) fun out s' => some (.ok ⟨out, [[]], [[]]⟩, s') :=
  C114_none (euler .inf) (euler_well .inf).library.shaped _ argsort hA _ [never] (by simpa using never_oneSigned) (by simp) s0 (by simp)
    (fun x hx => by
      simp only [List.mem_cons, List.not_mem_nil, or_false] at hx
      rcases hx with rfl | rfl <;> exact ⟨by norm_num [s0, st], trivial⟩)
    (fun x hx => by
      show (0 : ℚ) < x
      simp only [List.mem_cons, List.not_mem_nil, or_false] at hx
      rcases hx with rfl | rfl <;> norm_num)

/-- Non-vacuity: over the rationals with a NaN, a terminal event function that is never a number may be left out. -/
example (argsort : List Fl → List Nat) (ts : List Fl) (e : EventSpec Fl 1) (s : St Fl 1 0 Unit) (o : Solver.RunOut Fl 1 0)
    (s' : St Fl 1 0 Unit)
    (h : (flSolver.runEvents BisectOpts.std argsort ts (some [⟨fun _ _ => Fl.nan, some true, none⟩, e])).run s = some (.ok o, s')) :
    o.tEvents[0]? = some [] :=
  ((C114_kept flSolver BisectOpts.std argsort ts [⟨fun _ _ => Fl.nan, some true, none⟩, e] [false, true] rfl
    (by
      intro i e' hi he
      match i with
      | 0 =>
        simp only [List.getElem?_cons_zero, Option.some.injEq] at he
        exact he ▸ oneSigned_nan _ fun _ _ => fl_incomparable
      | 1 => simp at hi
      | i + 2 => simp at hi)
    (by simp [kept]) s).2 o s' h 0 rfl).1

end Nbkode
