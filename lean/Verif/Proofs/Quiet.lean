import Verif.Spec.Quiet
import Verif.Proofs.Units

/-! Events that never trigger leave no trace. -/

set_option autoImplicit false
set_option linter.unusedSectionVars false

namespace Nbkode
open Py Spec Solver

variable {α : Type}
variable [Add α] [Sub α] [Mul α] [Div α] [Neg α] [Zero α] [One α] [NatCast α] [BEq α]
variable [LT α] [DecidableLT α] [LE α] [DecidableLE α]
variable {n k : Nat} {X : Type} {bo : BisectOpts α}

/-- An event that has recorded nothing and never triggers. -/
structure Silent (ev : Event α n k) : Prop where
  t : ev.t = []
  y : ev.y = []
  next : ∀ t y, triggers ev.direction ev.lastValue (ev.func t y) = false
  later : ∀ t y t' y', triggers ev.direction (ev.func t y) (ev.func t' y') = false

theorem silent_evaluate {ev : Event α n k} (h : Silent ev) (interp : α → Py (St α n k X) (Ref α n k)) (s : St α n k X) :
    ∃ ev', (ev.evaluate bo interp).run s = some (.ok (ev', false), s) ∧ Silent ev' := by
  refine ⟨{ ev with lastT := s.cache.t, lastValue := ev.func s.cache.t s.cache.y }, ?_, h.t, h.y, fun t y => h.later _ _ t y, h.later⟩
  unfold Event.evaluate
  simp only [run_bind, run_get, andThen_ok, h.next, Bool.false_eq_true, if_false, run_pure, Bool.false_and]

/-- The events that are not kept are silent. -/
def Calm : List Bool → List (Event α n k) → Prop
  | [], [] => True
  | m :: ms, ev :: evs => (m = false → Silent ev) ∧ Calm ms evs
  | _, _ => False

theorem handlerLoop_kept (interp : α → Py (St α n k X) (Ref α n k)) : ∀ (ms : List Bool) (evs : List (Event α n k))
    (term : Bool) (last : Option (α × Ref α n k)) (s : St α n k X), Calm ms evs →
    (handlerLoop bo interp (kept ms evs) term last).run s = andThen ((handlerLoop bo interp evs term last).run s)
      (fun p s' => some (.ok (kept ms p.1, p.2), s')) ∧
    ∀ p s', (handlerLoop bo interp evs term last).run s = some (.ok p, s') → Calm ms p.1
  | [], [], _, _, _, _ => ⟨rfl, fun p s' h => by cases h; trivial⟩
  | [], _ :: _, _, _, _, h => h.elim
  | _ :: _, [], _, _, _, h => h.elim
  | false :: ms, ev :: evs, term, last, s, h => by
    obtain ⟨ev', he, hs⟩ := silent_evaluate (bo := bo) (h.1 rfl) interp s
    have ih := handlerLoop_kept interp ms evs term last s h.2
    have e : (handlerLoop bo interp (ev :: evs) term last).run s =
        andThen ((handlerLoop bo interp evs term last).run s) fun p s' => some (.ok (ev' :: p.1, p.2), s') := by
      rw [handlerLoop, run_bind, he]
      simp only [andThen_ok, run_bind, Bool.or_false, Bool.false_eq_true, if_false]
      rfl
    refine ⟨?_, fun p s' hp => ?_⟩
    · rw [e, andThen_assoc]
      show (handlerLoop bo interp (kept ms evs) term last).run s = _
      rw [ih.1]
      rfl
    · rw [e, andThen_eq_ok] at hp
      obtain ⟨q, x, h1, h2⟩ := hp
      cases h2
      exact ⟨fun _ => hs, ih.2 _ _ h1⟩
  | true :: ms, ev :: evs, term, last, s, h => by
    refine ⟨?_, fun p s' hp => ?_⟩
    · show (handlerLoop bo interp (ev :: kept ms evs) term last).run s = _
      rw [handlerLoop, handlerLoop]
      simp only [run_bind]
      rw [andThen_assoc]
      congr 1
      funext p s1
      obtain ⟨ev', stop⟩ := p
      simp only [run_bind]
      rw [(handlerLoop_kept interp ms evs _ _ _ h.2).1, andThen_assoc, andThen_assoc]
      rfl
    · rw [handlerLoop, run_bind, andThen_eq_ok] at hp
      obtain ⟨⟨ev', stop⟩, x1, -, h1⟩ := hp
      rw [run_bind, andThen_eq_ok] at h1
      obtain ⟨⟨evs', q⟩, x2, h2, h3⟩ := h1
      have := (handlerLoop_kept interp ms evs _ _ _ h.2).2 _ _ h2
      cases h3
      exact ⟨fun hc => (Bool.noConfusion hc), this⟩

/-- The handler of the kept events. -/
def keptHandler (ms : List Bool) (eh : EventHandler α n k) : EventHandler α n k := { eh with events := kept ms eh.events }

theorem handler_kept (interp : α → Py (St α n k X) (Ref α n k)) (ms : List Bool)
    (eh : EventHandler α n k) (hc : Calm ms eh.events) (s : St α n k X) :
    ((keptHandler ms eh).evaluate bo interp).run s = andThen ((eh.evaluate bo interp).run s)
      (fun p s' => some (.ok (keptHandler ms p.1, p.2), s')) ∧
    ∀ p s', (eh.evaluate bo interp).run s = some (.ok p, s') → Calm ms p.1.events := by
  obtain ⟨h1, h2⟩ := handlerLoop_kept (bo := bo) interp ms eh.events false eh.lastEvent s hc
  unfold EventHandler.evaluate
  simp only [run_bind]
  refine ⟨?_, fun p s' h => ?_⟩
  · show andThen ((handlerLoop bo interp (kept ms eh.events) false eh.lastEvent).run s) _ = _
    rw [h1, andThen_assoc, andThen_assoc]
    rfl
  · rw [andThen_eq_ok] at h
    obtain ⟨q, x1, h3, h4⟩ := h
    have := h2 _ _ h3
    cases h4
    exact this

theorem advanceEvents_kept_ok (S : Solver α n k X) (b : Bound α) (ti : α) (ms : List Bool) :
    ∀ eh x r x', (S.advanceEvents bo b ti eh).run x = some (r, x') → Calm ms eh.events →
      (S.advanceEvents bo b ti (keptHandler ms eh)).run x = some (r.map fun a => (keptHandler ms a.1, a.2), x') ∧
        ∀ a, r = .ok a → Calm ms a.1.events := by
  refine advanceEvents.fixpoint_induct S bo b ti
    (fun z => ∀ (eh : EventHandler α n k) x r x', (z eh).run x = some (r, x') → Calm ms eh.events →
      (S.advanceEvents bo b ti (keptHandler ms eh)).run x = some (r.map fun a => (keptHandler ms a.1, a.2), x') ∧
        ∀ a, r = .ok a → Calm ms a.1.events) ?_ ?_
  · exact Lean.Order.admissible_pi_apply (fun (eh : EventHandler α n k) (z : Py (St α n k X) (EventHandler α n k × AdvRes)) =>
      ∀ x r x', z.run x = some (r, x') → Calm ms eh.events →
      (S.advanceEvents bo b ti (keptHandler ms eh)).run x = some (r.map fun a => (keptHandler ms a.1, a.2), x') ∧
        ∀ a, r = .ok a → Calm ms a.1.events)
      fun eh => admissible_post fun x r x' => Calm ms eh.events →
      (S.advanceEvents bo b ti (keptHandler ms eh)).run x = some (r.map fun a => (keptHandler ms a.1, a.2), x') ∧
        ∀ a : EventHandler α n k × AdvRes, r = .ok a → Calm ms a.1.events
  · intro loop ih eh x r x' h hl
    simp only [run_bind, run_ite, run_get, andThen_ok, run_pure] at h
    rw [advanceEvents_run]
    by_cases hlt : x.cache.t < ti
    · rw [if_pos hlt] at h
      rw [if_pos (show x.t < ti from hlt)]
      rcases hp : (S.pstep b).run x with _ | ⟨e | c, x1⟩
      · rw [hp] at h; cases h
      · rw [hp] at h; cases h; exact ⟨rfl, fun a ha => by cases ha⟩
      · rw [hp] at h
        simp only [andThen_ok] at h ⊢
        cases c with
        | false =>
          simp only [Bool.false_eq_true, if_false] at h ⊢
          cases h
          exact ⟨rfl, fun a ha => by cases ha; exact hl⟩
        | true =>
          simp only [if_true] at h ⊢
          obtain ⟨k1, k2⟩ := handler_kept (bo := bo) S.interpAt ms eh hl x1
          rw [k1]
          rcases hE : (eh.evaluate bo S.interpAt).run x1 with _ | ⟨e | ⟨eh1, stop⟩, x2⟩
          · rw [hE] at h; cases h
          · rw [hE] at h; cases h; exact ⟨rfl, fun a ha => by cases ha⟩
          · have hlen := k2 _ _ hE
            rw [hE] at h
            simp only [andThen_ok] at h ⊢
            cases stop with
            | true =>
              simp only [if_true] at h ⊢
              cases h
              exact ⟨rfl, fun a ha => by cases ha; exact hlen⟩
            | false =>
              simp only [Bool.false_eq_true, if_false] at h ⊢
              exact ih eh1 x2 r x' h hlen
    · rw [if_neg hlt] at h
      rw [if_neg (show ¬ x.t < ti from hlt)]
      cases h
      exact ⟨rfl, fun a ha => by cases ha; exact hl⟩

theorem advanceEvents_kept_halts (S : Solver α n k X) (b : Bound α) (ti : α) (ms : List Bool) :
    ∀ eh2 x r x', (S.advanceEvents bo b ti eh2).run x = some (r, x') → ∀ eh, eh2 = keptHandler ms eh → Calm ms eh.events →
      (S.advanceEvents bo b ti eh).run x ≠ none := by
  refine advanceEvents.fixpoint_induct S bo b ti
    (fun z => ∀ (eh2 : EventHandler α n k) x r x', (z eh2).run x = some (r, x') → ∀ eh, eh2 = keptHandler ms eh → Calm ms eh.events →
      (S.advanceEvents bo b ti eh).run x ≠ none) ?_ ?_
  · exact Lean.Order.admissible_pi_apply (fun (eh2 : EventHandler α n k) (z : Py (St α n k X) (EventHandler α n k × AdvRes)) =>
      ∀ x r x', z.run x = some (r, x') → ∀ eh, eh2 = keptHandler ms eh → Calm ms eh.events →
      (S.advanceEvents bo b ti eh).run x ≠ none)
      fun eh2 => admissible_post fun x _ _ => ∀ eh, eh2 = keptHandler ms eh → Calm ms eh.events →
      (S.advanceEvents bo b ti eh).run x ≠ none
  · rintro loop ih _ x r x' h eh rfl hl
    simp only [run_bind, run_ite, run_get, andThen_ok, run_pure] at h
    rw [advanceEvents_run]
    by_cases hlt : x.cache.t < ti
    · rw [if_pos hlt] at h
      rw [if_pos (show x.t < ti from hlt)]
      rcases hp : (S.pstep b).run x with _ | ⟨e | c, x1⟩
      · rw [hp] at h; cases h
      · simp
      · rw [hp] at h
        simp only [andThen_ok] at h ⊢
        cases c with
        | false => simp
        | true =>
          simp only [if_true] at h ⊢
          obtain ⟨k1, k2⟩ := handler_kept (bo := bo) S.interpAt ms eh hl x1
          rw [k1] at h
          rcases hE : (eh.evaluate bo S.interpAt).run x1 with _ | ⟨e | ⟨eh1, stop⟩, x2⟩
          · rw [hE] at h; cases h
          · simp
          · rw [hE] at h
            simp only [andThen_ok] at h ⊢
            cases stop with
            | true => simp
            | false =>
              simp only [Bool.false_eq_true, if_false] at h ⊢
              exact ih _ x2 r x' h eh1 rfl (k2 _ _ hE)
    · rw [if_neg (show ¬ x.t < ti from hlt)]
      simp

theorem advanceEvents_kept (S : Solver α n k X) (b : Bound α) (ti : α) (ms : List Bool)
    (eh : EventHandler α n k) (hc : Calm ms eh.events) (x : St α n k X) :
    (S.advanceEvents bo b ti (keptHandler ms eh)).run x = andThen ((S.advanceEvents bo b ti eh).run x)
      fun p s' => some (.ok (keptHandler ms p.1, p.2), s') := by
  rcases h : (S.advanceEvents bo b ti eh).run x with _ | ⟨r, x'⟩
  · rcases h2 : (S.advanceEvents bo b ti (keptHandler ms eh)).run x with _ | ⟨r, x'⟩
    · rfl
    · exact absurd h (advanceEvents_kept_halts S b ti ms _ _ _ _ h2 eh rfl hc)
  · rw [(advanceEvents_kept_ok S b ti ms _ _ _ _ h hc).1]
    cases r <;> rfl

theorem runEvalEvents_kept (S : Solver α n k X) (b : Bound α) (ms : List Bool) :
    ∀ (ts : List α) (eh : EventHandler α n k) (x : St α n k X), Calm ms eh.events →
    (S.runEvalEvents bo b ts (keptHandler ms eh)).run x = andThen ((S.runEvalEvents bo b ts eh).run x)
      (fun p s' => some (.ok (keptHandler ms p.1, p.2), s')) ∧
    ∀ p s', (S.runEvalEvents bo b ts eh).run x = some (.ok p, s') → Calm ms p.1.events
  | [], _, _, hc => ⟨rfl, fun p s' h => by cases h; exact hc⟩
  | ti :: rest, eh, x, hc => by
    rw [runEvalEvents, runEvalEvents]
    simp only [run_bind]
    rw [advanceEvents_kept S b ti ms eh hc, andThen_assoc, andThen_assoc]
    rcases h : (S.advanceEvents bo b ti eh).run x with _ | ⟨e | ⟨eh1, res⟩, x1⟩
    · exact ⟨rfl, fun p s' h => by cases h⟩
    · exact ⟨rfl, fun p s' h => by cases h⟩
    · have hc1 := (advanceEvents_kept_ok S b ti ms _ _ _ _ h hc).2 _ rfl
      simp only [andThen_ok]
      cases res with
      | refused => exact ⟨rfl, fun p s' h => by cases h; exact hc1⟩
      | terminated =>
        simp only [run_bind, run_get, andThen_ok]
        rcases hle : eh1.lastEvent with _ | ⟨te, re⟩
        · have : (keptHandler ms eh1).lastEvent = none := hle
          rw [this]
          exact ⟨rfl, fun p s' h => by cases h⟩
        · have : (keptHandler ms eh1).lastEvent = some (te, re) := hle
          rw [this]
          exact ⟨rfl, fun p s' h => by cases h; exact hc1⟩
      | reached =>
        simp only [run_bind, run_get, andThen_ok, andThen_assoc]
        refine ⟨?_, fun p s' h => ?_⟩
        · congr 1
          funext r s2
          rw [(runEvalEvents_kept S b ms rest eh1 s2 hc1).1]
          simp only [andThen_assoc, andThen_ok, run_pure]
        · rw [andThen_eq_ok] at h
          obtain ⟨r, x2, -, h3⟩ := h
          rw [andThen_eq_ok] at h3
          obtain ⟨q, x3, h4, h5⟩ := h3
          have := (runEvalEvents_kept S b ms rest eh1 _ hc1).2 _ _ h4
          cases h5
          exact this

theorem kept_map {β γ : Type} (f : β → γ) : ∀ (ms : List Bool) (l : List β), (kept ms l).map f = kept ms (l.map f)
  | [], _ => rfl
  | true :: _, [] => rfl
  | false :: _, [] => rfl
  | true :: ms, x :: l => congrArg (f x :: ·) (kept_map f ms l)
  | false :: ms, _ :: l => kept_map f ms l

theorem calm_empty : ∀ (ms : List Bool) (evs : List (Event α n k)), Calm ms evs → ∀ i : Nat, ms[i]? = some false →
    (evs.map fun e => e.t)[i]? = some [] ∧ (evs.map fun e => e.y)[i]? = some []
  | [], [], _, i, h => by simp at h
  | [], _ :: _, h, _, _ => h.elim
  | _ :: _, [], h, _, _ => h.elim
  | m :: ms, ev :: evs, h, 0, hi => by
    have := h.1 (by simpa using hi)
    simp [this.t, this.y]
  | m :: ms, ev :: evs, h, i + 1, hi => by
    simpa using calm_empty ms evs h.2 i (by simpa using hi)

/-- `run_events` with the silent events left out, as long as some are left. -/
theorem runEvents_kept (S : Solver α n k X) (argsort : List α → List Nat) (ts : List α) (es : List (EventSpec α n))
    (ms : List Bool) (hne : kept ms es ≠ []) (hc : ∀ t y, Calm ms (es.map fun e => buildEvent (k := k) e t y)) (s : St α n k X) :
    (S.runEvents bo argsort ts (some (kept ms es))).run s = andThen ((S.runEvents bo argsort ts (some es)).run s)
      (fun o s' => some (.ok (keptOut ms o), s')) ∧
    ∀ o s', (S.runEvents bo argsort ts (some es)).run s = some (.ok o, s') → ∀ i : Nat, ms[i]? = some false →
      o.tEvents[i]? = some [] ∧ o.yEvents[i]? = some [] := by
  have hB : ∀ t y, buildHandler (k := k) (kept ms es) t y = keptHandler ms (buildHandler es t y) := by
    intro t y
    unfold buildHandler keptHandler
    rw [kept_map]
  have hes : es ≠ [] := by
    rintro rfl
    cases ms with
    | nil => exact hne rfl
    | cons m ms => cases m <;> exact hne rfl
  rw [runEvents_loop S bo argsort ts hne, runEvents_loop S bo argsort ts hes]
  rcases (if isSorted ts then Except.ok ts else fancyIndex ts (argsort ts)) with e | _ | ⟨t0, tl⟩
  · exact ⟨rfl, fun o s' h => by cases h⟩
  · exact ⟨rfl, fun o s' h => by cases h⟩
  simp only
  by_cases h1 : t0 < s.cache.ts (Buffer.iOld k)
  · simp only [if_pos h1]
    exact ⟨rfl, fun o s' h => by cases h⟩
  simp only [if_neg h1]
  by_cases h2 : (Bound.fin (listMax t0 tl)).gt S.tBound = true
  · simp only [if_pos h2]
    exact ⟨rfl, fun o s' h => by cases h⟩
  simp only [if_neg h2]
  rcases (S.interpolateAll ((t0 :: tl).filter fun ti => decide (ti ≤ s.t))).run s with _ | ⟨e | rs, s1⟩
  · exact ⟨rfl, fun o s' h => by cases h⟩
  · exact ⟨rfl, fun o s' h => by cases h⟩
  simp only [andThen_ok]
  obtain ⟨g1, g2⟩ := runEvalEvents_kept (bo := bo) S S.tBound ms (List.filter (fun ti => !decide (ti ≤ s.t)) (t0 :: tl))
    (buildHandler es s1.t s1.y) s1 (hc _ _)
  rw [hB, g1]
  rcases hr : (S.runEvalEvents bo S.tBound (List.filter (fun ti => !decide (ti ≤ s.t)) (t0 :: tl))
    (buildHandler es s1.t s1.y)).run s1 with _ | ⟨e | ⟨eh, out⟩, x1⟩
  · exact ⟨rfl, fun o s' h => by cases h⟩
  · exact ⟨rfl, fun o s' h => by cases h⟩
  have hce := calm_empty ms eh.events (g2 _ _ hr)
  simp only [andThen_ok, keptHandler, kept_map]
  by_cases h3 : (List.filter (fun ti => decide (ti ≤ s.t)) (t0 :: tl)).isEmpty = true
  · simp only [if_pos h3]
    by_cases h4 : isSorted ts = true
    · simp only [if_pos h4]
      exact ⟨rfl, fun o s' h => by cases h; exact hce⟩
    · simp only [if_neg h4]
      rcases fancyIndex ((List.filter (fun ti => decide (ti ≤ s.t)) (t0 :: tl)).zip (rs.map fun r => r.deref s1.cache) ++ out)
        (invPerm (argsort ts)) with e | o
      · exact ⟨rfl, fun o s' h => by cases h⟩
      · exact ⟨rfl, fun o s' h => by cases h; exact hce⟩
  · simp only [if_neg h3]
    exact ⟨rfl, fun o s' h => by cases h⟩

/-! No events at all. -/

theorem empty_evaluate (interp : α → Py (St α n k X) (Ref α n k)) (l : Option (α × Ref α n k)) (s : St α n k X) :
    ((⟨[], l⟩ : EventHandler α n k).evaluate bo interp).run s = some (.ok (⟨[], l⟩, false), s) := by
  unfold EventHandler.evaluate handlerLoop
  simp only [run_bind, run_pure, andThen_ok]

/-- What the loop over the steps reports, as the loop that watches events reports it. -/
def plainRes (l : Option (α × Ref α n k)) (c : Bool) : EventHandler α n k × AdvRes :=
  (⟨[], l⟩, if c then .reached else .refused)

theorem advanceEvents_empty_ok (S : Solver α n k X) (b : Bound α) (ti : α) (l : Option (α × Ref α n k)) :
    ∀ x r x', (S.advance b ti).run x = some (r, x') →
      (S.advanceEvents bo b ti ⟨[], l⟩).run x = some (r.map (plainRes l), x') := by
  refine advance.fixpoint_induct S b ti
    (fun z => ∀ x r x', z.run x = some (r, x') → (S.advanceEvents bo b ti ⟨[], l⟩).run x = some (r.map (plainRes l), x'))
    (admissible_post fun x r x' => (S.advanceEvents bo b ti ⟨[], l⟩).run x = some (r.map (plainRes l), x')) ?_
  intro loop ih x r x' h
  simp only [run_bind, run_ite, run_get, andThen_ok, run_pure] at h
  rw [advanceEvents_run]
  by_cases hlt : x.cache.t < ti
  · rw [if_pos hlt] at h
    rw [if_pos (show x.t < ti from hlt)]
    rcases hp : (S.pstep b).run x with _ | ⟨e | c, x1⟩
    · rw [hp] at h; cases h
    · rw [hp] at h; cases h; rfl
    · rw [hp] at h
      simp only [andThen_ok] at h ⊢
      cases c with
      | false =>
        simp only [Bool.false_eq_true, if_false] at h ⊢
        cases h
        rfl
      | true =>
        simp only [if_true, empty_evaluate, andThen_ok, Bool.false_eq_true, if_false] at h ⊢
        exact ih _ _ _ h
  · rw [if_neg hlt] at h
    rw [if_neg (show ¬ x.t < ti from hlt)]
    cases h
    rfl

theorem advanceEvents_empty_halts (S : Solver α n k X) (b : Bound α) (ti : α) (l : Option (α × Ref α n k)) :
    ∀ eh x r x', (S.advanceEvents bo b ti eh).run x = some (r, x') → eh = ⟨[], l⟩ → (S.advance b ti).run x ≠ none := by
  refine advanceEvents.fixpoint_induct S bo b ti
    (fun z => ∀ (eh : EventHandler α n k) x r x', (z eh).run x = some (r, x') → eh = ⟨[], l⟩ → (S.advance b ti).run x ≠ none) ?_ ?_
  · exact Lean.Order.admissible_pi_apply (fun (eh : EventHandler α n k) (z : Py (St α n k X) (EventHandler α n k × AdvRes)) =>
      ∀ x r x', z.run x = some (r, x') → eh = ⟨[], l⟩ → (S.advance b ti).run x ≠ none)
      fun eh => admissible_post fun x _ _ => eh = ⟨[], l⟩ → (S.advance b ti).run x ≠ none
  · rintro loop ih _ x r x' h rfl
    simp only [run_bind, run_ite, run_get, andThen_ok, run_pure] at h
    rw [advance_run]
    by_cases hlt : x.cache.t < ti
    · rw [if_pos hlt] at h
      rw [if_pos (show x.t < ti from hlt)]
      rcases hp : (S.pstep b).run x with _ | ⟨e | c, x1⟩
      · rw [hp] at h; cases h
      · simp
      · rw [hp] at h
        simp only [andThen_ok] at h ⊢
        cases c with
        | false => simp
        | true =>
          simp only [if_true, empty_evaluate, andThen_ok, Bool.false_eq_true, if_false] at h ⊢
          exact ih _ _ _ _ h rfl
    · rw [if_neg (show ¬ x.t < ti from hlt)]
      simp

theorem advanceEvents_empty (S : Solver α n k X) (b : Bound α) (ti : α) (l : Option (α × Ref α n k)) (x : St α n k X) :
    (S.advanceEvents bo b ti ⟨[], l⟩).run x =
      andThen ((S.advance b ti).run x) fun c s' => some (.ok (plainRes l c), s') := by
  rcases h : (S.advance b ti).run x with _ | ⟨r, x'⟩
  · rcases h2 : (S.advanceEvents bo b ti ⟨[], l⟩).run x with _ | ⟨r, x'⟩
    · rfl
    · exact absurd h (advanceEvents_empty_halts S b ti l _ _ _ _ h2 rfl)
  · rw [advanceEvents_empty_ok S b ti l _ _ _ h]
    cases r <;> rfl

theorem runEvalEvents_empty (S : Solver α n k X) (b : Bound α) (l : Option (α × Ref α n k)) : ∀ (ts : List α) (x : St α n k X),
    (S.runEvalEvents bo b ts ⟨[], l⟩).run x = andThen ((S.runEval b ts).run x) fun out s' => some (.ok (⟨[], l⟩, out), s')
  | [], _ => rfl
  | ti :: rest, x => by
    rw [runEvalEvents, runEval]
    simp only [run_bind]
    rw [advanceEvents_empty S b ti l, andThen_assoc, andThen_assoc]
    congr 1
    funext c s1
    cases c with
    | false => rfl
    | true =>
      simp only [andThen_ok, plainRes, if_true, run_bind, run_get, andThen_assoc]
      congr 1
      funext r s2
      rw [runEvalEvents_empty S b l rest s2]
      simp only [andThen_assoc, andThen_ok, run_pure]

theorem kept_none {β : Type} : ∀ l : List β, kept (l.map fun _ => false) l = []
  | [] => rfl
  | _ :: l => kept_none l

end Nbkode
