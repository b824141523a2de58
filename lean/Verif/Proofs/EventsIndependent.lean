import Verif.Proofs.Simulate

/-! Two lists of events watched by the same run, the second drawn from the first. -/

set_option autoImplicit false
set_option linter.unusedSectionVars false

namespace Nbkode
open Py Spec Solver

section field
variable {α : Type} [Field α] [LinearOrder α] [IsStrictOrderedRing α] [BEq α] [LawfulBEq α]
variable {n k : Nat} {X : Type} {S : Solver α n k X}

/-- The members of the second list are those of the first at the positions `idx`. -/
def Drawn {A : Type} (idx : List Nat) (l l2 : List A) : Prop := List.Forall₂ (fun i x => l[i]? = some x) idx l2

theorem Drawn.map {A B : Type} {idx : List Nat} {l l2 : List A} (h : Drawn idx l l2) (f : A → B) :
    Drawn idx (l.map f) (l2.map f) := by
  unfold Drawn at h ⊢
  induction h with
  | nil => exact .nil
  | cons hx _ ih => exact .cons (by rw [List.getElem?_map, hx]; rfl) ih

theorem Drawn.mem {A : Type} {idx : List Nat} {l l2 : List A} (h : Drawn idx l l2) : ∀ x ∈ l2, x ∈ l := by
  unfold Drawn at h
  induction h with
  | nil => simp
  | cons hx _ ih =>
    intro x hx'
    rcases List.mem_cons.mp hx' with rfl | hx'
    · exact List.mem_of_getElem? hx
    · exact ih x hx'

/-- What an event becomes when it is evaluated at `x0`, and whether it stops the run. -/
def evaluated (S : Solver α n k X) (bo : BisectOpts α) (x0 : St α n k X) (ev : Event α n k) : Event α n k × Bool :=
  match (ev.evaluate bo S.interpAt).run x0 with
  | some (.ok p, _) => p
  | _ => (ev, false)

theorem recordAt_terminal {interp : α → Py (St α n k X) (Ref α n k)} {ev ev' : Event α n k} {root : α} {x x' : St α n k X}
    (h : (recordAt interp ev root).run x = some (.ok ev', x')) : ev'.isTerminal = ev.isTerminal := by
  unfold recordAt at h
  rw [run_ite] at h
  split at h
  · cases h; rfl
  · rw [run_bind, andThen_eq_ok] at h
    obtain ⟨r, x1, -, h⟩ := h
    cases h; rfl

theorem evaluate_terminal {bo : BisectOpts α} {ev : Event α n k} {x x' : St α n k X} {p : Event α n k × Bool}
    (h : (ev.evaluate bo S.interpAt).run x = some (.ok p, x')) :
    p.1.isTerminal = ev.isTerminal ∧ (p.2 = true → ev.isTerminal = true) := by
  rw [evaluate_run, andThen_eq_ok] at h
  obtain ⟨ev', x1, h1, h2⟩ := h
  cases h2
  refine ⟨?_, fun h => (Bool.and_eq_true _ _ ▸ h : _ ∧ _).2⟩
  split at h1
  · rw [andThen_eq_ok] at h1
    obtain ⟨root, x2, -, h3⟩ := h1
    have := recordAt_terminal h3
    exact this
  · cases h1; rfl

theorem evaluated_terminal (bo : BisectOpts α) (x0 : St α n k X) (ev : Event α n k) :
    (evaluated S bo x0 ev).1.isTerminal = ev.isTerminal ∧ ((evaluated S bo x0 ev).2 = true → ev.isTerminal = true) := by
  unfold evaluated
  split
  · exact evaluate_terminal ‹_›
  · simp

/-- The last event of the handler after a member has been evaluated. -/
def lastOf (last : Option (α × Ref α n k)) (p : Event α n k × Bool) : Option (α × Ref α n k) :=
  if p.2 then match p.1.lastEvent with
    | some q => some q
    | none => last
  else last

/-- At every state which is `b` up to the interpolator the event evaluates to the same. -/
def Evaluates (D : Dense S.method S.rhs) (bo : BisectOpts α) (b x0 : St α n k X) (ev : Event α n k) : Prop :=
  ∀ y, At D b y → ∃ y', (ev.evaluate bo S.interpAt).run y = some (.ok (evaluated S bo x0 ev), y') ∧ At D b y'

theorem handlerLoop_members (hM : WellConfigured S.method) (D : Dense S.method S.rhs) {b x0 : St α n k X} (bo : BisectOpts α)
    (h0 : At D b x0) (evs : List (Event α n k))
    (h : ∀ ev ∈ evs, b.cache.ts (Buffer.iOld k) ≤ ev.lastT ∧ ev.lastT ≤ b.t) :
    ∀ term last x p x', At D b x → (handlerLoop bo S.interpAt evs term last).run x = some (.ok p, x') →
      (∀ ev ∈ evs, Evaluates D bo b x0 ev) ∧ p = (evs.map (fun e => (evaluated S bo x0 e).1),
        term || evs.any (fun e => (evaluated S bo x0 e).2), evs.foldl (fun l e => lastOf l (evaluated S bo x0 e)) last) ∧
      At D b x' := by
  induction evs with
  | nil =>
    intro term last x p x' hx hr
    rw [handlerLoop] at hr
    cases hr
    exact ⟨by simp, by simp, hx⟩
  | cons ev evs ih =>
    intro term last x p x' hx hr
    rw [handlerLoop, run_bind, andThen_eq_ok] at hr
    obtain ⟨⟨ev', stop⟩, x1, h1, h2⟩ := hr
    have hsim := sim_evaluate hM D bo ev (h ev List.mem_cons_self).1 (h ev List.mem_cons_self).2
    obtain ⟨⟨z, g1, g2⟩, -⟩ := hsim x x0 ⟨hx, h0⟩ _ x1 h1
    have e0 : evaluated S bo x0 ev = (ev', stop) := by unfold evaluated; rw [g1]
    rw [run_bind, andThen_eq_ok] at h2
    obtain ⟨⟨evs', term', last'⟩, x2, h3, h4⟩ := h2
    cases h4
    obtain ⟨k1, k2, k3⟩ := ih (fun e he => h e (List.mem_cons_of_mem _ he)) _ _ x1 _ _ g2.1 h3
    refine ⟨?_, ?_, k3⟩
    · intro e he
      rcases List.mem_cons.mp he with rfl | he
      · intro y hy
        obtain ⟨⟨y', j1, j2⟩, -⟩ := hsim x y ⟨hx, hy⟩ _ x1 h1
        exact ⟨y', by rw [e0]; exact j1, j2.2⟩
      · exact k1 e he
    · simp only [Prod.mk.injEq] at k2
      obtain ⟨rfl, rfl, rfl⟩ := k2
      simp only [List.map_cons, List.any_cons, List.foldl_cons, e0, Bool.or_assoc]
      rfl

theorem handlerLoop_of_members {D : Dense S.method S.rhs} {b x0 : St α n k X} (bo : BisectOpts α) (evs : List (Event α n k))
    (h : ∀ ev ∈ evs, Evaluates D bo b x0 ev) : ∀ term last y, At D b y →
      ∃ y', (handlerLoop bo S.interpAt evs term last).run y = some (.ok (evs.map (fun e => (evaluated S bo x0 e).1),
        term || evs.any (fun e => (evaluated S bo x0 e).2), evs.foldl (fun l e => lastOf l (evaluated S bo x0 e)) last), y') ∧
        At D b y' := by
  induction evs with
  | nil =>
    intro term last y hy
    exact ⟨y, by rw [handlerLoop]; simp [run_pure], hy⟩
  | cons ev evs ih =>
    intro term last y hy
    obtain ⟨y1, g1, g2⟩ := h ev List.mem_cons_self y hy
    obtain ⟨y2, g3, g4⟩ := ih (fun e he => h e (List.mem_cons_of_mem _ he)) (term || (evaluated S bo x0 ev).2)
      (lastOf last (evaluated S bo x0 ev)) y1 g2
    refine ⟨y2, ?_, g4⟩
    rw [handlerLoop, run_bind, g1, andThen_ok]
    rcases hev : evaluated S bo x0 ev with ⟨ev', stop⟩
    rw [hev] at g3
    simp only
    rw [run_bind]
    change andThen ((handlerLoop bo S.interpAt evs (term || stop) (lastOf last (ev', stop))).run y1) _ = _
    rw [g3, andThen_ok]
    simp [run_pure, Bool.or_assoc, hev]

/-- Whether a member stops the run is decided by the terminal members. -/
theorem any_terminal (bo : BisectOpts α) (x0 : St α n k X) (evs : List (Event α n k)) :
    evs.any (fun e => (evaluated S bo x0 e).2) =
      (evs.filter fun e => e.isTerminal).any fun e => (evaluated S bo x0 e).2 := by
  induction evs with
  | nil => rfl
  | cons ev evs ih =>
    rw [List.any_cons, List.filter_cons, ih]
    by_cases ht : ev.isTerminal = true
    · rw [if_pos ht, List.any_cons]
    · rw [if_neg ht]
      have : (evaluated S bo x0 ev).2 = false := by
        rw [Bool.eq_false_iff]
        exact fun hc => ht ((evaluated_terminal bo x0 ev).2 hc)
      rw [this, Bool.false_or]

theorem last_terminal (bo : BisectOpts α) (x0 : St α n k X) (evs : List (Event α n k)) :
    ∀ last, evs.foldl (fun l e => lastOf l (evaluated S bo x0 e)) last =
      (evs.filter fun e => e.isTerminal).foldl (fun l e => lastOf l (evaluated S bo x0 e)) last := by
  induction evs with
  | nil => intro last; rfl
  | cons ev evs ih =>
    intro last
    rw [List.foldl_cons, List.filter_cons, ih]
    by_cases ht : ev.isTerminal = true
    · rw [if_pos ht, List.foldl_cons]
    · rw [if_neg ht]
      have : (evaluated S bo x0 ev).2 = false := by
        rw [Bool.eq_false_iff]
        exact fun hc => ht ((evaluated_terminal bo x0 ev).2 hc)
      unfold lastOf
      rw [this]
      rfl

/-- The second handler watches members of the first, among them the terminal ones in their order. -/
structure Picked (idx : List Nat) (eh eh2 : EventHandler α n k) : Prop where
  events : Drawn idx eh.events eh2.events
  last : eh2.lastEvent = eh.lastEvent
  terminal : eh2.events.filter (fun e => e.isTerminal) = eh.events.filter fun e => e.isTerminal

theorem filter_evaluated (bo : BisectOpts α) (x0 : St α n k X) (evs : List (Event α n k)) :
    (evs.map fun e => (evaluated S bo x0 e).1).filter (fun e => e.isTerminal) =
      (evs.filter fun e => e.isTerminal).map fun e => (evaluated S bo x0 e).1 := by
  rw [List.filter_map]
  congr 1
  refine List.filter_congr fun e _ => ?_
  exact (evaluated_terminal bo x0 e).1

theorem picked_handler (hM : WellConfigured S.method) (D : Dense S.method S.rhs) {b : St α n k X} (bo : BisectOpts α)
    {idx : List Nat} {eh eh2 : EventHandler α n k} (hp : Picked idx eh eh2)
    (h : ∀ ev ∈ eh.events, b.cache.ts (Buffer.iOld k) ≤ ev.lastT ∧ ev.lastT ≤ b.t)
    {x y x' : St α n k X} {p : EventHandler α n k × Bool} (hR : RelAt D b x y)
    (hr : (eh.evaluate bo S.interpAt).run x = some (.ok p, x')) :
    ∃ eh2' y', (eh2.evaluate bo S.interpAt).run y = some (.ok (eh2', p.2), y') ∧ Picked idx p.1 eh2' ∧ RelAt D b x' y' := by
  unfold EventHandler.evaluate at hr ⊢
  rw [run_bind, andThen_eq_ok] at hr
  obtain ⟨q, x1, h1, h2⟩ := hr
  obtain ⟨k1, k2, k3⟩ := handlerLoop_members hM D bo hR.1 eh.events h _ _ x _ _ hR.1 h1
  subst k2
  cases h2
  obtain ⟨y', g1, g2⟩ := handlerLoop_of_members (x0 := x) bo eh2.events (fun e he => k1 e (hp.events.mem e he)) false
    eh2.lastEvent y hR.2
  refine ⟨⟨eh2.events.map fun e => (evaluated S bo x e).1, eh2.events.foldl (fun l e => lastOf l (evaluated S bo x e)) eh2.lastEvent⟩,
    y', ?_, ⟨hp.events.map _, ?_, ?_⟩, k3, g2⟩
  · rw [run_bind, g1, andThen_ok]
    rw [any_terminal bo x eh2.events, any_terminal bo x eh.events, hp.terminal]
    rfl
  · simp only
    rw [last_terminal bo x eh2.events, last_terminal bo x eh.events, hp.terminal, hp.last]
  · simp only
    rw [filter_evaluated bo x eh2.events, filter_evaluated bo x eh.events, hp.terminal]

theorem picked_advanceEvents (hM : WellConfigured S.method) (D : Dense S.method S.rhs) (bo : BisectOpts α) (b : Bound α) (ti : α)
    (idx : List Nat) :
    ∀ eh x r x', (S.advanceEvents bo b ti eh).run x = some (r, x') → ∀ a, r = .ok a → ∀ y eh2, Rel D x y → Picked idx eh eh2 →
      (∀ ev ∈ eh.events, ev.lastT = x.t) → x.cache.ts (Buffer.iOld k) ≤ ti →
      ∃ eh2' y', (S.advanceEvents bo b ti eh2).run y = some (.ok (eh2', a.2), y') ∧ Picked idx a.1 eh2' ∧ Rel D x' y' := by
  refine advanceEvents.fixpoint_induct S bo b ti
    (fun z => ∀ (eh : EventHandler α n k) x r x', (z eh).run x = some (r, x') → ∀ a, r = .ok a → ∀ y eh2, Rel D x y →
      Picked idx eh eh2 → (∀ ev ∈ eh.events, ev.lastT = x.t) → x.cache.ts (Buffer.iOld k) ≤ ti →
      ∃ eh2' y', (S.advanceEvents bo b ti eh2).run y = some (.ok (eh2', a.2), y') ∧ Picked idx a.1 eh2' ∧ Rel D x' y') ?_ ?_
  · exact Lean.Order.admissible_pi_apply (fun (eh : EventHandler α n k) (z : Py (St α n k X) (EventHandler α n k × AdvRes)) =>
      ∀ x r x', z.run x = some (r, x') → ∀ a, r = .ok a → ∀ y eh2, Rel D x y → Picked idx eh eh2 →
      (∀ ev ∈ eh.events, ev.lastT = x.t) → x.cache.ts (Buffer.iOld k) ≤ ti →
      ∃ eh2' y', (S.advanceEvents bo b ti eh2).run y = some (.ok (eh2', a.2), y') ∧ Picked idx a.1 eh2' ∧ Rel D x' y')
      fun eh => admissible_post fun x r x' => ∀ a : EventHandler α n k × AdvRes, r = .ok a → ∀ y eh2, Rel D x y → Picked idx eh eh2 →
      (∀ ev ∈ eh.events, ev.lastT = x.t) → x.cache.ts (Buffer.iOld k) ≤ ti →
      ∃ eh2' y', (S.advanceEvents bo b ti eh2).run y = some (.ok (eh2', a.2), y') ∧ Picked idx a.1 eh2' ∧ Rel D x' y'
  · intro loop ih eh x r x' h a hr y eh2 hR hp he h0
    subst hr
    simp only [run_bind, run_ite, run_get, andThen_ok, run_pure] at h
    rw [advanceEvents_run, ← same_t hR.1]
    split at h
    · rename_i hlt
      rw [if_pos (show x.t < ti from hlt)]
      rw [andThen_eq_ok] at h
      obtain ⟨c, x1, h1, h2⟩ := h
      obtain ⟨⟨y1, g1, g2⟩, -⟩ := sim_pstep hM D b x y hR c x1 h1
      rw [g1, andThen_ok]
      cases c with
      | false =>
        simp at h2
        obtain ⟨rfl, rfl⟩ := h2
        exact ⟨eh2, y1, by simp, hp, g2⟩
      | true =>
        simp only [if_true] at h2 ⊢
        rw [andThen_eq_ok] at h2
        obtain ⟨⟨eh1, stop⟩, x2, h3, h4⟩ := h2
        have hst := stepped_takes hM.forward hR.2.1 (pstep_true.mp h1).2
        have hl : ∀ ev ∈ eh.events, x1.cache.ts (Buffer.iOld k) ≤ ev.lastT ∧ ev.lastT ≤ x1.t := fun ev hev => by
          rw [he ev hev]; exact ⟨hst.old, hst.le⟩
        obtain ⟨eh3, y2, g3, g4, g5⟩ := picked_handler hM D bo hp hl g2.at h3
        obtain ⟨-, g6⟩ := sim_handler hM D (b := x1) bo eh hl x1 y1 g2.at _ x2 h3
        rw [g3, andThen_ok]
        have e2 : x2.cache = x1.cache := g5.1.1.1
        have h02 : x2.cache.ts (Buffer.iOld k) ≤ ti := by rw [e2]; exact hst.old.trans hlt.le
        have g6' : ∀ ev ∈ eh1.events, ev.lastT = x2.t := by
          intro ev hev
          rw [g6 ev hev]
          exact (same_t g5.1.1).symm
        cases stop with
        | true =>
          simp at h4
          obtain ⟨rfl, rfl⟩ := h4
          exact ⟨eh3, y2, by simp, g4, g5.rel⟩
        | false =>
          simp only [Bool.false_eq_true, if_false] at h4 ⊢
          exact ih eh1 x2 _ x' h4 a rfl y2 eh3 g5.rel g4 g6' h02
    · rename_i hlt
      rw [if_neg (show ¬ x.t < ti from hlt)]
      cases h
      exact ⟨eh2, y, rfl, hp, hR⟩

theorem picked_runEvalEvents (hM : WellConfigured S.method) (D : Dense S.method S.rhs) (bo : BisectOpts α) (b : Bound α)
    (idx : List Nat) {ts : List α} (hs : ts.Pairwise (· ≤ ·)) :
    ∀ {eh eh2 : EventHandler α n k} {x y x' : St α n k X} {p : EventHandler α n k × List (α × Vec α n)},
    Rel D x y → Picked idx eh eh2 → (S.runEvalEvents bo b ts eh).run x = some (.ok p, x') → (∀ ev ∈ eh.events, ev.lastT = x.t) →
    (∀ u ∈ ts, x.cache.ts (Buffer.iOld k) ≤ u) →
    ∃ eh2' y', (S.runEvalEvents bo b ts eh2).run y = some (.ok (eh2', p.2), y') ∧ Picked idx p.1 eh2' ∧ Rel D x' y' := by
  induction ts with
  | nil =>
    intro eh eh2 x y x' p hR hp hr he h0
    rw [runEvalEvents] at hr
    cases hr
    exact ⟨eh2, y, rfl, hp, hR⟩
  | cons ti rest ih =>
    intro eh eh2 x y x' p hR hp hr he h0
    obtain ⟨hs1, hs2⟩ := List.pairwise_cons.mp hs
    rw [runEvalEvents_cons, andThen_eq_ok] at hr
    obtain ⟨⟨eh1, res⟩, x1, h1, h2⟩ := hr
    obtain ⟨eh3, y1, g1, g2, g6⟩ := picked_advanceEvents hM D bo b ti idx _ _ _ _ h1 _ rfl y eh2 hR hp he (h0 ti List.mem_cons_self)
    obtain ⟨-, -, -, g3, g4, g5⟩ := sim_advanceEvents hM D bo b ti _ _ _ _ h1 _ rfl y hR he (h0 ti List.mem_cons_self)
    rw [runEvalEvents_cons, g1, andThen_ok]
    cases res with
    | refused => cases h2; exact ⟨eh3, y1, rfl, g2, g6⟩
    | terminated =>
      revert h2
      dsimp only
      have el := g2.last
      rw [el]
      dsimp only
      cases eh1.lastEvent with
      | none => intro h2; cases h2
      | some q =>
        intro h2
        cases h2
        exact ⟨eh3, y1, by rw [g6.1.1], g2, g6⟩
    | reached =>
      dsimp only at h2 ⊢
      rw [andThen_eq_ok] at h2
      obtain ⟨r, x2, h3, h4⟩ := h2
      rw [andThen_eq_ok] at h4
      obtain ⟨q, x3, h5, h6⟩ := h4
      cases h6
      obtain ⟨⟨y2, k1, k2⟩, -⟩ := sim_interp hM D g4 (g5 rfl) x1 y1 g6.at r x2 h3
      have e2 : x2.cache = x1.cache := k2.1.1.1
      obtain ⟨eh4, y3, k3, k4, k5⟩ := ih hs2 k2.rel g2 h5 (fun ev hev => (g3 ev hev).trans (same_t k2.1.1).symm)
        (fun u hu => by rw [e2]; exact g4.trans (hs1 u hu))
      exact ⟨eh4, y3, by rw [k1, andThen_ok, k3, andThen_ok, k2.rel.1.1], k4, k5⟩

theorem build_terminal (es : List (EventSpec α n)) (t : α) (y : Vec α n) :
    (buildHandler (k := k) es t y).events.filter (fun e => e.isTerminal) =
      (es.filter fun e => e.terminal.getD false).map fun e => buildEvent e t y := by
  unfold buildHandler
  rw [List.filter_map]
  rfl

end field

end Nbkode
