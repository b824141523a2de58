import Verif.Proofs.EventsIndependent
import Verif.Spec.Resume

/-! A run watched by a handler that has records already, beside the same run watched by a new one. -/

set_option autoImplicit false
set_option linter.unusedSectionVars false

namespace Nbkode
open Py Spec Solver

section field
variable {α : Type} [Field α] [LinearOrder α] [IsStrictOrderedRing α] [BEq α] [LawfulBEq α]
variable {n k : Nat} {X : Type} {S : Solver α n k X}

theorem joined_last {A B : Type} {t1 t2 t : List A} {y1 y2 y : List B} (h : JoinedUp t1 y1 t2 y2 t y) (h2 : t2 ≠ []) :
    t.getLast? = t2.getLast? := by
  rcases h with ⟨rfl, -⟩ | ⟨x, h3, h4, rfl, -⟩
  · rw [List.getLast?_append_of_ne_nil _ h2]
  · rcases t2 with _ | ⟨a, t2⟩
    · exact absurd rfl h2
    · cases h4
      rcases t2 with _ | ⟨b, t2⟩
      · simpa using h3
      · rw [List.tail_cons, List.getLast?_append_of_ne_nil _ (by simp)]
        simp

theorem joined_nil {A B : Type} {t1 t : List A} {y1 y : List B} (h : JoinedUp t1 y1 [] [] t y) : t = t1 ∧ y = y1 := by
  rcases h with ⟨rfl, rfl⟩ | ⟨x, -, h4, -⟩
  · simp
  · cases h4

theorem joined_snoc {A B : Type} {t1 t2 t : List A} {y1 y2 y : List B} (h : JoinedUp t1 y1 t2 y2 t y) (hl : t2.length = y2.length) (a : A) (b : B) :
    JoinedUp t1 y1 (t2 ++ [a]) (y2 ++ [b]) (t ++ [a]) (y ++ [b]) := by
  rcases h with ⟨rfl, rfl⟩ | ⟨x, h3, h4, rfl, rfl⟩
  · exact Or.inl ⟨by simp, by simp⟩
  · rcases t2 with _ | ⟨c, t2⟩
    · cases h4
    · rcases y2 with _ | ⟨d, y2⟩
      · simp at hl
      · exact Or.inr ⟨x, h3, h4, by simp, by simp⟩

/-- `ev2` goes on from the records `pt`, `py`, and `ev` is new. -/
structure Ahead (pt : List α) (py : List (Ref α n k)) (ev ev2 : Event α n k) : Prop where
  func : ev2.func = ev.func
  quiet : ev.isTerminal = false
  quiet2 : ev2.isTerminal = false
  direction : ev2.direction = ev.direction
  lastT : ev2.lastT = ev.lastT
  lastValue : ev2.lastValue = ev.lastValue
  len : ev.t.length = ev.y.length
  joined : JoinedUp pt py ev.t ev.y ev2.t ev2.y

theorem ahead_record {D : Dense S.method S.rhs} (hM : WellConfigured S.method) {b : St α n k X} {pt : List α} {py : List (Ref α n k)}
    {ev ev2 ev' : Event α n k} (ha : Ahead pt py ev ev2) {root : α} (h1 : b.cache.ts (Buffer.iOld k) ≤ root) (h2 : root ≤ b.t)
    {x y x' : St α n k X} (hR : RelAt D b x y) (hr : (recordAt S.interpAt ev root).run x = some (.ok ev', x')) :
    ∃ ev2' y', (recordAt S.interpAt ev2 root).run y = some (.ok ev2', y') ∧ Ahead pt py ev' ev2' ∧ RelAt D b x' y' := by
  have hdup : ∀ e : Event α n k, dupOf e root = true ↔ e.t.getLast? = some root := by
    intro e
    unfold dupOf
    cases e.t.getLast? <;> simp
  unfold recordAt at hr ⊢
  rw [run_ite] at hr ⊢
  by_cases hd : dupOf ev root = true
  · rw [if_pos hd] at hr
    cases hr
    have hd' := (hdup ev).1 hd
    have hne : ev.t ≠ [] := by rintro e; rw [e] at hd'; cases hd'
    rw [if_pos ((hdup ev2).2 ((joined_last ha.joined hne).trans hd'))]
    exact ⟨ev2, y, rfl, ha, hR⟩
  · rw [if_neg hd, run_bind, andThen_eq_ok] at hr
    obtain ⟨r, x1, r1, r2⟩ := hr
    cases r2
    obtain ⟨⟨y1, g1, g2⟩, -⟩ := sim_interp hM D h1 h2 x y hR r x' r1
    by_cases hd2 : dupOf ev2 root = true
    · rw [if_pos hd2]
      refine ⟨ev2, y, rfl, ⟨ha.func, ha.quiet, ha.quiet2, ha.direction, ha.lastT, ha.lastValue, by simp [ha.len], ?_⟩, g2.1, hR.2⟩
      have hd2' := (hdup ev2).1 hd2
      have he : ev.t = [] := by
        by_contra hne
        exact hd ((hdup ev).2 ((joined_last ha.joined hne).symm.trans hd2'))
      have hy : ev.y = [] := by
        rw [← List.length_eq_zero_iff, ← ha.len, he, List.length_nil]
      have hj := ha.joined
      rw [he, hy] at hj
      obtain ⟨e1, e2⟩ := joined_nil hj
      refine Or.inr ⟨root, by rw [← e1]; exact hd2', by simp [he], ?_, ?_⟩
      · simp [he, e1]
      · simp [hy, e2]
    · rw [if_neg hd2, run_bind, g1, andThen_ok]
      exact ⟨_, y1, rfl, ⟨ha.func, ha.quiet, ha.quiet2, ha.direction, ha.lastT, ha.lastValue, by simp [ha.len], joined_snoc ha.joined ha.len _ _⟩, g2⟩

theorem ahead_evaluate (hM : WellConfigured S.method) (D : Dense S.method S.rhs) {b : St α n k X} (bo : BisectOpts α)
    {pt : List α} {py : List (Ref α n k)} {ev ev2 : Event α n k} (ha : Ahead pt py ev ev2)
    (h1 : b.cache.ts (Buffer.iOld k) ≤ ev.lastT) (h2 : ev.lastT ≤ b.t) {x y x' : St α n k X} {p : Event α n k × Bool} (hR : RelAt D b x y)
    (hr : (ev.evaluate bo S.interpAt).run x = some (.ok p, x')) :
    ∃ ev2' y', (ev2.evaluate bo S.interpAt).run y = some (.ok (ev2', false), y') ∧ p.2 = false ∧ Ahead pt py p.1 ev2' ∧ RelAt D b x' y' := by
  rw [evaluate_run] at hr
  have ex : x.cache = b.cache := hR.1.1.1
  have ey : y.cache = b.cache := hR.2.1.1
  have hob : b.cache.ts (Buffer.iOld k) ≤ b.t := h1.trans h2
  rw [ex] at hr
  rw [andThen_eq_ok] at hr
  obtain ⟨ev', x1, r1, r2⟩ := hr
  cases r2
  have hroot : Sim (RelAt D b) (fun τ => b.cache.ts (Buffer.iOld k) ≤ τ ∧ τ ≤ b.t)
      (rootOf bo S.interpAt ev (ev.func b.cache.t b.cache.y) b.cache.t) := by
    unfold rootOf
    refine sim_ite (fun _ => sim_pure ⟨hob, le_refl _⟩) fun _ => ?_
    refine sim_weaken (sim_bisect (lo := ev.lastT) (hi := b.cache.t) ?_ _ _ _) fun τ hτ => ⟨h1.trans hτ.1, hτ.2⟩
    intro z hz1 hz2
    exact sim_eventAtSol hM D _ (h1.trans hz1) hz2
  have er : rootOf bo S.interpAt ev2 (ev.func b.cache.t b.cache.y) b.cache.t = rootOf bo S.interpAt ev (ev.func b.cache.t b.cache.y) b.cache.t := by
    unfold rootOf
    rw [ha.func, ha.lastT]
  have hbody : ∃ ev2' y1, (if triggers ev2.direction ev2.lastValue (ev2.func b.cache.t b.cache.y) then
        andThen ((rootOf bo S.interpAt ev2 (ev2.func b.cache.t b.cache.y) b.cache.t).run y) fun root s1 =>
          (recordAt S.interpAt ev2 root).run s1 else some (.ok ev2, y)) = some (.ok ev2', y1) ∧ Ahead pt py ev' ev2' ∧ RelAt D b x' y1 := by
    rw [ha.direction, ha.lastValue, ha.func, er]
    split at r1
    · rename_i ht
      rw [if_pos ht]
      rw [andThen_eq_ok] at r1
      obtain ⟨root, x2, r3, r4⟩ := r1
      obtain ⟨⟨y2, g1, g2⟩, g3, g4⟩ := hroot x y hR root x2 r3
      obtain ⟨ev2', y3, g5, g6, g7⟩ := ahead_record hM ha g3 g4 g2 r4
      exact ⟨ev2', y3, by rw [g1, andThen_ok, g5], g6, g7⟩
    · rename_i ht
      rw [if_neg ht]
      cases r1
      exact ⟨ev2, y, rfl, ha, hR⟩
  obtain ⟨ev2', y1, g1, g2, g3⟩ := hbody
  refine ⟨{ ev2' with lastT := b.cache.t, lastValue := ev.func b.cache.t b.cache.y }, y1, ?_, by rw [ha.quiet, Bool.and_false],
    ⟨g2.func, g2.quiet, g2.quiet2, g2.direction, rfl, rfl, g2.len, g2.joined⟩, g3⟩
  rw [evaluate_run, ey, g1, andThen_ok, ha.quiet2, Bool.and_false, ha.func]

/-- The same for all events. -/
inductive AheadAll : List (List α × List (Ref α n k)) → List (Event α n k) → List (Event α n k) → Prop
  | nil : AheadAll [] [] []
  | cons {p : List α × List (Ref α n k)} {ps : List (List α × List (Ref α n k))} {ev ev2 : Event α n k} {evs evs2 : List (Event α n k)} :
    Ahead p.1 p.2 ev ev2 → AheadAll ps evs evs2 → AheadAll (p :: ps) (ev :: evs) (ev2 :: evs2)

theorem ahead_handlerLoop (hM : WellConfigured S.method) (D : Dense S.method S.rhs) {b : St α n k X} (bo : BisectOpts α)
    {ps : List (List α × List (Ref α n k))} {evs evs2 : List (Event α n k)} (ha : AheadAll ps evs evs2) :
    (∀ ev ∈ evs, b.cache.ts (Buffer.iOld k) ≤ ev.lastT ∧ ev.lastT ≤ b.t) →
    ∀ {term : Bool} {last last2 : Option (α × Ref α n k)} {x y x' : St α n k X} {p : List (Event α n k) × Bool × Option (α × Ref α n k)}, RelAt D b x y →
      (handlerLoop bo S.interpAt evs term last).run x = some (.ok p, x') →
      ∃ evs2' l2 y', (handlerLoop bo S.interpAt evs2 term last2).run y = some (.ok (evs2', term, l2), y') ∧ p.2.1 = term ∧ AheadAll ps p.1 evs2' ∧
        RelAt D b x' y' := by
  induction ha with
  | nil =>
    intro _ term last last2 x y x' p hR hr
    rw [handlerLoop] at hr
    cases hr
    exact ⟨[], last2, y, rfl, rfl, .nil, hR⟩
  | cons h1 h2 ih =>
    intro hl term last last2 x y x' p hR hr
    rw [handlerLoop, run_bind, andThen_eq_ok] at hr
    obtain ⟨⟨ev', stop⟩, x1, r1, r2⟩ := hr
    obtain ⟨ev2', y1, g1, g2, g3, g4⟩ := ahead_evaluate hM D bo h1 (hl _ List.mem_cons_self).1 (hl _ List.mem_cons_self).2 hR r1
    have hst : stop = false := g2
    subst hst
    rw [run_bind, andThen_eq_ok] at r2
    obtain ⟨q, x2, r3, r4⟩ := r2
    cases r4
    obtain ⟨evs2', l2, y2, k1, k2, k3, k4⟩ := ih (fun e he => hl e (List.mem_cons_of_mem _ he)) (last2 := last2) g4 r3
    rw [Bool.or_false] at k1 k2
    refine ⟨ev2' :: evs2', l2, y2, ?_, k2, .cons g3 k3, k4⟩
    rw [handlerLoop, run_bind, g1, andThen_ok]
    simp only [Bool.or_false, Bool.false_eq_true, if_false]
    rw [run_bind, k1, andThen_ok]
    rfl

theorem ahead_handler (hM : WellConfigured S.method) (D : Dense S.method S.rhs) {b : St α n k X} (bo : BisectOpts α)
    {ps : List (List α × List (Ref α n k))} {eh eh2 : EventHandler α n k} (ha : AheadAll ps eh.events eh2.events)
    (h : ∀ ev ∈ eh.events, b.cache.ts (Buffer.iOld k) ≤ ev.lastT ∧ ev.lastT ≤ b.t)
    {x y x' : St α n k X} {p : EventHandler α n k × Bool} (hR : RelAt D b x y)
    (hr : (eh.evaluate bo S.interpAt).run x = some (.ok p, x')) :
    ∃ eh2' y', (eh2.evaluate bo S.interpAt).run y = some (.ok (eh2', false), y') ∧ p.2 = false ∧ AheadAll ps p.1.events eh2'.events ∧ RelAt D b x' y' := by
  unfold EventHandler.evaluate at hr ⊢
  rw [run_bind, andThen_eq_ok] at hr
  obtain ⟨q, x1, h1, h2⟩ := hr
  cases h2
  obtain ⟨evs2', l2, y', k1, k2, k3, k4⟩ := ahead_handlerLoop hM D bo ha h (last2 := eh2.lastEvent) hR h1
  exact ⟨⟨evs2', l2⟩, y', by rw [run_bind, k1, andThen_ok]; rfl, k2, k3, k4⟩

theorem ahead_advanceEvents (hM : WellConfigured S.method) (D : Dense S.method S.rhs) (bo : BisectOpts α) (b : Bound α) (ti : α)
    (ps : List (List α × List (Ref α n k))) :
    ∀ eh x r x', (S.advanceEvents bo b ti eh).run x = some (r, x') → ∀ a, r = .ok a → ∀ y (eh2 : EventHandler α n k), Rel D x y →
      AheadAll ps eh.events eh2.events → (∀ ev ∈ eh.events, ev.lastT = x.t) → x.cache.ts (Buffer.iOld k) ≤ ti →
      ∃ eh2' y', (S.advanceEvents bo b ti eh2).run y = some (.ok (eh2', a.2), y') ∧ a.2 ≠ .terminated ∧ AheadAll ps a.1.events eh2'.events ∧
        Rel D x' y' := by
  refine advanceEvents.fixpoint_induct S bo b ti
    (fun z => ∀ (eh : EventHandler α n k) x r x', (z eh).run x = some (r, x') → ∀ a, r = .ok a → ∀ y (eh2 : EventHandler α n k), Rel D x y →
      AheadAll ps eh.events eh2.events → (∀ ev ∈ eh.events, ev.lastT = x.t) → x.cache.ts (Buffer.iOld k) ≤ ti →
      ∃ eh2' y', (S.advanceEvents bo b ti eh2).run y = some (.ok (eh2', a.2), y') ∧ a.2 ≠ .terminated ∧ AheadAll ps a.1.events eh2'.events ∧
        Rel D x' y') ?_ ?_
  · exact Lean.Order.admissible_pi_apply (fun (eh : EventHandler α n k) (z : Py (St α n k X) (EventHandler α n k × AdvRes)) =>
      ∀ x r x', z.run x = some (r, x') → ∀ a, r = .ok a → ∀ y (eh2 : EventHandler α n k), Rel D x y → AheadAll ps eh.events eh2.events →
      (∀ ev ∈ eh.events, ev.lastT = x.t) → x.cache.ts (Buffer.iOld k) ≤ ti →
      ∃ eh2' y', (S.advanceEvents bo b ti eh2).run y = some (.ok (eh2', a.2), y') ∧ a.2 ≠ .terminated ∧ AheadAll ps a.1.events eh2'.events ∧
        Rel D x' y')
      fun eh => admissible_post fun x r x' => ∀ a : EventHandler α n k × AdvRes, r = .ok a → ∀ y (eh2 : EventHandler α n k), Rel D x y →
      AheadAll ps eh.events eh2.events → (∀ ev ∈ eh.events, ev.lastT = x.t) → x.cache.ts (Buffer.iOld k) ≤ ti →
      ∃ eh2' y', (S.advanceEvents bo b ti eh2).run y = some (.ok (eh2', a.2), y') ∧ a.2 ≠ .terminated ∧ AheadAll ps a.1.events eh2'.events ∧
        Rel D x' y'
  · intro loop ih eh x r x' h a hr y eh2 hR hp he h0
    subst hr
    simp only [run_bind, run_ite, run_get, andThen_ok, run_pure] at h
    rw [advanceEvents_run, ← same_t hR.1]
    split at h
    · rename_i hlt
      rw [if_pos (show x.t < ti from hlt)]
      rw [andThen_eq_ok] at h
      obtain ⟨c, x1, h1, h2⟩ := h
      obtain ⟨⟨y1, g1, g2⟩, -⟩ := sim_pstep hM D b x y hR c x1 h1
      rw [g1, andThen_ok]
      cases c with
      | false =>
        simp at h2
        obtain ⟨rfl, rfl⟩ := h2
        exact ⟨eh2, y1, by simp, by simp, hp, g2⟩
      | true =>
        simp only [if_true] at h2 ⊢
        rw [andThen_eq_ok] at h2
        obtain ⟨⟨eh1, stop⟩, x2, h3, h4⟩ := h2
        have hst := stepped_takes hM.forward hR.2.1 (pstep_true.mp h1).2
        have hl : ∀ ev ∈ eh.events, x1.cache.ts (Buffer.iOld k) ≤ ev.lastT ∧ ev.lastT ≤ x1.t := fun ev hev => by
          rw [he ev hev]; exact ⟨hst.old, hst.le⟩
        obtain ⟨eh3, y2, g3, g7, g4, g5⟩ := ahead_handler hM D bo hp hl g2.at h3
        obtain ⟨-, g6⟩ := sim_handler hM D (b := x1) bo eh hl x1 y1 g2.at _ x2 h3
        rw [g3, andThen_ok]
        have e2 : x2.cache = x1.cache := g5.1.1.1
        have h02 : x2.cache.ts (Buffer.iOld k) ≤ ti := by rw [e2]; exact hst.old.trans hlt.le
        have g6' : ∀ ev ∈ eh1.events, ev.lastT = x2.t := by
          intro ev hev
          rw [g6 ev hev]
          exact (same_t g5.1.1).symm
        have hst' : stop = false := g7
        subst hst'
        simp only [Bool.false_eq_true, if_false] at h4 ⊢
        exact ih eh1 x2 _ x' h4 a rfl y2 eh3 g5.rel g4 g6' h02
    · rename_i hlt
      rw [if_neg (show ¬ x.t < ti from hlt)]
      cases h
      exact ⟨eh2, y, rfl, by simp, hp, hR⟩

theorem ahead_runEvalEvents (hM : WellConfigured S.method) (D : Dense S.method S.rhs) (bo : BisectOpts α) (b : Bound α)
    (ps : List (List α × List (Ref α n k))) {ts : List α} (hs : ts.Pairwise (· ≤ ·)) :
    ∀ {eh eh2 : EventHandler α n k} {x y x' : St α n k X} {p : EventHandler α n k × List (α × Vec α n)},
    Rel D x y → AheadAll ps eh.events eh2.events → (S.runEvalEvents bo b ts eh).run x = some (.ok p, x') → (∀ ev ∈ eh.events, ev.lastT = x.t) →
    (∀ u ∈ ts, x.cache.ts (Buffer.iOld k) ≤ u) →
    ∃ eh2' y', (S.runEvalEvents bo b ts eh2).run y = some (.ok (eh2', p.2), y') ∧ AheadAll ps p.1.events eh2'.events ∧ Rel D x' y' := by
  induction ts with
  | nil =>
    intro eh eh2 x y x' p hR hp hr he h0
    rw [runEvalEvents] at hr
    cases hr
    exact ⟨eh2, y, rfl, hp, hR⟩
  | cons ti rest ih =>
    intro eh eh2 x y x' p hR hp hr he h0
    obtain ⟨hs1, hs2⟩ := List.pairwise_cons.mp hs
    rw [runEvalEvents_cons, andThen_eq_ok] at hr
    obtain ⟨⟨eh1, res⟩, x1, h1, h2⟩ := hr
    obtain ⟨eh3, y1, g1, g7, g2, g6⟩ := ahead_advanceEvents hM D bo b ti ps _ _ _ _ h1 _ rfl y eh2 hR hp he (h0 ti List.mem_cons_self)
    obtain ⟨-, -, -, g3, g4, g5⟩ := sim_advanceEvents hM D bo b ti _ _ _ _ h1 _ rfl y hR he (h0 ti List.mem_cons_self)
    rw [runEvalEvents_cons, g1, andThen_ok]
    cases res with
    | refused => cases h2; exact ⟨eh3, y1, rfl, g2, g6⟩
    | terminated => exact absurd rfl g7
    | reached =>
      dsimp only at h2 ⊢
      rw [andThen_eq_ok] at h2
      obtain ⟨r, x2, h3, h4⟩ := h2
      rw [andThen_eq_ok] at h4
      obtain ⟨q, x3, h5, h6⟩ := h4
      cases h6
      obtain ⟨⟨y2, k1, k2⟩, -⟩ := sim_interp hM D g4 (g5 rfl) x1 y1 g6.at r x2 h3
      have e2 : x2.cache = x1.cache := k2.1.1.1
      obtain ⟨eh4, y3, k3, k4, k5⟩ := ih hs2 k2.rel g2 h5 (fun ev hev => (g3 ev hev).trans (same_t k2.1.1).symm)
        (fun u hu => by rw [e2]; exact g4.trans (hs1 u hu))
      exact ⟨eh4, y3, by rw [k1, andThen_ok, k3, andThen_ok, k2.rel.1.1], k4, k5⟩

/-- A refused step is refused again. -/
theorem refused_events {bo : BisectOpts α} {b : Bound α} {ti : α} :
    ∀ eh x r x', (S.advanceEvents bo b ti eh).run x = some (r, x') → ∀ a, r = .ok a → a.2 = .refused → ¬ Fits b x' := by
  refine advanceEvents.fixpoint_induct S bo b ti
    (fun z => ∀ (eh : EventHandler α n k) x r x', (z eh).run x = some (r, x') → ∀ a, r = .ok a → a.2 = .refused → ¬ Fits b x') ?_ ?_
  · exact Lean.Order.admissible_pi_apply (fun (eh : EventHandler α n k) (z : Py (St α n k X) (EventHandler α n k × AdvRes)) =>
      ∀ x r x', z.run x = some (r, x') → ∀ a, r = .ok a → a.2 = .refused → ¬ Fits b x')
      fun eh => admissible_post fun x r x' => ∀ a : EventHandler α n k × AdvRes, r = .ok a → a.2 = .refused → ¬ Fits b x'
  · intro loop ih eh x r x' h a hr ha
    subst hr
    simp only [run_bind, run_ite, run_get, andThen_ok, run_pure] at h
    split at h
    · rw [andThen_eq_ok] at h
      obtain ⟨c, x1, h1, h2⟩ := h
      cases c with
      | false =>
        obtain ⟨h3, rfl⟩ := pstep_false.mp h1
        simp at h2
        obtain ⟨rfl, rfl⟩ := h2
        exact h3
      | true =>
        simp only [if_true] at h2
        rw [andThen_eq_ok] at h2
        obtain ⟨⟨eh1, stop⟩, x2, h3, h4⟩ := h2
        cases stop with
        | true =>
          simp at h4
          obtain ⟨rfl, rfl⟩ := h4
          cases ha
        | false =>
          simp only [Bool.false_eq_true, if_false] at h4
          exact ih eh1 x2 _ x' h4 a rfl ha
    · cases h
      cases ha

/-- Two lists of times one after the other. -/
theorem runEvalEvents_append (hM : WellConfigured S.method) (D : Dense S.method S.rhs) (bo : BisectOpts α) (b : Bound α)
    (ps : List (List α × List (Ref α n k))) (l2 : List α) {l : List α} (hs : l.Pairwise (· ≤ ·)) :
    ∀ {eh : EventHandler α n k} {x x' : St α n k X} {p : EventHandler α n k × List (α × Vec α n)}, Good D x →
    AheadAll ps eh.events eh.events → (∀ ev ∈ eh.events, ev.lastT = x.t) → (∀ u ∈ l, x.cache.ts (Buffer.iOld k) ≤ u) →
    (S.runEvalEvents bo b l eh).run x = some (.ok p, x') →
    AheadAll ps p.1.events p.1.events ∧ (∀ ev ∈ p.1.events, ev.lastT = x'.t) ∧ Good D x' ∧
    ((S.runEvalEvents bo b (l ++ l2) eh).run x =
        andThen ((S.runEvalEvents bo b l2 p.1).run x') (fun q s => some (.ok (q.1, p.2 ++ q.2), s)) ∨
      ((S.runEvalEvents bo b (l ++ l2) eh).run x = some (.ok p, x') ∧ ¬ Fits b x')) := by
  induction l with
  | nil =>
    intro eh x x' p hg ha he h0 hr
    rw [runEvalEvents] at hr
    cases hr
    refine ⟨ha, he, hg, Or.inl ?_⟩
    rw [List.nil_append]
    rcases (S.runEvalEvents bo b l2 eh).run x with _ | ⟨_ | q, s⟩ <;> simp [andThen]
  | cons ti rest ih =>
    intro eh x x' p hg ha he h0 hr
    obtain ⟨hs1, hs2⟩ := List.pairwise_cons.mp hs
    have hR : Rel D x x := ⟨⟨rfl, rfl, rfl⟩, hg, hg⟩
    rw [runEvalEvents_cons, andThen_eq_ok] at hr
    obtain ⟨⟨eh1, res⟩, x1, h1, h2⟩ := hr
    obtain ⟨eh3, y1, g1, g7, g2, g6⟩ := ahead_advanceEvents hM D bo b ti ps _ _ _ _ h1 _ rfl x eh hR ha he (h0 ti List.mem_cons_self)
    obtain ⟨-, -, -, g3, g4, g5⟩ := sim_advanceEvents hM D bo b ti _ _ _ _ h1 _ rfl x hR he (h0 ti List.mem_cons_self)
    rw [h1] at g1
    cases g1
    rw [List.cons_append, runEvalEvents_cons, h1, andThen_ok]
    cases res with
    | refused =>
      cases h2
      exact ⟨g2, g3, g6.2.1, Or.inr ⟨rfl, refused_events _ _ _ _ h1 _ rfl rfl⟩⟩
    | terminated => exact absurd rfl g7
    | reached =>
      dsimp only at h2 ⊢
      rw [andThen_eq_ok] at h2
      obtain ⟨r, x2, h3, h4⟩ := h2
      rw [andThen_eq_ok] at h4
      obtain ⟨q, x3, h5, h6⟩ := h4
      cases h6
      obtain ⟨⟨y2, k1, k2⟩, -⟩ := sim_interp hM D g4 (g5 rfl) x1 x1 g6.at r x2 h3
      have e2 : x2.cache = x1.cache := k2.1.1.1
      obtain ⟨j1, j2, j3, j4⟩ := ih hs2 k2.1.2 g2 (fun ev hev => (g3 ev hev).trans (same_t k2.1.1).symm)
        (fun u hu => by rw [e2]; exact g4.trans (hs1 u hu)) h5
      refine ⟨j1, j2, j3, ?_⟩
      rw [h3, andThen_ok]
      rcases j4 with j4 | ⟨j4, j5⟩
      · left
        rw [j4, andThen_assoc]
        congr 1
      · right
        exact ⟨by rw [j4, andThen_ok], j5⟩

end field

end Nbkode
