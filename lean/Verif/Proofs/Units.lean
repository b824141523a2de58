import Verif.Spec.Units
import Verif.Proofs.EventsApi

/-! Events looked at in other units: the same search. -/

set_option autoImplicit false
set_option linter.unusedSectionVars false

namespace Nbkode
open Py Spec Solver

section lawless
variable {α : Type}
variable [Add α] [Sub α] [Mul α] [Div α] [Neg α] [Zero α] [One α] [NatCast α] [BEq α]
variable [LT α] [DecidableLT α] [LE α] [DecidableLE α]
variable {n k : Nat} {X : Type}

/-- `run_events` with events. -/
theorem runEvents_loop (S : Solver α n k X) (bo : BisectOpts α) (argsort : List α → List Nat) (ts : List α)
    {es : List (EventSpec α n)} (hes : es ≠ []) (s : St α n k X) :
    (S.runEvents bo argsort ts (some es)).run s =
      match (if isSorted ts then .ok ts else fancyIndex ts (argsort ts)) with
      | .error e => some (.error e, s)
      | .ok [] => some (.error .indexError, s)
      | .ok (t0 :: tl) =>
        if t0 < s.cache.ts (Buffer.iOld k) then some (.error .valueError, s)
        else if (Bound.fin (listMax t0 tl)).gt S.tBound then some (.error .valueError, s)
        else andThen ((S.interpolateAll ((t0 :: tl).filter fun ti => decide (ti ≤ s.t))).run s) fun rs s1 =>
          andThen ((S.runEvalEvents bo S.tBound ((t0 :: tl).filter fun ti => !decide (ti ≤ s.t))
            (buildHandler es s1.t s1.y)).run s1) fun p s2 =>
            if ((t0 :: tl).filter fun ti => decide (ti ≤ s.t)).isEmpty then
              if isSorted ts then
                some (.ok ⟨((t0 :: tl).filter fun ti => decide (ti ≤ s.t)).zip (rs.map fun r => r.deref s1.cache) ++ p.2,
                  p.1.events.map fun e => e.t, p.1.events.map fun e => e.y⟩, s2)
              else some ((fancyIndex (((t0 :: tl).filter fun ti => decide (ti ≤ s.t)).zip (rs.map fun r => r.deref s1.cache)
                  ++ p.2) (invPerm (argsort ts))).map fun out => ⟨out, p.1.events.map fun e => e.t,
                  p.1.events.map fun e => e.y⟩, s2)
            else some (.error .attributeError, s2) := by
  have he : es.isEmpty = false := by
    cases es with
    | nil => exact absurd rfl hes
    | cons _ _ => rfl
  unfold runEvents checkTime
  by_cases hs : isSorted ts = true
  · simp only [hs, if_true, run_bind, run_pure, andThen_ok, Option.getD_some, he, Bool.false_eq_true, if_false,
      Bool.not_false, Bool.and_true, run_get, run_ite, run_throw, andThen_error]
    rcases ts with _ | ⟨t0, tl⟩
    · rfl
    simp only [run_bind, run_get, andThen_ok, run_ite, run_throw, run_pure, andThen_error]
    split
    · rfl
    · split
      · rfl
      · simp only [andThen_ok, andThen_assoc]
        congr 1
        funext rs s1
        congr 1
        funext p s2
        cases ((t0 :: tl).filter fun ti => decide (ti ≤ s.t)).isEmpty <;> rfl
  · simp only [hs, if_false, run_bind, run_ofExcept, Option.getD_some, he, Bool.false_eq_true,
      Bool.not_false, Bool.and_true, andThen_ok]
    rcases fancyIndex ts (argsort ts) with e | _ | ⟨t0, tl⟩
    · rfl
    · rfl
    simp only [run_bind, run_get, andThen_ok, run_ite, run_throw, run_pure, andThen_error]
    split
    · rfl
    · split
      · rfl
      · simp only [andThen_ok, andThen_assoc]
        congr 1
        funext rs s1
        congr 1
        funext p s2
        cases ((t0 :: tl).filter fun ti => decide (ti ≤ s.t)).isEmpty
        · rfl
        · simp only [Bool.not_true, Bool.false_eq_true, if_false, if_true]
          cases fancyIndex (((t0 :: tl).filter fun ti => decide (ti ≤ s.t)).zip (rs.map fun r => r.deref s1.cache)
            ++ p.2) (invPerm (argsort ts)) <;> rfl

end lawless

section order
variable {α : Type} [LinearOrder α]
variable [Add α] [Sub α] [Mul α] [Div α] [Neg α] [Zero α] [One α] [NatCast α] [BEq α]
variable {n k : Nat} {X : Type}

/-- A change of the values of an event and of its direction, and the way back. -/
structure Regard (α : Type) where
  val : α → α
  back : α → α
  dir : Int → Int
  dirBack : Int → Int

/-- The way back. -/
def Regard.inv (v : Regard α) : Regard α := ⟨v.back, v.val, v.dirBack, v.dir⟩

/-- The search with options `bo2` treats the changed values as the search with options `bo` treats the original ones. -/
structure Regard.Fair (v : Regard α) (bo bo2 : BisectOpts α) : Prop where
  back_val : ∀ x, v.back (v.val x) = x
  val_back : ∀ x, v.val (v.back x) = x
  dirBack_dir : ∀ d, v.dirBack (v.dir d) = d
  dir_dirBack : ∀ d, v.dir (v.dirBack d) = d
  triggers : ∀ d a b, triggers (v.dir d) (v.val a) (v.val b) = Nbkode.triggers d a b
  zero : ∀ a, (v.val a == 0) = (a == 0)
  product : ∀ a b, v.val a * v.val b < 0 ↔ a * b < 0
  close : ∀ a, isclose (v.val a) 0 bo2.tol bo2.rtol = isclose a 0 bo.tol bo.rtol
  sign : ∀ a b, (pySign (v.val a) == pySign (v.val b)) = (pySign a == pySign b)
  maxiter : bo2.maxiter = bo.maxiter

theorem Regard.Fair.symm {v : Regard α} {bo bo2 : BisectOpts α} (h : v.Fair bo bo2) : v.inv.Fair bo2 bo where
  back_val := h.val_back
  val_back := h.back_val
  dirBack_dir := h.dir_dirBack
  dir_dirBack := h.dirBack_dir
  triggers d a b := by
    have := h.triggers (v.dirBack d) (v.back a) (v.back b)
    rw [h.dir_dirBack, h.val_back, h.val_back] at this
    exact this.symm
  zero a := by have := h.zero (v.back a); rw [h.val_back] at this; exact this.symm
  product a b := by
    have := h.product (v.back a) (v.back b)
    rw [h.val_back, h.val_back] at this
    exact this.symm
  close a := by have := h.close (v.back a); rw [h.val_back] at this; exact this.symm
  sign a b := by
    have := h.sign (v.back a) (v.back b)
    rw [h.val_back, h.val_back] at this
    exact this.symm
  maxiter := h.maxiter.symm

/-- The event seen through the change. -/
def Regard.see (v : Regard α) (ev : Event α n k) : Event α n k :=
  { ev with func := fun t y => v.val (ev.func t y), direction := v.dir ev.direction, lastValue := v.val ev.lastValue }

theorem Regard.see_inv {v : Regard α} {bo bo2 : BisectOpts α} (h : v.Fair bo bo2) (ev : Event α n k) : v.inv.see (v.see ev) = ev := by
  cases ev
  simp only [Regard.see, Regard.inv, h.back_val, h.dirBack_dir]

variable {bo bo2 : BisectOpts α}

theorem bisectLoop_view {v : Regard α} (hv : v.Fair bo bo2) {σ : Type} (fn fn2 : α → Py σ α)
    (hf : ∀ t s, (fn2 t).run s = andThen ((fn t).run s) fun y s' => some (.ok (v.val y), s')) :
    ∀ m left yl right mid s, (bisectLoop fn2 bo2.tol bo2.rtol m left (v.val yl) right mid).run s =
      (bisectLoop fn bo.tol bo.rtol m left yl right mid).run s
  | 0, _, _, _, none, _ => rfl
  | 0, _, _, _, some _, _ => rfl
  | m + 1, left, yl, right, mid, s => by
    rw [bisectLoop, bisectLoop]
    simp only [run_bind]
    congr 1
    funext c s1
    rw [hf, andThen_assoc]
    congr 1
    funext y s2
    rw [andThen_ok, hv.close, hv.sign]
    split
    · rfl
    · split
      · exact bisectLoop_view hv fn fn2 hf m _ _ _ _ _
      · exact bisectLoop_view hv fn fn2 hf m _ _ _ _ _

theorem bisect_view {v : Regard α} (hv : v.Fair bo bo2) {σ : Type} (fn fn2 : α → Py σ α)
    (hf : ∀ t s, (fn2 t).run s = andThen ((fn t).run s) fun y s' => some (.ok (v.val y), s')) (left right : α) (s : σ) :
    (bisect fn2 left right bo2.tol bo2.maxiter bo2.rtol).run s = (bisect fn left right bo.tol bo.maxiter bo.rtol).run s := by
  unfold bisect
  simp only [run_bind, run_ite, run_throw, run_pure, andThen_error]
  split
  · rfl
  · rw [hf, andThen_assoc]
    congr 1
    funext yl s1
    rw [andThen_ok, hv.zero]
    split
    · rfl
    · rw [hf, andThen_assoc]
      congr 1
      funext yr s2
      rw [andThen_ok, hv.zero]
      split
      · rfl
      · rw [hv.maxiter]
        by_cases h : yl * yr < 0
        · rw [if_neg (by simpa using (hv.product yl yr).mpr h), if_neg (by simpa using h)]
          exact bisectLoop_view hv fn fn2 hf _ _ _ _ _ _
        · rw [if_pos (by simpa using fun h' => h ((hv.product yl yr).mp h')), if_pos (by simpa using h)]

theorem evaluate_view {v : Regard α} (hv : v.Fair bo bo2) (interp : α → Py (St α n k X) (Ref α n k)) (ev : Event α n k)
    (s : St α n k X) : ((v.see ev).evaluate bo2 interp).run s =
      andThen ((ev.evaluate bo interp).run s) fun p s' => some (.ok (v.see p.1, p.2), s') := by
  rw [evaluate_run, evaluate_run]
  have ht : triggers (v.see ev).direction (v.see ev).lastValue ((v.see ev).func s.cache.t s.cache.y) =
      triggers ev.direction ev.lastValue (ev.func s.cache.t s.cache.y) := hv.triggers _ _ _
  have hroot : (rootOf bo2 interp (v.see ev) ((v.see ev).func s.cache.t s.cache.y) s.cache.t).run s =
      (rootOf bo interp ev (ev.func s.cache.t s.cache.y) s.cache.t).run s := by
    unfold rootOf
    have h0 : ((v.see ev).func s.cache.t s.cache.y == 0) = (ev.func s.cache.t s.cache.y == 0) := hv.zero _
    rw [h0]
    split
    · rfl
    · refine bisect_view hv _ _ (fun t s => ?_) _ _ _
      unfold eventAtSol
      simp only [run_bind, run_get, run_pure, andThen_assoc, andThen_ok]
      rfl
  have hrec : ∀ root s1, (recordAt interp (v.see ev) root).run s1 =
      andThen ((recordAt interp ev root).run s1) fun e s' => some (.ok (v.see e), s') := by
    intro root s1
    unfold recordAt
    have : dupOf (v.see ev) root = dupOf ev root := rfl
    rw [this]
    split
    · rfl
    · simp only [run_bind, run_pure, andThen_assoc, andThen_ok]
      rfl
  rw [ht, hroot]
  simp only [hrec, andThen_assoc, andThen_ok]
  split
  · simp only [andThen_assoc, andThen_ok]
    rfl
  · rfl

/-- Every event seen through its own change. -/
def seeAll (vs : List (Regard α)) (evs : List (Event α n k)) : List (Event α n k) := List.zipWith Regard.see vs evs

theorem lastEvent_see (v : Regard α) (ev : Event α n k) : (v.see ev).lastEvent = ev.lastEvent := rfl

theorem handlerLoop_view (interp : α → Py (St α n k X) (Ref α n k)) : ∀ (vs : List (Regard α)) (evs : List (Event α n k))
    (term : Bool) (last : Option (α × Ref α n k)) (s : St α n k X), (∀ v ∈ vs, v.Fair bo bo2) → vs.length = evs.length →
    (handlerLoop bo2 interp (seeAll vs evs) term last).run s = andThen ((handlerLoop bo interp evs term last).run s)
      fun p s' => some (.ok (seeAll vs p.1, p.2), s')
  | [], [], _, _, _, _, _ => rfl
  | v :: vs, ev :: evs, term, last, s, hv, hl => by
    show (handlerLoop bo2 interp (v.see ev :: seeAll vs evs) term last).run s = _
    rw [handlerLoop, handlerLoop]
    simp only [run_bind]
    rw [evaluate_view (hv v List.mem_cons_self), andThen_assoc, andThen_assoc]
    congr 1
    funext p s1
    obtain ⟨ev', stop⟩ := p
    simp only [andThen_ok, run_bind, lastEvent_see]
    rw [handlerLoop_view interp vs evs _ _ _ (fun w hw => hv w (List.mem_cons_of_mem _ hw)) (by simpa using hl)]
    simp only [andThen_assoc, andThen_ok]
    rfl

theorem handlerLoop_length (interp : α → Py (St α n k X) (Ref α n k)) : ∀ (evs : List (Event α n k))
    (term : Bool) (last : Option (α × Ref α n k)) (s : St α n k X) p s',
    (handlerLoop bo interp evs term last).run s = some (.ok p, s') → p.1.length = evs.length
  | [], _, _, _, _, _, h => by cases h; rfl
  | ev :: evs, term, last, s, p, s', h => by
    rw [handlerLoop, run_bind, andThen_eq_ok] at h
    obtain ⟨⟨ev', stop⟩, x1, -, h⟩ := h
    rw [run_bind, andThen_eq_ok] at h
    obtain ⟨⟨evs', q⟩, x2, h1, h2⟩ := h
    have := handlerLoop_length interp evs _ _ _ _ _ h1
    cases h2
    simp only [List.length_cons]
    exact congrArg (· + 1) this

/-- The handler of the events seen through their changes. -/
def seeHandler (vs : List (Regard α)) (eh : EventHandler α n k) : EventHandler α n k := { eh with events := seeAll vs eh.events }

theorem handler_view (interp : α → Py (St α n k X) (Ref α n k)) (vs : List (Regard α)) (hv : ∀ v ∈ vs, v.Fair bo bo2)
    (eh : EventHandler α n k) (hl : vs.length = eh.events.length) (s : St α n k X) :
    ((seeHandler vs eh).evaluate bo2 interp).run s = andThen ((eh.evaluate bo interp).run s)
      fun p s' => some (.ok (seeHandler vs p.1, p.2), s') := by
  unfold EventHandler.evaluate
  simp only [run_bind]
  have := handlerLoop_view (bo := bo) (bo2 := bo2) interp vs eh.events false eh.lastEvent s hv hl
  show andThen ((handlerLoop bo2 interp (seeAll vs eh.events) false eh.lastEvent).run s) _ = _
  rw [this, andThen_assoc, andThen_assoc]
  rfl

theorem handler_length {interp : α → Py (St α n k X) (Ref α n k)} {eh : EventHandler α n k} {s s' : St α n k X} {p}
    (h : (eh.evaluate bo interp).run s = some (.ok p, s')) : p.1.events.length = eh.events.length := by
  unfold EventHandler.evaluate at h
  rw [run_bind, andThen_eq_ok] at h
  obtain ⟨q, x1, h1, h2⟩ := h
  have := handlerLoop_length _ _ _ _ _ _ _ h1
  cases h2
  exact this

theorem advanceEvents_see (S : Solver α n k X) (b : Bound α) (ti : α) (vs : List (Regard α)) (hv : ∀ v ∈ vs, v.Fair bo bo2) :
    ∀ eh x r x', (S.advanceEvents bo b ti eh).run x = some (r, x') → vs.length = eh.events.length →
      (S.advanceEvents bo2 b ti (seeHandler vs eh)).run x = some (r.map fun a => (seeHandler vs a.1, a.2), x') ∧
        ∀ a, r = .ok a → a.1.events.length = eh.events.length := by
  refine advanceEvents.fixpoint_induct S bo b ti
    (fun z => ∀ (eh : EventHandler α n k) x r x', (z eh).run x = some (r, x') → vs.length = eh.events.length →
      (S.advanceEvents bo2 b ti (seeHandler vs eh)).run x = some (r.map fun a => (seeHandler vs a.1, a.2), x') ∧
        ∀ a, r = .ok a → a.1.events.length = eh.events.length) ?_ ?_
  · exact Lean.Order.admissible_pi_apply (fun (eh : EventHandler α n k) (z : Py (St α n k X) (EventHandler α n k × AdvRes)) =>
      ∀ x r x', z.run x = some (r, x') → vs.length = eh.events.length →
      (S.advanceEvents bo2 b ti (seeHandler vs eh)).run x = some (r.map fun a => (seeHandler vs a.1, a.2), x') ∧
        ∀ a, r = .ok a → a.1.events.length = eh.events.length)
      fun eh => admissible_post fun x r x' => vs.length = eh.events.length →
      (S.advanceEvents bo2 b ti (seeHandler vs eh)).run x = some (r.map fun a => (seeHandler vs a.1, a.2), x') ∧
        ∀ a : EventHandler α n k × AdvRes, r = .ok a → a.1.events.length = eh.events.length
  · intro loop ih eh x r x' h hl
    simp only [run_bind, run_ite, run_get, andThen_ok, run_pure] at h
    rw [advanceEvents_run]
    by_cases hlt : x.cache.t < ti
    · rw [if_pos hlt] at h
      rw [if_pos (show x.t < ti from hlt)]
      rcases hp : (S.pstep b).run x with _ | ⟨e | c, x1⟩
      · rw [hp] at h; cases h
      · rw [hp] at h; cases h; exact ⟨rfl, fun a ha => by cases ha⟩
      · rw [hp] at h
        simp only [andThen_ok] at h ⊢
        cases c with
        | false =>
          simp only [Bool.false_eq_true, if_false] at h ⊢
          cases h
          exact ⟨rfl, fun a ha => by cases ha; rfl⟩
        | true =>
          simp only [if_true] at h ⊢
          rw [handler_view S.interpAt vs hv eh hl]
          rcases hE : (eh.evaluate bo S.interpAt).run x1 with _ | ⟨e | ⟨eh1, stop⟩, x2⟩
          · rw [hE] at h; cases h
          · rw [hE] at h; cases h; exact ⟨rfl, fun a ha => by cases ha⟩
          · have hlen := handler_length hE
            rw [hE] at h
            simp only [andThen_ok] at h ⊢
            cases stop with
            | true =>
              simp only [if_true] at h ⊢
              cases h
              exact ⟨rfl, fun a ha => by cases ha; exact hlen⟩
            | false =>
              simp only [Bool.false_eq_true, if_false] at h ⊢
              obtain ⟨g1, g2⟩ := ih eh1 x2 r x' h (hl.trans hlen.symm)
              exact ⟨g1, fun a ha => (g2 a ha).trans hlen⟩
    · rw [if_neg hlt] at h
      rw [if_neg (show ¬ x.t < ti from hlt)]
      cases h
      exact ⟨rfl, fun a ha => by cases ha; rfl⟩

theorem seeAll_inv : ∀ (vs : List (Regard α)) (evs : List (Event α n k)), (∀ v ∈ vs, v.Fair bo bo2) → vs.length = evs.length →
    seeAll (vs.map Regard.inv) (seeAll vs evs) = evs
  | [], [], _, _ => rfl
  | v :: vs, ev :: evs, hv, hl => by
    show v.inv.see (v.see ev) :: seeAll (vs.map Regard.inv) (seeAll vs evs) = _
    rw [Regard.see_inv (hv v List.mem_cons_self), seeAll_inv vs evs (fun w hw => hv w (List.mem_cons_of_mem _ hw)) (by simpa using hl)]

theorem seeHandler_inv (vs : List (Regard α)) (hv : ∀ v ∈ vs, v.Fair bo bo2) (eh : EventHandler α n k)
    (hl : vs.length = eh.events.length) : seeHandler (vs.map Regard.inv) (seeHandler vs eh) = eh := by
  unfold seeHandler
  rw [show (EventHandler.events { eh with events := seeAll vs eh.events }) = seeAll vs eh.events from rfl, seeAll_inv vs _ hv hl]

theorem advanceEvents_view (S : Solver α n k X) (b : Bound α) (ti : α) (vs : List (Regard α)) (hv : ∀ v ∈ vs, v.Fair bo bo2)
    (eh : EventHandler α n k) (hl : vs.length = eh.events.length) (x : St α n k X) :
    (S.advanceEvents bo2 b ti (seeHandler vs eh)).run x = andThen ((S.advanceEvents bo b ti eh).run x)
      fun p s' => some (.ok (seeHandler vs p.1, p.2), s') := by
  rcases h : (S.advanceEvents bo b ti eh).run x with _ | ⟨r, x'⟩
  · rcases h2 : (S.advanceEvents bo2 b ti (seeHandler vs eh)).run x with _ | ⟨r, x'⟩
    · rfl
    · have := (advanceEvents_see (bo := bo2) (bo2 := bo) S b ti (vs.map Regard.inv) (by
        intro w hw
        obtain ⟨v, hv', rfl⟩ := List.mem_map.mp hw
        exact (hv v hv').symm) _ _ _ _ h2 (by simp [seeHandler, seeAll, hl])).1
      rw [seeHandler_inv vs hv eh hl, h] at this
      cases this
  · rw [(advanceEvents_see S b ti vs hv _ _ _ _ h hl).1]
    cases r <;> rfl

theorem runEvalEvents_view (S : Solver α n k X) (b : Bound α) (vs : List (Regard α)) (hv : ∀ v ∈ vs, v.Fair bo bo2) :
    ∀ (ts : List α) (eh : EventHandler α n k) (x : St α n k X), vs.length = eh.events.length →
    (S.runEvalEvents bo2 b ts (seeHandler vs eh)).run x = andThen ((S.runEvalEvents bo b ts eh).run x)
      fun p s' => some (.ok (seeHandler vs p.1, p.2), s')
  | [], _, _, _ => rfl
  | ti :: rest, eh, x, hl => by
    rw [runEvalEvents, runEvalEvents]
    simp only [run_bind]
    rw [advanceEvents_view S b ti vs hv eh hl, andThen_assoc, andThen_assoc]
    rcases h : (S.advanceEvents bo b ti eh).run x with _ | ⟨e | ⟨eh1, res⟩, x1⟩
    · rfl
    · rfl
    · have hlen := (advanceEvents_see S b ti vs hv _ _ _ _ h hl).2 _ rfl
      simp only [andThen_ok]
      cases res with
      | refused => rfl
      | terminated =>
        simp only [run_bind, run_get, andThen_ok]
        rcases hle : eh1.lastEvent with _ | ⟨te, re⟩
        · have : (seeHandler vs eh1).lastEvent = none := hle
          rw [this]; rfl
        · have : (seeHandler vs eh1).lastEvent = some (te, re) := hle
          rw [this]; rfl
      | reached =>
        simp only [run_bind, run_get, andThen_ok, andThen_assoc]
        congr 1
        funext r s2
        rw [runEvalEvents_view S b vs hv rest eh1 s2 (hl.trans hlen.symm)]
        simp only [andThen_assoc, andThen_ok, run_pure]

theorem seeAll_t : ∀ (vs : List (Regard α)) (evs : List (Event α n k)), vs.length = evs.length →
    (seeAll vs evs).map (fun e => e.t) = evs.map (fun e => e.t) ∧ (seeAll vs evs).map (fun e => e.y) = evs.map fun e => e.y
  | [], [], _ => ⟨rfl, rfl⟩
  | v :: vs, ev :: evs, hl => by
    obtain ⟨h1, h2⟩ := seeAll_t vs evs (by simpa using hl)
    exact ⟨congrArg (ev.t :: ·) h1, congrArg (ev.y :: ·) h2⟩

theorem runEvalEvents_length (S : Solver α n k X) (b : Bound α) : ∀ (ts : List α) (eh : EventHandler α n k)
    (x : St α n k X) p x', (S.runEvalEvents bo b ts eh).run x = some (.ok p, x') → p.1.events.length = eh.events.length
  | [], _, _, _, _, h => by cases h; rfl
  | ti :: rest, eh, x, p, x', h => by
    rw [runEvalEvents, run_bind, andThen_eq_ok] at h
    obtain ⟨⟨eh1, res⟩, x1, h1, h2⟩ := h
    have hF : ∀ v ∈ List.replicate eh.events.length (⟨id, id, id, id⟩ : Regard α), v.Fair bo bo := by
      intro v hv
      rw [List.eq_of_mem_replicate hv]
      exact ⟨fun _ => rfl, fun _ => rfl, fun _ => rfl, fun _ => rfl, fun _ _ _ => rfl, fun _ => rfl, fun _ _ => Iff.rfl,
        fun _ => rfl, fun _ _ => rfl, rfl⟩
    have hlen := (advanceEvents_see S b ti _ hF _ _ _ _ h1 (by simp)).2 _ rfl
    cases res with
    | refused => cases h2; exact hlen
    | terminated =>
      simp only [run_bind, run_get, andThen_ok] at h2
      rcases hle : eh1.lastEvent with _ | ⟨te, re⟩
      · rw [hle] at h2; cases h2
      · rw [hle] at h2; cases h2; exact hlen
    | reached =>
      simp only [run_bind, run_get, andThen_ok] at h2
      rw [andThen_eq_ok] at h2
      obtain ⟨r, x2, -, h3⟩ := h2
      rw [andThen_eq_ok] at h3
      obtain ⟨q, x3, h4, h5⟩ := h3
      have := runEvalEvents_length S b rest eh1 _ _ _ h4
      cases h5
      exact this.trans hlen

/-- `run_events` with events seen through fair changes. -/
theorem runEvents_view (S : Solver α n k X) (argsort : List α → List Nat) (ts : List α) (es es2 : List (EventSpec α n))
    (vs : List (Regard α)) (hv : ∀ v ∈ vs, v.Fair bo bo2) (hl : vs.length = es.length) (hl2 : es2.length = es.length)
    (hb : ∀ t y, es2.map (fun e => buildEvent (k := k) e t y) = seeAll vs (es.map fun e => buildEvent e t y)) (s : St α n k X) :
    (S.runEvents bo2 argsort ts (some es2)).run s = (S.runEvents bo argsort ts (some es)).run s := by
  have hB : ∀ t y, buildHandler (k := k) es2 t y = seeHandler vs (buildHandler es t y) := by
    intro t y
    unfold buildHandler seeHandler
    rw [hb t y]
  by_cases hes : es = []
  · subst hes
    have : es2 = [] := List.eq_nil_of_length_eq_zero hl2
    subst this
    unfold runEvents
    simp only [Option.getD_some, List.isEmpty_nil, if_true]
  have hes2 : es2 ≠ [] := by
    rintro rfl
    exact hes (List.eq_nil_of_length_eq_zero hl2.symm)
  rw [runEvents_loop S bo2 argsort ts hes2, runEvents_loop S bo argsort ts hes]
  rcases (if isSorted ts then Except.ok ts else fancyIndex ts (argsort ts)) with e | _ | ⟨t0, tl⟩
  · rfl
  · rfl
  simp only
  congr 1
  congr 1
  congr 1
  funext rs s1
  rw [hB, runEvalEvents_view S S.tBound vs hv _ _ _ (by simp [buildHandler, hl])]
  rcases hr : (S.runEvalEvents bo S.tBound (List.filter (fun ti => !decide (ti ≤ s.t)) (t0 :: tl))
    (buildHandler es s1.t s1.y)).run s1 with _ | ⟨e | ⟨eh, out⟩, x1⟩
  · rfl
  · rfl
  · have hlen := runEvalEvents_length S S.tBound _ _ _ _ _ hr
    obtain ⟨g1, g2⟩ := seeAll_t vs eh.events (by rw [hl]; simpa [buildHandler] using hlen.symm)
    simp only [andThen_ok, seeHandler, g1, g2]

end order
end Nbkode
