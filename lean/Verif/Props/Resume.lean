import Verif.Proofs.Resume
import Verif.Props.Watching
import Verif.Props.Events
import Verif.Props.Terminal

/-!
# Watching for events can be resumed (C108)
-/

set_option autoImplicit false
set_option linter.unusedSectionVars false

namespace Nbkode
open Py Spec Solver

section field
variable {α : Type} [Field α] [LinearOrder α] [IsStrictOrderedRing α] [BEq α] [LawfulBEq α]
variable {n k : Nat} {X : Type} {S : Solver α n k X}

theorem aheadAll_self {es : List (EventSpec α n)} (hnt : ∀ e ∈ es, e.terminal ≠ some true) (t : α) (y : Vec α n) :
    AheadAll (es.map fun _ => ([], [])) (buildHandler (k := k) es t y).events (buildHandler (k := k) es t y).events := by
  induction es with
  | nil => exact .nil
  | cons e es ih =>
    have hq : e.terminal.getD false = false := by
      have := hnt e List.mem_cons_self
      rcases h : e.terminal with _ | _ | _ <;> simp_all
    exact .cons ⟨rfl, hq, hq, rfl, rfl, rfl, rfl, Or.inl ⟨rfl, rfl⟩⟩ (ih fun e he => hnt e (List.mem_cons_of_mem _ he))

theorem aheadAll_new {L : Locator α} {pts : List (St α n k X)} {c s : St α n k X} (ht : c.t = s.t) (hy : c.y = s.y)
    {es : List (EventSpec α n)} (hnt : ∀ e ∈ es, e.terminal ≠ some true) {evs : List (Event α n k)} (hw : Watches S L es pts c evs) :
    AheadAll (evs.map fun ev => (ev.t, ev.y)) (buildHandler (k := k) es s.t s.y).events evs := by
  unfold Watches at hw
  induction hw with
  | nil => exact .nil
  | @cons e ev es evs h1 h2 ih =>
    have hne := hnt e List.mem_cons_self
    have hq : e.terminal.getD false = false := by
      rcases h : e.terminal with _ | _ | _ <;> simp_all
    have hq2 : ev.isTerminal = false := by
      rw [Bool.eq_false_iff]
      intro h
      exact hne (h1.terminal.mp h)
    refine .cons ⟨h1.func, hq, hq2, h1.direction, h1.lastT.trans ht, ?_, rfl, Or.inl ⟨by simp [buildEvent], by simp [buildEvent]⟩⟩
      (ih fun e he => hnt e (List.mem_cons_of_mem _ he))
    rw [h1.lastValue]
    unfold value
    rw [ht, hy]
    rfl

theorem aheadAll_joined {ps : List (List α × List (Ref α n k))} {evs evs2 : List (Event α n k)} (h : AheadAll ps evs evs2) (i : Nat) :
    JoinedUp ((ps.map Prod.fst).getD i []) ((ps.map Prod.snd).getD i []) ((evs.map fun e => e.t).getD i []) ((evs.map fun e => e.y).getD i [])
      ((evs2.map fun e => e.t).getD i []) ((evs2.map fun e => e.y).getD i []) := by
  induction h generalizing i with
  | nil => exact Or.inl ⟨rfl, rfl⟩
  | cons h1 h2 ih =>
    cases i with
    | zero => simpa using h1.joined
    | succ i => simpa using ih i

theorem aheadAll_length {ps : List (List α × List (Ref α n k))} {evs evs2 : List (Event α n k)} (h : AheadAll ps evs evs2) :
    evs.length = ps.length ∧ evs2.length = ps.length := by
  induction h with
  | nil => exact ⟨rfl, rfl⟩
  | cons h1 h2 ih => simpa using ih

theorem sortedTimes_id {argsort : List α → List Nat} (hA : ∀ l, IsArgsort l (argsort l)) {l : List α} (h : l.Pairwise (· ≤ ·)) :
    sortedTimes argsort l = l :=
  sorted_unique (sortedTimes_perm hA l) (sortedTimes_sorted hA l) h

/-- **C108**, what holds: let `run_events` for the times `a` return, and then `run_events` with the same events for the later times `b`. If no
event is terminal, one call for all the times returns the times and states of both, one after the other, and for each event
all records of the first and then all of the second, except that a record which ends the first and begins the second is there once. Afterwards the
solvers cannot be told apart. Missing: the record at the join may be there twice in the two calls (`C108_refuted`). -/
theorem C108_resume_partial (S : Solver α n k X) (hM : WellConfigured S.method) (bo : BisectOpts α) (htol : 0 ≤ bo.tol)
    (argsort : List α → List Nat) (hA : ∀ l, IsArgsort l (argsort l)) (s0 s : St α n k X)
    (hc : Constructed S s0) (ho : Ordered s0) (hh : 0 < s0.h) (hs : CleanSession S bo argsort s0 s)
    (a b : List α) (hab : (a ++ b).Pairwise (· ≤ ·)) (es : List (EventSpec α n)) (hes : es ≠ []) (hnt : ∀ e ∈ es, e.terminal ≠ some true)
    (o1 o2 : RunOut α n k) (s1 s2 : St α n k X)
    (h1 : (S.runEvents bo argsort a (some es)).run s = some (.ok o1, s1))
    (h2 : (S.runEvents bo argsort b (some es)).run s1 = some (.ok o2, s2)) :
    ∃ o s', (S.runEvents bo argsort (a ++ b) (some es)).run s = some (.ok o, s') ∧ o.out = o1.out ++ o2.out ∧
      o.tEvents.length = es.length ∧ o.yEvents.length = es.length ∧
      (∀ i, JoinedUp (o1.tEvents.getD i []) (o1.yEvents.getD i []) (o2.tEvents.getD i []) (o2.yEvents.getD i [])
        (o.tEvents.getD i []) (o.yEvents.getD i [])) ∧ Alike S bo argsort s' s2 := by
  obtain ⟨D, hg⟩ := good_session hM.forward hc ho hh hs
  obtain ⟨ha, hb, hcross⟩ := List.pairwise_append.mp hab
  obtain ⟨f1, r1, n1, eh1, out1, l1, -, -, -⟩ := runEvents_ok hA hes h1
  obtain ⟨f2, r2, n2, -⟩ := runEvents_ok hA hes h2
  rw [sortedTimes_id hA ha] at l1
  have hlast : ∀ x : St α n k X, ∀ ev ∈ (buildHandler (k := k) es x.t x.y).events, ev.lastT = x.t := by
    intro x ev hev
    simp only [buildHandler, List.mem_map] at hev
    obtain ⟨e', -, rfl⟩ := hev
    rfl
  have ho1 : o1 = ⟨out1, eh1.events.map fun e => e.t, eh1.events.map fun e => e.y⟩ := by
    rw [runEvents_of_loop ha n1 hes r1 f1, l1, andThen_ok] at h1
    cases h1
    rfl
  rw [runEvents_of_loop hb n2 hes r2 f2, andThen_eq_ok] at h2
  obtain ⟨⟨eh2, out2⟩, s3, l2, h2⟩ := h2
  cases h2
  obtain ⟨l, c, pts, -, -, hat, -, hw, -⟩ := runEvalEvents_post hM.forward D (located_locates bo htol) es S.tBound ha l1 ⟨⟨rfl, rfl, rfl⟩, hg⟩ hg
    (watches_build _ es s) (noTerminal_single es s) (fun u hu => (r1 u hu).1)
  have ec : c.cache = s1.cache := hat.1.1.symm
  have hnew := aheadAll_new (s := s1) (show c.t = s1.t by unfold St.t; rw [ec]) (show c.y = s1.y by unfold St.y; rw [ec]) hnt hw
  obtain ⟨-, j2, j3, j4⟩ := runEvalEvents_append hM D bo S.tBound _ b ha hg (aheadAll_self hnt s.t s.y) (hlast s)
    (fun u hu => (r1 u hu).1) l1
  have key : ∃ eh' y', (S.runEvalEvents bo S.tBound (a ++ b) (buildHandler es s.t s.y)).run s = some (.ok (eh', out1 ++ out2), y') ∧
      AheadAll (eh1.events.map fun ev => (ev.t, ev.y)) eh2.events eh'.events ∧ Rel D s2 y' := by
    have hR : Rel D s1 s1 := ⟨⟨rfl, rfl, rfl⟩, j3, j3⟩
    rcases j4 with j4 | ⟨j4, j5⟩
    · obtain ⟨eh', y', g1, g2, g3⟩ := ahead_runEvalEvents hM D bo S.tBound _ hb hR hnew l2 (hlast s1) (fun u hu => (r2 u hu).1)
      exact ⟨eh', y', by rw [j4, g1, andThen_ok], g2, g3⟩
    · rcases b with _ | ⟨b0, b⟩
      · exact absurd rfl n2
      have hlt : s1.t < b0 := f2 b0 List.mem_cons_self
      rw [runEvalEvents_cons, advanceEvents_run, if_pos hlt, pstep_false.mpr ⟨j5, rfl⟩] at l2
      simp only [andThen_ok, Bool.false_eq_true, if_false] at l2
      cases l2
      exact ⟨eh1, s1, by rw [j4]; simp, hnew, hR⟩
  obtain ⟨eh', y', g1, g2, g3⟩ := key
  have hin : InRange S s (a ++ b) := by
    intro x hx
    rcases List.mem_append.mp hx with hx | hx
    · exact r1 x hx
    · obtain ⟨a0, ha0⟩ := List.exists_mem_of_ne_nil a n1
      exact ⟨((r1 a0 ha0).1).trans (hcross a0 ha0 x hx), (r2 x hx).2⟩
  have hfut : ∀ x ∈ a ++ b, s.t < x := by
    intro x hx
    rcases List.mem_append.mp hx with hx | hx
    · exact f1 x hx
    · obtain ⟨a0, ha0⟩ := List.exists_mem_of_ne_nil a n1
      exact (f1 a0 ha0).trans_le (hcross a0 ha0 x hx)
  refine ⟨⟨out1 ++ out2, eh'.events.map fun e => e.t, eh'.events.map fun e => e.y⟩, y', ?_, ?_, ?_, ?_, ?_, alike_rel hM bo hA g3.symm⟩
  · rw [runEvents_of_loop hab (by simp [n1]) hes hin hfut, g1, andThen_ok]
  · rw [ho1]
  · have := (aheadAll_length g2).2
    have h3 : es.length = eh1.events.length := hw.length_eq
    simp [this, h3]
  · have := (aheadAll_length g2).2
    have h3 : es.length = eh1.events.length := hw.length_eq
    simp [this, h3]
  · intro i
    have := aheadAll_joined g2 i
    rw [ho1]
    simpa [List.map_map, Function.comp_def] using this

theorem path_from {b : Bound α} (hM : WellConfigured S.method) {s c u v : St α n k X} {l : List (St α n k X)}
    (hp : Path S b s l c) (hh : 0 < s.h) (hc : Consecutive (s :: l) u v) : s.t ≤ u.t := by
  induction hp generalizing u v with
  | nil s => exact absurd hc consecutive_single
  | @cons s s1 s2 l hf ht hp ih =>
    obtain ⟨hlt, hh1⟩ := C11_step_increases _ hM _ _ hh ht
    obtain ⟨l1, l2, e⟩ := hc
    rcases l1 with _ | ⟨z, l1⟩
    · cases e; exact le_refl _
    · rw [List.cons_append, List.cons.injEq] at e
      exact hlt.le.trans (ih hh1 ⟨l1, l2, e.2⟩)

theorem path_upto {b : Bound α} (hM : WellConfigured S.method) {s c u v : St α n k X} {l : List (St α n k X)}
    (hp : Path S b s l c) (hh : 0 < s.h) (hc : Consecutive (s :: l) u v) : v.t ≤ c.t := by
  have hmono : ∀ {s c : St α n k X} {l : List (St α n k X)}, Path S b s l c → 0 < s.h → s.t ≤ c.t := by
    intro s c l hp hh
    induction hp with
    | nil s => exact le_refl _
    | @cons s s1 s2 l hf ht hp ih =>
      obtain ⟨hlt, hh1⟩ := C11_step_increases _ hM _ _ hh ht
      exact hlt.le.trans (ih hh1)
  induction hp generalizing u v with
  | nil s => exact absurd hc consecutive_single
  | @cons s s1 s2 l hf ht hp ih =>
    obtain ⟨hlt, hh1⟩ := C11_step_increases _ hM _ _ hh ht
    obtain ⟨l1, l2, e⟩ := hc
    rcases l1 with _ | ⟨z, l1⟩
    · cases e; exact hmono hp hh1
    · rw [List.cons_append, List.cons.injEq] at e
      exact ih hh1 ⟨l1, l2, e.2⟩

/-- **C108**, when nothing is recorded at the time `s1.t` the first call leaves the solver at: the records of the one call are those of the
first and then those of the second. -/
theorem C108_apart_partial (S : Solver α n k X) (hM : WellConfigured S.method) (bo : BisectOpts α) (htol : 0 ≤ bo.tol)
    (argsort : List α → List Nat) (hA : ∀ l, IsArgsort l (argsort l)) (s0 s : St α n k X)
    (hc : Constructed S s0) (ho : Ordered s0) (hh : 0 < s0.h) (hs : CleanSession S bo argsort s0 s)
    (a b : List α) (hab : (a ++ b).Pairwise (· ≤ ·)) (es : List (EventSpec α n)) (hes : es ≠ []) (hnt : ∀ e ∈ es, e.terminal ≠ some true)
    (o1 o2 : RunOut α n k) (s1 s2 : St α n k X)
    (h1 : (S.runEvents bo argsort a (some es)).run s = some (.ok o1, s1))
    (h2 : (S.runEvents bo argsort b (some es)).run s1 = some (.ok o2, s2))
    (hap : ∀ tl ∈ o1.tEvents, s1.t ∉ tl) :
    ∃ o s', (S.runEvents bo argsort (a ++ b) (some es)).run s = some (.ok o, s') ∧ o.out = o1.out ++ o2.out ∧
      o.tEvents = List.zipWith (· ++ ·) o1.tEvents o2.tEvents ∧ o.yEvents = List.zipWith (· ++ ·) o1.yEvents o2.yEvents ∧
      Alike S bo argsort s' s2 := by
  obtain ⟨o, s', g1, g2, g3, g4, g5, g6⟩ := C108_resume_partial S hM bo htol argsort hA s0 s hc ho hh hs a b hab es hes hnt o1 o2 s1 s2 h1 h2
  have hs1 : CleanSession S bo argsort s0 s1 := .call (.runEvents a (some es)) hs (by
    show ((do let _ ← S.runEvents bo argsort a (some es) : Py _ Unit)).run s = _
    rw [run_bind, h1, andThen_ok]
    rfl)
  obtain ⟨D, hgood⟩ := good_session hM.forward hc ho hh hs
  obtain ⟨D1, hgood1⟩ := good_session hM.forward hc ho hh hs1
  obtain ⟨-, -, -, -, -, -, -, -, -, k1, k2, -⟩ := runEvents_ends S hM bo htol argsort hA s0 s hc ho hh hs a es hes o1 s1 h1
  obtain ⟨-, -, -, -, -, -, -, -, -, m1, m2, -⟩ := runEvents_ends S hM bo htol argsort hA s0 s1 hc ho hh hs1 b es hes o2 s2 h2
  obtain ⟨-, l, c, p1, p2, p3⟩ := C42_ordered S hM bo htol argsort hA s0 s hc ho hh hs a es hes o1 s1 h1
  obtain ⟨-, l', c', q1, q2, q3⟩ := C42_ordered S hM bo htol argsort hA s0 s1 hc ho hh hs1 b es hes o2 s2 h2
  have key : ∀ i < es.length, o.tEvents.getD i [] = o1.tEvents.getD i [] ++ o2.tEvents.getD i [] ∧
      o.yEvents.getD i [] = o1.yEvents.getD i [] ++ o2.yEvents.getD i [] := by
    intro i hi
    rcases g5 i with h | ⟨x, e1, e2, -⟩
    · exact h
    · exfalso
      have i1 : i < o1.tEvents.length := by omega
      have i2 : i < o2.tEvents.length := by omega
      have j1 : o1.tEvents.getD i [] = o1.tEvents[i] := by simp [i1]
      have j2 : o2.tEvents.getD i [] = o2.tEvents[i] := by simp [i2]
      rw [j1] at e1
      rw [j2] at e2
      have w1 := List.mem_of_getLast? e1
      have w2 := List.mem_of_head? e2
      obtain ⟨u, v, c1, -, -, c2⟩ := p3 i es[i] _ (List.getElem?_eq_getElem hi) (List.getElem?_eq_getElem i1) x w1
      obtain ⟨u', v', d1, -, d2, -⟩ := q3 i es[i] _ (List.getElem?_eq_getElem hi) (List.getElem?_eq_getElem i2) x w2
      have z1 := path_upto hM p1 hgood.pos c1
      have z2 := path_from hM q1 hgood1.pos d1
      have : x = s1.t := le_antisymm (c2.trans (z1.trans_eq p2.symm)) (z2.trans d2)
      exact hap _ (List.getElem_mem i1) (this ▸ w1)
  refine ⟨o, s', g1, g2, ?_, ?_, g6⟩
  · refine List.ext_getElem (by simp; omega) fun i x1 x2 => ?_
    have := (key i (by omega)).1
    simpa [show i < o.tEvents.length by omega, show i < o1.tEvents.length by omega, show i < o2.tEvents.length by omega] using this
  · refine List.ext_getElem (by simp; omega) fun i x1 x2 => ?_
    have := (key i (by omega)).2
    simpa [show i < o.yEvents.length by omega, show i < o1.yEvents.length by omega, show i < o2.yEvents.length by omega] using this

end field

open Demo

/-- Two calls of Forward Euler one after the other. -/
theorem Demo.two_calls {a b : List ℚ} (ha : a.Pairwise (· ≤ ·)) (hb : b.Pairwise (· ≤ ·)) (na : a ≠ []) (nb : b ≠ []) (fa : ∀ x ∈ a, 0 < x)
    {es : List (EventSpec ℚ 1)} (hes : es ≠ []) (P : List (List ℚ) → List (List ℚ) → ℚ → Bool)
    (argsort : List ℚ → List Nat)
    (key : okAnd (runEvFuel (euler .inf) BisectOpts.std .inf 10 a (buildHandler es s0.t s0.y) s0) (fun p s1 =>
      okAnd (runEvFuel (euler .inf) BisectOpts.std .inf 10 b (buildHandler es s1.t s1.y) s1) (fun q _ =>
        b.all (fun x => decide (s1.cache.ts (Buffer.iOld _) ≤ x) && decide (s1.t < x)) &&
        P (p.1.events.map fun e => e.t) (q.1.events.map fun e => e.t) s1.t)) = true) : ∃ o1 s1 o2 s2,
    ((euler .inf).runEvents BisectOpts.std argsort a (some es)).run s0 = some (.ok o1, s1) ∧
    ((euler .inf).runEvents BisectOpts.std argsort b (some es)).run s1 = some (.ok o2, s2) ∧
    P o1.tEvents o2.tEvents s1.t = true := by
  obtain ⟨p, s1, h1, h2⟩ := of_okAnd key
  obtain ⟨q, s2, h3, h4⟩ := of_okAnd h2
  simp only [Bool.and_eq_true, List.all_eq_true, decide_eq_true_iff] at h4
  refine ⟨_, s1, ⟨q.2, q.1.events.map fun e => e.t, q.1.events.map fun e => e.y⟩, s2, euler_events ha na fa hes argsort h1, ?_, h4.2⟩
  rw [runEvents_of_loop (s := s1) hb nb hes (fun x hx => ⟨(h4.1 x hx).1, by trivial⟩) (fun x hx => (h4.1 x hx).2)]
  show andThen (((euler .inf).runEvalEvents BisectOpts.std .inf b _).run s1) _ = _
  rw [runEv_of_fuel _ _ _ _ _ _ _ _ h3, andThen_ok]

-- C108: Forward Euler asked for `1/2`, then for `1`, with an event at `1/4` and one at `3/4`: one call records both.
example (argsort : List ℚ → List Nat) (hA : ∀ l, IsArgsort l (argsort l)) : ∃ o s',
    ((euler .inf).runEvents .std argsort [1/2, 1] (some [atTime (1/4) false, atTime (3/4) false])).run s0 = some (.ok o, s') ∧
      o.tEvents = [[1/4], [3/4]] := by
  obtain ⟨o1, s1, o2, s2, h1, h2, h3⟩ := two_calls (a := [1/2]) (b := [1]) (by simp) (by simp) (by simp) (by simp) (by simp)
    (es := [atTime (1/4) false, atTime (3/4) false]) (by simp)
    (fun x y t => decide (x = [[1/4], []]) && decide (y = [[], [3/4]]) && decide (t = 1/2)) argsort (by decide +kernel)
  simp only [Bool.and_eq_true, decide_eq_true_iff] at h3
  obtain ⟨o, s', g1, g2, g3, -⟩ := C108_apart_partial _ (euler_well .inf) .std std_tol argsort hA s0 s0 (constructed_s0 .inf) ordered_s0
    pos_s0 session0 [1/2] [1] (by norm_num) _ (by simp) (by simp [atTime]) o1 o2 s1 s2 h1 h2 (by
      rw [h3.1.1, h3.2]
      simp)
  exact ⟨o, s', g1, by rw [g3, h3.1.1, h3.1.2]; rfl⟩

/-- **C108 refuted** as stated: Forward Euler asked for `1/2` and then for `1`, with an event at `1/2`, records it in both calls. Asked
for both times in one call, it records it once. -/
theorem C108_refuted (argsort : List ℚ → List Nat) : ∃ o1 s1 o2 s2 o s',
    ((euler .inf).runEvents BisectOpts.std argsort [1/2] (some [atTime (1/2) false])).run s0 = some (.ok o1, s1) ∧
    ((euler .inf).runEvents BisectOpts.std argsort [1] (some [atTime (1/2) false])).run s1 = some (.ok o2, s2) ∧
    ((euler .inf).runEvents BisectOpts.std argsort [1/2, 1] (some [atTime (1/2) false])).run s0 = some (.ok o, s') ∧
    o1.tEvents = [[1/2]] ∧ o2.tEvents = [[1/2]] ∧ o.tEvents = [[1/2]] := by
  obtain ⟨o1, s1, o2, s2, h1, h2, h3⟩ := two_calls (a := [1/2]) (b := [1]) (by simp) (by simp) (by simp) (by simp) (by simp)
    (es := [atTime (1/2) false]) (by simp)
    (fun x y t => decide (x = [[1/2]]) && decide (y = [[1/2]]) && decide (t = 1/2)) argsort (by decide +kernel)
  simp only [Bool.and_eq_true, decide_eq_true_iff] at h3
  have key : okAnd (runEvFuel (euler .inf) BisectOpts.std .inf 10 [1/2, 1]
      (buildHandler [atTime (1/2) false] s0.t s0.y) s0)
      (fun p _ => decide (p.1.events.map (fun e => e.t) = [[1/2]])) = true := by
    decide +kernel
  obtain ⟨p, s', h4, h5⟩ := of_okAnd key
  simp only [decide_eq_true_iff] at h5
  exact ⟨o1, s1, o2, s2, _, s', h1, h2, euler_events (by norm_num) (by simp) (by norm_num) (by simp) argsort h4, h3.1.1, h3.1.2, h5⟩

-- C108: the theorem applies to the refuting calls.
example (argsort : List ℚ → List Nat) (hA : ∀ l, IsArgsort l (argsort l)) : ∃ o s',
    ((euler .inf).runEvents .std argsort [1/2, 1] (some [atTime (1/2) false])).run s0 = some (.ok o, s') ∧
      (o.tEvents.getD 0 [] = [1/2] ∨ o.tEvents.getD 0 [] = [1/2, 1/2]) := by
  obtain ⟨o1, s1, o2, s2, -, -, h1, h2, -, e1, e2, -⟩ := C108_refuted argsort
  obtain ⟨o, s', g1, -, -, -, g5, -⟩ := C108_resume_partial _ (euler_well .inf) .std std_tol argsort hA s0 s0 (constructed_s0 .inf) ordered_s0
    pos_s0 session0 [1/2] [1] (by norm_num) _ (by simp) (by simp [atTime]) o1 o2 s1 s2 h1 h2
  refine ⟨o, s', g1, ?_⟩
  rcases g5 0 with ⟨h, -⟩ | ⟨x, -, -, h, -⟩
  · right; rw [h, e1, e2]; rfl
  · left; rw [h, e1, e2]; rfl

end Nbkode
