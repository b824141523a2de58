import Verif.Proofs.EventsIndependent
import Verif.Props.Watching
import Verif.Props.Terminal
import Mathlib.Data.List.Perm.Basic

/-!
# Events are watched independently of each other (C96)
-/

set_option autoImplicit false
set_option linter.unusedSectionVars false

namespace Nbkode
open Py Spec Solver

section field
variable {α : Type} [Field α] [LinearOrder α] [IsStrictOrderedRing α] [BEq α] [LawfulBEq α]
variable {n k : Nat} {X : Type} {S : Solver α n k X}

/-- Whether the user marked the event terminal. -/
def marked (e : EventSpec α n) : Bool := e.terminal = some true

theorem marked_getD (e : EventSpec α n) : e.terminal.getD false = marked e := by
  unfold marked
  rcases e.terminal with _ | _ | _ <;> rfl

/-- **C96**: suppose `run_events` with the events `es` returns. Then it also returns with any events `es2` drawn from them, the `j`-th
being the one at position `idx[j]` of `es`, among which the terminal ones are the same in the same order. It returns the same times
and states, for each event the same records, and afterwards the two solvers cannot be told apart. -/
theorem C96_drawn (S : Solver α n k X) (hM : WellConfigured S.method) (bo : BisectOpts α)
    (argsort : List α → List Nat) (hA : ∀ l, IsArgsort l (argsort l)) (s0 s : St α n k X)
    (hc : Constructed S s0) (ho : Ordered s0) (hh : 0 < s0.h) (hs : CleanSession S bo argsort s0 s)
    (ts : List α) (es es2 : List (EventSpec α n)) (idx : List Nat) (hne : es2 ≠ [])
    (hd : List.Forall₂ (fun i e => es[i]? = some e) idx es2)
    (ht : es2.filter marked = es.filter marked) (o : RunOut α n k) (s' : St α n k X)
    (h : (S.runEvents bo argsort ts (some es)).run s = some (.ok o, s')) :
    ∃ o2 s2, (S.runEvents bo argsort ts (some es2)).run s = some (.ok o2, s2) ∧ o2.out = o.out ∧
      List.Forall₂ (fun i l => o.tEvents[i]? = some l) idx o2.tEvents ∧
      List.Forall₂ (fun i l => o.yEvents[i]? = some l) idx o2.yEvents ∧ Alike S bo argsort s' s2 := by
  obtain ⟨D, hg⟩ := good_session hM.forward hc ho hh hs
  have hes : es ≠ [] := by
    rintro rfl
    cases hd with
    | nil => exact hne rfl
    | cons hx _ => simp at hx
  obtain ⟨hfut, hr, htne, -⟩ := runEvents_ok hA hes h
  rw [runEvents_future hA htne hes hr hfut, andThen_eq_ok] at h
  obtain ⟨p, x1, h1, h2⟩ := h
  have hp : Picked idx (buildHandler (k := k) es s.t s.y) (buildHandler es2 s.t s.y) := by
    refine ⟨Drawn.map hd _, rfl, ?_⟩
    rw [build_terminal, build_terminal]
    simp only [marked_getD]
    rw [ht]
  obtain ⟨eh2, y1, g1, g2, g3⟩ := picked_runEvalEvents hM D bo S.tBound idx (sortedTimes_sorted hA ts) (x := s) (y := s)
    ⟨⟨rfl, rfl, rfl⟩, hg, hg⟩ hp h1 (fun ev hev => by
      simp only [buildHandler, List.mem_map] at hev
      obtain ⟨e', -, rfl⟩ := hev
      rfl)
    (fun u hu => (hr u ((sortedTimes_perm hA ts).mem_iff.mp hu)).1)
  rw [runEvents_future hA htne hne hr hfut, g1, andThen_ok]
  have hfin : ∀ out, o = ⟨out, p.1.events.map fun e => e.t, p.1.events.map fun e => e.y⟩ → s' = x1 → ∃ o2 s2,
      (some (Except.ok ⟨out, eh2.events.map fun e => e.t, eh2.events.map fun e => e.y⟩, y1) :
        Option (Except Err (RunOut α n k) × St α n k X)) = some (.ok o2, s2) ∧
      o2.out = o.out ∧ List.Forall₂ (fun i l => o.tEvents[i]? = some l) idx o2.tEvents ∧
      List.Forall₂ (fun i l => o.yEvents[i]? = some l) idx o2.yEvents ∧ Alike S bo argsort s' s2 := by
    rintro out rfl rfl
    exact ⟨_, _, rfl, rfl, g2.events.map _, g2.events.map _, alike_rel hM bo hA g3⟩
  split at h2
  · rw [if_pos ‹_›]
    cases h2
    exact hfin _ rfl rfl
  · rw [if_neg ‹_›]
    rcases hf : fancyIndex p.2 (invPerm (argsort ts)) with e | out
    · rw [hf] at h2; cases h2
    · rw [hf] at h2
      cases h2
      exact hfin _ rfl rfl

/-- **C96** for a single event: if none of the others is terminal, watching it alone gives the same records. -/
theorem C96_alone (S : Solver α n k X) (hM : WellConfigured S.method) (bo : BisectOpts α)
    (argsort : List α → List Nat) (hA : ∀ l, IsArgsort l (argsort l)) (s0 s : St α n k X)
    (hc : Constructed S s0) (ho : Ordered s0) (hh : 0 < s0.h) (hs : CleanSession S bo argsort s0 s)
    (ts : List α) (before after : List (EventSpec α n)) (e : EventSpec α n)
    (hnt : ∀ e' ∈ before ++ after, e'.terminal ≠ some true) (o : RunOut α n k) (s' : St α n k X)
    (h : (S.runEvents bo argsort ts (some (before ++ e :: after))).run s = some (.ok o, s')) :
    ∃ o2 s2, (S.runEvents bo argsort ts (some [e])).run s = some (.ok o2, s2) ∧ o2.out = o.out ∧
      o2.tEvents = [(o.tEvents[before.length]?).getD []] ∧ o2.yEvents = [(o.yEvents[before.length]?).getD []] ∧
      Alike S bo argsort s' s2 := by
  have hz : ∀ l : List (EventSpec α n), (∀ e' ∈ l, e'.terminal ≠ some true) → l.filter marked = [] := by
    intro l hl
    rw [List.filter_eq_nil_iff]
    intro e' he'
    simpa [marked] using hl e' he'
  obtain ⟨o2, s2, h1, h2, h3, h4, h5⟩ := C96_drawn S hM bo argsort hA s0 s hc ho hh hs ts (before ++ e :: after) [e] [before.length]
    (by simp) (.cons (by simp) .nil) (by
      rw [List.filter_append, List.filter_cons, List.filter_cons, hz before fun e' he' => hnt e' (by simp [he']),
        hz after fun e' he' => hnt e' (by simp [he'])]
      simp) o s' h
  refine ⟨o2, s2, h1, h2, ?_, ?_, h5⟩
  · revert h3
    generalize o2.tEvents = l
    intro h3
    cases h3 with
    | cons hx hn => cases hn; rw [hx]; rfl
  · revert h4
    generalize o2.yEvents = l
    intro h4
    cases h4 with
    | cons hx hn => cases hn; rw [hx]; rfl

theorem Drawn.zip {A B : Type} {idx : List Nat} {l l2 : List A} {m m2 : List B} (h : Drawn idx l l2) (h' : Drawn idx m m2) :
    Drawn idx (l.zip m) (l2.zip m2) := by
  unfold Drawn at h h' ⊢
  induction h generalizing m2 with
  | nil => cases h'; exact .nil
  | cons hx _ ih =>
    cases h' with
    | cons hy h' => exact .cons (by rw [List.getElem?_zip_eq_some]; exact ⟨hx, hy⟩) (ih h')

theorem drawn_range {A : Type} (l : List A) : Drawn (List.range l.length) l l := by
  unfold Drawn
  rw [List.forall₂_iff_get]
  refine ⟨by simp, ?_⟩
  intro i h1 h2
  simp at h1
  simp [h1]

theorem perm_drawn {A : Type} {l l2 : List A} (h : l2.Perm l) : ∃ idx, Drawn idx l l2 ∧ idx.Perm (List.range l.length) := by
  have h0 : List.Forall₂ (fun x i => l[i]? = some x) l (List.range l.length) := (drawn_range l).flip
  obtain ⟨idx, h1, h2⟩ := List.perm_comp_forall₂ h h0
  exact ⟨idx, h1.flip, h2⟩

theorem drawn_unique {A : Type} {l l2 l3 : List A} {idx : List Nat} (h : Drawn idx l l2) (h' : Drawn idx l l3) : l2 = l3 := by
  unfold Drawn at h h'
  induction h generalizing l3 with
  | nil => cases h'; rfl
  | cons hx _ ih =>
    cases h' with
    | cons hy h' =>
      rw [hx] at hy
      cases hy
      rw [ih h']

theorem drawn_perm {A : Type} {l l2 : List A} {idx : List Nat} (h : Drawn idx l l2) (hi : idx.Perm (List.range l.length)) :
    l2.Perm l := by
  obtain ⟨l3, h1, h2⟩ := List.perm_comp_forall₂ hi.symm h
  rw [drawn_unique (drawn_range l) h1]
  exact h2.symm

/-- **C96** for the order: the same events listed in another order, the terminal ones in the same order, have the same records. -/
theorem C96_order (S : Solver α n k X) (hM : WellConfigured S.method) (bo : BisectOpts α) (htol : 0 ≤ bo.tol)
    (argsort : List α → List Nat) (hA : ∀ l, IsArgsort l (argsort l)) (s0 s : St α n k X)
    (hc : Constructed S s0) (ho : Ordered s0) (hh : 0 < s0.h) (hs : CleanSession S bo argsort s0 s)
    (ts : List α) (es es2 : List (EventSpec α n)) (hne : es ≠ []) (hp : es2.Perm es)
    (ht : es2.filter marked = es.filter marked) (o : RunOut α n k) (s' : St α n k X)
    (h : (S.runEvents bo argsort ts (some es)).run s = some (.ok o, s')) :
    ∃ o2 s2, (S.runEvents bo argsort ts (some es2)).run s = some (.ok o2, s2) ∧ o2.out = o.out ∧
      o2.tEvents.length = es2.length ∧ o2.yEvents.length = es2.length ∧
      (es2.zip (o2.tEvents.zip o2.yEvents)).Perm (es.zip (o.tEvents.zip o.yEvents)) ∧ Alike S bo argsort s' s2 := by
  obtain ⟨idx, h1, h2⟩ := perm_drawn hp
  have hne2 : es2 ≠ [] := by
    rintro rfl
    exact hne hp.symm.eq_nil
  obtain ⟨o2, s2, g1, g2, g3, g4, g5⟩ := C96_drawn S hM bo argsort hA s0 s hc ho hh hs ts es es2 idx hne2 h1 ht o s' h
  obtain ⟨out, l, c, -, -, -, -, -, -, k1, k2, -⟩ := runEvents_ends S hM bo htol argsort hA s0 s hc ho hh hs ts es hne o s' h
  have hl : es.length = (es.zip (o.tEvents.zip o.yEvents)).length := by simp [k1, k2]
  refine ⟨o2, s2, g1, g2, ?_, ?_, drawn_perm (Drawn.zip h1 (Drawn.zip g3 g4)) (by rw [← hl]; exact h2), g5⟩
  · rw [← g3.length_eq, h1.length_eq]
  · rw [← g4.length_eq, h1.length_eq]

end field

open Demo

/-- Forward Euler asked for `1/2` and `2`, with a terminal event at `3/2` between two which are not terminal. -/
theorem Demo.three_watched (argsort : List ℚ → List Nat) : ∃ o s',
    ((euler .inf).runEvents BisectOpts.std argsort [1/2, 2]
      (some [atTime (1/4) false, atTime (3/2) true, atTime (3/4) false])).run s0 = some (.ok o, s') ∧
      o.tEvents = [[1/4], [3/2], [3/4]] ∧ o.out.map Prod.fst = [1/2, 3/2] := by
  have key : okAnd (runEvFuel (euler .inf) BisectOpts.std .inf 10 [1/2, 2]
      (buildHandler [atTime (1/4) false, atTime (3/2) true, atTime (3/4) false] s0.t s0.y) s0)
      (fun p _ => decide (p.1.events.map (fun e => e.t) = [[1/4], [3/2], [3/4]]) && decide (p.2.map Prod.fst = [1/2, 3/2])) = true := by
    decide +kernel
  obtain ⟨p, s', h1, h2⟩ := of_okAnd key
  simp only [Bool.and_eq_true, decide_eq_true_iff] at h2
  exact ⟨_, s', euler_events (by norm_num) (by simp) (by norm_num) (by simp) argsort h1, h2.1, h2.2⟩

-- C96: the events drawn from the three, one of them twice and one left out.
example (argsort : List ℚ → List Nat) (hA : ∀ l, IsArgsort l (argsort l)) : ∃ o s',
    ((euler .inf).runEvents .std argsort [1/2, 2] (some [atTime (3/4) false, atTime (3/2) true, atTime (3/4) false])).run s0 =
      some (.ok o, s') ∧ o.tEvents = [[3/4], [3/2], [3/4]] ∧ o.out.map Prod.fst = [1/2, 3/2] := by
  obtain ⟨o, s', h1, h2, h3⟩ := three_watched argsort
  obtain ⟨o2, s2, g1, g2, g3, -⟩ := C96_drawn _ (euler_well .inf) .std argsort hA s0 s0 (constructed_s0 .inf) ordered_s0 pos_s0 session0
    _ _ [atTime (3/4) false, atTime (3/2) true, atTime (3/4) false] [2, 1, 2] (by simp)
    (.cons rfl (.cons rfl (.cons rfl .nil))) (by simp [marked, atTime]) o s' h1
  refine ⟨o2, s2, g1, ?_, by rw [g2, h3]⟩
  rw [h2] at g3
  exact drawn_unique g3 (.cons rfl (.cons rfl (.cons rfl .nil)))

-- C96: the terminal event alone, and the three in another order.
example (argsort : List ℚ → List Nat) (hA : ∀ l, IsArgsort l (argsort l)) :
    (∃ o s', ((euler .inf).runEvents .std argsort [1/2, 2] (some [atTime (3/2) true])).run s0 =
      some (.ok o, s') ∧ o.tEvents = [[3/2]] ∧ o.out.map Prod.fst = [1/2, 3/2]) ∧
    ∃ o s', ((euler .inf).runEvents .std argsort [1/2, 2] (some [atTime (3/4) false, atTime (1/4) false, atTime (3/2) true])).run s0 =
      some (.ok o, s') ∧ o.out.map Prod.fst = [1/2, 3/2] := by
  obtain ⟨o, s', h1, h2, h3⟩ := three_watched argsort
  obtain ⟨o2, s2, g1, g2, g3, -⟩ := C96_alone _ (euler_well .inf) .std argsort hA s0 s0 (constructed_s0 .inf) ordered_s0 pos_s0 session0
    _ [atTime (1/4) false] [atTime (3/4) false] (atTime (3/2) true) (by simp [atTime]) o s' h1
  obtain ⟨o3, s3, k1, k2, -⟩ := C96_order _ (euler_well .inf) .std std_tol argsort hA s0 s0 (constructed_s0 .inf) ordered_s0 pos_s0 session0
    _ _ [atTime (3/4) false, atTime (1/4) false, atTime (3/2) true] (by simp)
    ((List.perm_append_comm (l₁ := [atTime (3/4) false]) (l₂ := [atTime (1/4) false, atTime (3/2) true]))) (by simp [marked, atTime]) o s' h1
  exact ⟨⟨o2, s2, g1, by rw [g3, h2]; rfl, by rw [g2, h3]⟩, o3, s3, k1, by rw [k2, h3]⟩

/-- The condition on the terminal events in C96 cannot be dropped: with two terminal events within one step, the order in which they
are listed decides where the run ends. -/
theorem C96_terminal_order (argsort : List ℚ → List Nat) :
    ∃ o s' o2 s2,
      ((euler .inf).runEvents BisectOpts.std argsort [1] (some [atTime (1/8) true, atTime (1/4) true])).run s0 = some (.ok o, s') ∧
      ((euler .inf).runEvents BisectOpts.std argsort [1] (some [atTime (1/4) true, atTime (1/8) true])).run s0 = some (.ok o2, s2) ∧
      o.out.map Prod.fst = [1/4] ∧ o2.out.map Prod.fst = [1/8] := by
  obtain ⟨o, s', h1, h2, -⟩ := C45_refuted argsort
  have key : okAnd (runEvFuel (euler .inf) BisectOpts.std .inf 10 [1]
      (buildHandler [atTime (1/4) true, atTime (1/8) true] s0.t s0.y) s0) (fun p _ => decide (p.2.map Prod.fst = [1/8])) = true := by
    decide +kernel
  obtain ⟨p, s2, h3, h4⟩ := of_okAnd key
  simp only [decide_eq_true_iff] at h4
  exact ⟨o, s', _, s2, h1, euler_events (by norm_num) (by simp) (by norm_num) (by simp) argsort h3, h2, h4⟩

end Nbkode
