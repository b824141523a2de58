import Verif.Props.Terminal

/-!
# C101: what is reported when a terminal event ends a run; C42: one record per step
-/

set_option autoImplicit false
set_option linter.unusedSectionVars false

namespace Nbkode
open Py Spec Solver

theorem stepsOf_mem {A : Type} {l : List A} {a b : A} (h : (a, b) ∈ stepsOf l) : Consecutive l a b := by
  induction l with
  | nil => cases h
  | cons x l ih =>
    cases l with
    | nil => cases h
    | cons y l =>
      rcases List.mem_cons.1 h with h | h
      · cases h
        exact ⟨[], l, rfl⟩
      · obtain ⟨l1, l2, e⟩ := ih h
        exact ⟨x :: l1, l2, by rw [e]; rfl⟩

theorem stepsOf_pairwise {A α : Type} [Preorder α] (t : A → α) {l : List A} (h : l.Pairwise fun x y => t x < t y) :
    (stepsOf l).Pairwise fun p q => t p.2 ≤ t q.1 := by
  induction l with
  | nil => exact .nil
  | cons x l ih =>
    cases l with
    | nil => exact .nil
    | cons y l =>
      obtain ⟨h1, h2⟩ := List.pairwise_cons.1 h
      refine List.pairwise_cons.2 ⟨?_, ih h2⟩
      rintro ⟨a, b⟩ hq
      obtain ⟨l1, l2, e⟩ := stepsOf_mem hq
      have : a ∈ y :: l := by rw [e]; simp
      rcases List.mem_cons.1 this with rfl | h3
      · exact le_rfl
      · exact ((List.pairwise_cons.1 h2).1 a h3).le

theorem forall₂_zip {A B C : Type} {R : A → B → Prop} {l : List A} {bs : List B} {cs : List C} (hl : bs.length = cs.length)
    (h : List.Forall₂ (fun a p => R a p.1) l (bs.zip cs)) : List.Forall₂ R l bs := by
  induction bs generalizing l cs with
  | nil => cases h; exact .nil
  | cons b bs ih =>
    cases cs with
    | nil => cases hl
    | cons c cs =>
      cases h with
      | cons h1 h2 => exact .cons h1 (ih (Nat.succ.inj hl) h2)

section field
variable {α : Type} [Field α] [LinearOrder α] [IsStrictOrderedRing α] [BEq α] [LawfulBEq α]
variable {n k : Nat} {X : Type}

/-- The records of an event and the steps on which they are made. -/
theorem logged_steps {S : Solver α n k X} {L : Locator α} {e : EventSpec α n} {pts : List (St α n k X)} {tl : List α} {yl : List (Ref α n k)}
    (h : Logged S L e pts tl yl) : ∃ made, made.Sublist (stepsOf pts) ∧
      List.Forall₂ (fun st τ => CrossesOn e st.1 st.2 ∧ st.1.t ≤ τ ∧ τ ≤ st.2.t) made tl := by
  obtain ⟨made, h1, h2⟩ := h.once
  exact ⟨made, h1, forall₂_zip h.length_eq (h2.imp fun _ _ d => ⟨d.crosses, d.after, d.before⟩)⟩

/-- **C42.** The records of an event are made on different steps, in order: each step has at most one. `stepsOf (s :: l)` are the steps taken, `made`
those among them with a record. -/
theorem C42_one_per_step (S : Solver α n k X) (hM : WellConfigured S.method) (bo : BisectOpts α) (htol : 0 ≤ bo.tol)
    (argsort : List α → List Nat) (hA : ∀ l, IsArgsort l (argsort l)) (s0 s : St α n k X)
    (hc : Constructed S s0) (ho : Ordered s0) (hh : 0 < s0.h) (hs : CleanSession S bo argsort s0 s)
    (ts : List α) (es : List (EventSpec α n)) (hes : es ≠ []) (o : RunOut α n k) (s' : St α n k X)
    (h : (S.runEvents bo argsort ts (some es)).run s = some (.ok o, s')) :
    ∃ l c, Path S S.tBound s l c ∧ s'.t = c.t ∧ ∀ (i : Nat) e tl, es[i]? = some e → o.tEvents[i]? = some tl →
      tl.length ≤ l.length ∧ ∃ made, made.Sublist (stepsOf (s :: l)) ∧
        List.Forall₂ (fun st τ => CrossesOn e st.1 st.2 ∧ st.1.t ≤ τ ∧ τ ≤ st.2.t) made tl := by
  obtain ⟨D, hg⟩ := good_session hM.forward hc ho hh hs
  obtain ⟨l, c, h1, h2, h3, h4, h5⟩ := runEvents_logged hM.forward D (located_locates bo htol) hA hes hg h
  refine ⟨l, c, h1, by unfold St.t; rw [h2], fun i e tl g1 g2 => ?_⟩
  have hi : i < o.yEvents.length := by
    rw [h4, ← h3]
    exact (List.getElem?_eq_some_iff.mp g2).1
  obtain ⟨made, k1, k2⟩ := logged_steps (h5 i e tl _ g1 g2 (List.getElem?_eq_getElem hi))
  refine ⟨?_, made, k1, k2⟩
  have := k1.length_le
  rw [k2.length_eq] at this
  refine this.trans ?_
  unfold stepsOf
  simp

/-- **C101**, what holds: if a terminal event ends a run, no returned time is after the end, and a record after the end is made on the last step, by an
event that triggers there, as the last record of that event. Missing: such a record should not be there at all, see `C101_refuted`. -/
theorem C101_last_step_partial (S : Solver α n k X) (hM : WellConfigured S.method) (bo : BisectOpts α) (htol : 0 ≤ bo.tol)
    (argsort : List α → List Nat) (hA : ∀ l, IsArgsort l (argsort l)) (s0 s : St α n k X)
    (hc : Constructed S s0) (ho : Ordered s0) (hh : 0 < s0.h) (hs : CleanSession S bo argsort s0 s)
    (ts : List α) (hts : ts.Pairwise (· ≤ ·)) (es : List (EventSpec α n)) (hes : es ≠ []) (o : RunOut α n k) (s' : St α n k X)
    (h : (S.runEvents bo argsort ts (some es)).run s = some (.ok o, s')) :
    ∃ l c, Path S S.tBound s l c ∧ s'.t = c.t ∧ (NoTerminal es (s :: l) ∨
      ∃ (p : St α n k X) (τ : α) (y : Vec α n) (pre : List (α × Vec α n)), Consecutive (s :: l) p c ∧ p.t ≤ τ ∧ τ ≤ c.t ∧
        o.out = pre ++ [(τ, y)] ∧ (∀ x ∈ pre, x.1 ≤ τ) ∧ (∃ (i : Nat) (e : EventSpec α n), es[i]? = some e ∧ e.terminal = some true ∧ o.tEvents[i]? = some [τ]) ∧
        ∀ (i : Nat) e tl, es[i]? = some e → o.tEvents[i]? = some tl → ∀ τ' ∈ tl, τ < τ' →
          CrossesOn e p c ∧ τ' ≤ c.t ∧ tl.getLast? = some τ') := by
  obtain ⟨D, hg⟩ := good_session hM.forward hc ho hh hs
  obtain ⟨out, l, c, h1, h2, h3, h4, h5, -, k1, k2, k3⟩ := runEvents_ends S hM bo htol argsort hA s0 s hc ho hh hs ts es hes o s' h
  have hst : sortedTimes argsort ts = ts := by
    unfold sortedTimes; rw [if_pos ((isSorted_iff ts).mpr hts)]
  rw [hst] at h4
  rw [if_pos ((isSorted_iff ts).mpr hts)] at h5
  subst h5
  refine ⟨l, c, h1, h2, ?_⟩
  by_cases hn : NoTerminal es (s :: l)
  · exact Or.inl hn
  obtain ⟨l0, p, i, e, τ, y, pre, g0, -, g1, g2, g3, g4, g5, g6, g7, g8, g9, -⟩ := ends_terminal h4 hn
  refine Or.inr ⟨p, τ, y, pre, ⟨l0, [], by rw [g0]⟩, g5, g6, g8, ?_, ⟨i, e, g1, g2, g4⟩, ?_⟩
  · intro x hx
    have : x.1 ∈ pre.map Prod.fst := List.mem_map_of_mem hx
    rw [g9, List.mem_filter] at this
    exact (of_decide_eq_true this.2).trans g5
  · intro j e' tl q1 q2 τ' hτ' hlt
    have hj : j < o.yEvents.length := by
      rw [k2, ← k1]
      exact (List.getElem?_eq_some_iff.mp q2).1
    obtain ⟨made, m1, m2⟩ := logged_steps (k3 j e' tl _ q1 q2 (List.getElem?_eq_getElem hj))
    have hclock := path_clock hM h1 hg
    have hord := (stepsOf_pairwise (fun x : St α n k X => x.t) hclock).sublist m1
    -- every step but the last one ends not after `p`
    rw [g0] at m1
    rw [stepsOf_snoc] at m1
    have hclock' := hclock
    rw [g0, List.pairwise_append] at hclock'
    have hold : ∀ st ∈ stepsOf (l0 ++ [p]), st.2.t ≤ p.t := by
      rintro ⟨a, b⟩ hst
      obtain ⟨l1, l2, e⟩ := stepsOf_mem hst
      have : b ∈ l0 ++ [p] := by rw [e]; simp
      rcases List.mem_append.1 this with hb | hb
      · exact (hclock'.2.2 b hb p (by simp)).le
      · rw [List.mem_singleton.1 hb]
    obtain ⟨r, hr, rfl⟩ := List.getElem_of_mem hτ'
    have hlen := m2.length_eq
    obtain ⟨w1, w2, w3⟩ := (List.forall₂_iff_get.1 m2).2 r (by omega) hr
    simp only [List.get_eq_getElem] at w1 w2 w3
    have hst : made[r]'(by omega) = (p, c) := by
      have hmem := m1.subset (List.getElem_mem (l := made) (n := r) (by omega))
      rcases List.mem_append.1 hmem with hm | hm
      · exact absurd ((hlt.trans_le (w3.trans (hold _ hm))).trans_le g5) (lt_irrefl _)
      · exact List.mem_singleton.1 hm
    rw [hst] at w1 w2 w3
    refine ⟨w1, w3, ?_⟩
    rw [List.getLast?_eq_getElem?, List.getElem?_eq_getElem (by omega)]
    congr 1
    by_contra hne
    have hr' : r < tl.length - 1 := by
      have : r ≠ tl.length - 1 := by rintro rfl; exact hne rfl
      omega
    -- a later record would be made on a step that starts at the end of the last one
    have hpw := List.pairwise_iff_getElem.1 hord r (tl.length - 1) (by omega) (by omega) hr'
    have hmem := m1.subset (List.getElem_mem (l := made) (n := tl.length - 1) (by omega))
    rw [hst] at hpw
    obtain ⟨-, v2, v3⟩ := (List.forall₂_iff_get.1 m2).2 (tl.length - 1) (by omega) (by omega)
    simp only [List.get_eq_getElem] at v2 v3
    have hpc : p.t < c.t := by
      have := hclock'.2.1
      exact (List.pairwise_cons.1 this).1 c (by simp)
    rcases List.mem_append.1 hmem with hm | hm
    · have h6 := hold _ hm
      exact absurd (((hpw.trans v2).trans v3).trans h6) (not_le.2 hpc)
    · rw [List.mem_singleton.1 hm] at hpw
      exact absurd hpw (not_le.2 hpc)

/-- **C101**, what holds: with one event nothing is reported after the end. -/
theorem C101_alone_partial (S : Solver α n k X) (hM : WellConfigured S.method) (bo : BisectOpts α) (htol : 0 ≤ bo.tol)
    (argsort : List α → List Nat) (hA : ∀ l, IsArgsort l (argsort l)) (s0 s : St α n k X)
    (hc : Constructed S s0) (ho : Ordered s0) (hh : 0 < s0.h) (hs : CleanSession S bo argsort s0 s)
    (ts : List α) (hts : ts.Pairwise (· ≤ ·)) (e : EventSpec α n) (o : RunOut α n k) (s' : St α n k X)
    (h : (S.runEvents bo argsort ts (some [e])).run s = some (.ok o, s')) :
    ∃ l c, Path S S.tBound s l c ∧ s'.t = c.t ∧ (NoTerminal [e] (s :: l) ∨
      ∃ (τ : α) (y : Vec α n) (pre : List (α × Vec α n)), o.out = pre ++ [(τ, y)] ∧ o.tEvents = [[τ]] ∧ ∀ x ∈ pre, x.1 ≤ τ) := by
  obtain ⟨l, c, h1, h2, h3⟩ := C101_last_step_partial S hM bo htol argsort hA s0 s hc ho hh hs ts hts [e] (by simp) o s' h
  refine ⟨l, c, h1, h2, h3.imp id ?_⟩
  rintro ⟨p, τ, y, pre, -, -, -, g1, g2, ⟨i, e', g3, -, g4⟩, -⟩
  obtain ⟨-, -, -, -, -, k1, -⟩ := C41_records S hM bo htol argsort hA s0 s hc ho hh hs ts [e] (by simp) o s' h
  refine ⟨τ, y, pre, g1, ?_, g2⟩
  have hi : i = 0 := by
    have := (List.getElem?_eq_some_iff.mp g3).1
    simpa using this
  subst hi
  obtain ⟨x, hx⟩ := List.length_eq_one_iff.1 (k1.trans rfl)
  rw [hx] at g4 ⊢
  simpa using g4

end field

/-! ### Cases -/

open Demo

-- C42, C101: the run of `Demo.watched` meets the hypotheses.
example (argsort : List ℚ → List Nat) (hA : ∀ l, IsArgsort l (argsort l)) : ∃ o s', ∃ h : ((euler .inf).runEvents .std
    argsort [1/2, 1] (some [atTime (1/4) false, atTime (3/4) true])).run s0 = some (.ok o, s'), o.tEvents = [[1/4], [3/4]] ∧
    type_of% (C42_one_per_step (euler .inf) (euler_well .inf) .std std_tol argsort hA s0 s0 (constructed_s0 .inf) ordered_s0 pos_s0 session0
      [1/2, 1] _ (by simp) o s' h) ∧
    type_of% (C101_last_step_partial (euler .inf) (euler_well .inf) .std std_tol argsort hA s0 s0 (constructed_s0 .inf) ordered_s0 pos_s0 session0
      [1/2, 1] (by norm_num) _ (by simp) o s' h) := by
  obtain ⟨o, s', h, h1, -⟩ := watched argsort
  exact ⟨o, s', h, h1, C42_one_per_step _ (euler_well .inf) .std std_tol argsort hA _ _ (constructed_s0 .inf) ordered_s0 pos_s0 session0 _ _ (by simp) _ _ h,
    C101_last_step_partial _ (euler_well .inf) .std std_tol argsort hA _ _ (constructed_s0 .inf) ordered_s0 pos_s0 session0 _ (by norm_num) _ (by simp) _ _ h⟩

-- C101: a run with one event that ends it.
example (argsort : List ℚ → List Nat) (hA : ∀ l, IsArgsort l (argsort l)) : ∃ o s', ∃ h : ((euler .inf).runEvents .std
    argsort [1/8, 1] (some [atTime (1/4) true])).run s0 = some (.ok o, s'), o.out.map Prod.fst = [1/4] ∧
    type_of% (C101_alone_partial (euler .inf) (euler_well .inf) .std std_tol argsort hA s0 s0 (constructed_s0 .inf) ordered_s0 pos_s0 session0
      [1/8, 1] (by norm_num) _ o s' h) := by
  obtain ⟨o, s', h, h1⟩ := C47_refuted argsort
  exact ⟨o, s', h, h1,
    C101_alone_partial _ (euler_well .inf) .std std_tol argsort hA _ _ (constructed_s0 .inf) ordered_s0 pos_s0 session0 _ (by norm_num) _ _ _ h⟩

/-- **C101 refuted**: a terminal event at `1/4` ends the run, and the output ends there, but an event at `3/8` is reported too. -/
theorem C101_refuted (argsort : List ℚ → List Nat) :
    ∃ o s', ((euler .inf).runEvents BisectOpts.std argsort [1] (some [atTime (1/4) true, atTime (3/8) false])).run s0 =
      some (.ok o, s') ∧ o.out.map Prod.fst = [1/4] ∧ o.tEvents = [[1/4], [3/8]] := by
  have key : okAnd (runEvFuel (euler .inf) BisectOpts.std .inf 10 [1]
      (buildHandler [atTime (1/4) true, atTime (3/8) false] s0.t s0.y) s0)
      (fun p _ => decide (p.2.map Prod.fst = [1/4]) && decide (p.1.events.map (fun e => e.t) = [[1/4], [3/8]])) = true := by
    decide +kernel
  obtain ⟨p, s', h1, h2⟩ := of_okAnd key
  simp only [Bool.and_eq_true, decide_eq_true_iff] at h2
  exact ⟨_, s', euler_events (by norm_num) (by simp) (by norm_num) (by simp) argsort h1, h2.1, h2.2⟩

end Nbkode
