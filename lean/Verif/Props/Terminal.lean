import Verif.Props.Events
import Verif.Props.Hermite
import Verif.Props.EventDemo
import Verif.Proofs.Ends
import Mathlib.Data.List.Permutation

/-!
# C44, C45, C47, C48, C49: terminal events, past times, and what the recorded states show
-/

set_option autoImplicit false
set_option linter.unusedSectionVars false

namespace Nbkode
open Py Spec Solver

section field
variable {α : Type} [Field α] [LinearOrder α] [IsStrictOrderedRing α] [BEq α] [LawfulBEq α]
variable {n k : Nat} {X : Type}

theorem runEvents_ends (S : Solver α n k X) (hM : WellConfigured S.method) (bo : BisectOpts α) (htol : 0 ≤ bo.tol)
    (argsort : List α → List Nat) (hA : ∀ l, IsArgsort l (argsort l)) (s0 s : St α n k X)
    (hc : Constructed S s0) (ho : Ordered s0) (hh : 0 < s0.h) (hs : CleanSession S bo argsort s0 s)
    (ts : List α) (es : List (EventSpec α n)) (hes : es ≠ []) (o : RunOut α n k) (s' : St α n k X)
    (h : (S.runEvents bo argsort ts (some es)).run s = some (.ok o, s')) :
    ∃ out l c, Path S S.tBound s l c ∧ s'.t = c.t ∧ s'.y = c.y ∧ Ends S (sortedTimes argsort ts) es out o.tEvents s l c ∧
      (if isSorted ts then o.out = out else fancyIndex out (invPerm (argsort ts)) = .ok o.out) ∧ s'.cache = c.cache ∧
      o.tEvents.length = es.length ∧ o.yEvents.length = es.length ∧
      ∀ (i : Nat) e tl yl, es[i]? = some e → o.tEvents[i]? = some tl → o.yEvents[i]? = some yl →
        Logged S (Located bo) e (s :: l) tl yl :=
  runEvents_ends_of S hM.forward (located_locates bo htol) argsort hA s0 s hc ho hh hs ts es hes o s' h

theorem filter_short {l : List α} {p : α → Bool} (h : ∃ x ∈ l, p x = false) : (l.filter p).length < l.length := by
  obtain ⟨x, hx, hp⟩ := h
  exact List.length_filter_lt_length_iff_exists.mpr ⟨x, hx, by simp [hp]⟩

theorem ends_length {S : Solver α n k X} {tl : List α} {es : List (EventSpec α n)} {out : List (α × Vec α n)}
    {te : List (List α)} {s c : St α n k X} {l : List (St α n k X)} (h : Ends S tl es out te s l c) :
    out.length ≤ tl.length := by
  rcases h with ⟨-, -, ⟨h, -⟩ | ⟨-, h⟩⟩ | ⟨l0, p, i, e, τ, y, pre, -, -, -, -, -, -, -, -, -, rfl, h, -, ⟨x, hx, hp⟩, -⟩
  · rw [← h, List.length_map]
  · rw [← List.length_map (f := Prod.fst), h]
    exact List.length_filter_le _ _
  · rw [List.length_append, ← List.length_map (f := Prod.fst), h]
    have : (tl.filter fun x => decide (x ≤ p.t)).length < tl.length :=
      filter_short ⟨x, hx, by simp [hp]⟩
    simp only [List.length_cons, List.length_nil]
    omega

/-! ## C44 -/

/-- **C44.** For times in order, `run_events` that returns goes on to the first step on which a terminal event triggers and ends
its output with that event's time and state; without a terminal trigger it returns every requested point, up to the last step
that fits below `t_bound`. Missing: times out of order, see `C44_any_order_partial` and `C44_refuted`. -/
theorem C44_ends_partial (S : Solver α n k X) (hM : WellConfigured S.method) (bo : BisectOpts α) (htol : 0 ≤ bo.tol)
    (argsort : List α → List Nat) (hA : ∀ l, IsArgsort l (argsort l)) (s0 s : St α n k X)
    (hc : Constructed S s0) (ho : Ordered s0) (hh : 0 < s0.h) (hs : CleanSession S bo argsort s0 s)
    (ts : List α) (hts : ts.Pairwise (· ≤ ·)) (es : List (EventSpec α n)) (hes : es ≠ []) (o : RunOut α n k) (s' : St α n k X)
    (h : (S.runEvents bo argsort ts (some es)).run s = some (.ok o, s')) :
    ∃ l c, Path S S.tBound s l c ∧ s'.t = c.t ∧ s'.y = c.y ∧ Ends S ts es o.out o.tEvents s l c := by
  obtain ⟨out, l, c, h1, h2, h3, h4, h5, -⟩ := runEvents_ends S hM bo htol argsort hA s0 s hc ho hh hs ts es hes o s' h
  have hst : sortedTimes argsort ts = ts := by
    unfold sortedTimes; rw [if_pos ((isSorted_iff ts).mpr hts)]
  rw [hst] at h4
  rw [if_pos ((isSorted_iff ts).mpr hts)] at h5
  exact ⟨l, c, h1, h2, h3, h5 ▸ h4⟩

/-- **C44**, times in any order: what is returned is a rearrangement of what belongs to the ordered times, and without a terminal
trigger it is in the order asked for. Missing: with a terminal trigger the event's pair may come out anywhere, or `IndexError` is
raised, see `C44_refuted` and `C44_refuted_indexError`. -/
theorem C44_any_order_partial (S : Solver α n k X) (hM : WellConfigured S.method) (bo : BisectOpts α) (htol : 0 ≤ bo.tol)
    (argsort : List α → List Nat) (hA : ∀ l, IsArgsort l (argsort l)) (s0 s : St α n k X)
    (hc : Constructed S s0) (ho : Ordered s0) (hh : 0 < s0.h) (hs : CleanSession S bo argsort s0 s)
    (ts : List α) (es : List (EventSpec α n)) (hes : es ≠ []) (o : RunOut α n k) (s' : St α n k X)
    (h : (S.runEvents bo argsort ts (some es)).run s = some (.ok o, s')) :
    ∃ tl out l c, tl.Perm ts ∧ tl.Pairwise (· ≤ ·) ∧ out.Perm o.out ∧ Path S S.tBound s l c ∧ s'.t = c.t ∧ s'.y = c.y ∧
      Ends S tl es out o.tEvents s l c ∧ (NoTerminal es (s :: l) → S.tBound = .inf → o.out.map Prod.fst = ts) := by
  obtain ⟨out, l, c, h1, h2, h3, h4, h5, -⟩ := runEvents_ends S hM bo htol argsort hA s0 s hc ho hh hs ts es hes o s' h
  have hp := sortedTimes_perm hA ts
  have full : NoTerminal es (s :: l) → S.tBound = .inf → out.map Prod.fst = sortedTimes argsort ts := by
    intro hn hb
    rcases h4 with ⟨-, -, ⟨h4, -⟩ | ⟨h4, -⟩⟩ | ⟨l0, p, i, e, τ, y, pre, g1, -, g2, g3, g4, -⟩
    · exact h4
    · rw [hb] at h4; exact absurd trivial h4
    · refine absurd ?_ (hn p c ⟨l0, [], by rw [g1]⟩)
      exact ⟨e, List.mem_of_getElem? g2, g3, g4⟩
  by_cases hso : isSorted ts = true
  · rw [if_pos hso] at h5
    have hst : sortedTimes argsort ts = ts := by unfold sortedTimes; rw [if_pos hso]
    exact ⟨_, out, l, c, hp, sortedTimes_sorted hA ts, by rw [h5], h1, h2, h3, h4,
      fun hn hb => by rw [h5, full hn hb, hst]⟩
  · rw [if_neg hso] at h5
    have hl : out.length = ts.length := by
      have h6 := ends_length h4
      rw [hp.length_eq] at h6
      rcases Nat.lt_or_eq_of_le h6 with h6 | h6
      · rw [reorder_short (hA ts).perm h6] at h5; cases h5
      · exact h6
    obtain ⟨out', r1, r2, r3, r4⟩ := reorder (hA ts).perm hl
    rw [h5] at r1
    cases r1
    refine ⟨_, out, l, c, hp, sortedTimes_sorted hA ts, r3.symm, h1, h2, h3, h4, fun hn hb => ?_⟩
    refine reorder_map (hA ts).perm ?_ r2 r4
    rw [full hn hb]
    unfold sortedTimes
    rw [if_neg hso]


-- C44: the run of `Demo.watched` meets the hypotheses.
open Demo in
example (argsort : List ℚ → List Nat) (hA : ∀ l, IsArgsort l (argsort l)) : ∃ o s', ∃ h : ((euler .inf).runEvents .std
    argsort [1/2, 1] (some [atTime (1/4) false, atTime (3/4) true])).run s0 = some (.ok o, s'), o.tEvents = [[1/4], [3/4]] ∧
    type_of% (C44_ends_partial (euler .inf) (euler_well .inf) .std std_tol argsort hA s0 s0 (constructed_s0 .inf) ordered_s0 pos_s0 session0
      [1/2, 1] (by norm_num) _ (by simp) o s' h) := by
  obtain ⟨o, s', h, h1, -⟩ := watched argsort
  exact ⟨o, s', h, h1, C44_ends_partial _ (euler_well .inf) .std std_tol argsort hA _ _ (constructed_s0 .inf) ordered_s0 pos_s0 session0 _ (by norm_num) _ (by simp) _ _ h⟩

-- C44: the run of `Demo.watched` meets the hypotheses.
open Demo in
example (argsort : List ℚ → List Nat) (hA : ∀ l, IsArgsort l (argsort l)) : ∃ o s', ∃ h : ((euler .inf).runEvents .std
    argsort [1/2, 1] (some [atTime (1/4) false, atTime (3/4) true])).run s0 = some (.ok o, s'), o.tEvents = [[1/4], [3/4]] ∧
    type_of% (C44_any_order_partial (euler .inf) (euler_well .inf) .std std_tol argsort hA s0 s0 (constructed_s0 .inf) ordered_s0 pos_s0 session0
      [1/2, 1] _ (by simp) o s' h) := by
  obtain ⟨o, s', h, h1, -⟩ := watched argsort
  exact ⟨o, s', h, h1, C44_any_order_partial _ (euler_well .inf) .std std_tol argsort hA _ _ (constructed_s0 .inf) ordered_s0 pos_s0 session0 _ _ (by simp) _ _ h⟩

/-! ## C45 -/

theorem ends_terminal {S : Solver α n k X} {tl : List α} {es : List (EventSpec α n)} {out : List (α × Vec α n)}
    {te : List (List α)} {s c : St α n k X} {l : List (St α n k X)} (h : Ends S tl es out te s l c)
    (hn : ¬ NoTerminal es (s :: l)) :
    ∃ (l0 : List (St α n k X)) (p : St α n k X) (i : Nat) (e : EventSpec α n) (τ : α) (y : Vec α n)
    (pre : List (α × Vec α n)), s :: l = l0 ++ [p, c] ∧ NoTerminal es (l0 ++ [p]) ∧ es[i]? = some e ∧ e.terminal = some true ∧
    CrossesOn e p c ∧ te[i]? = some [τ] ∧ p.t ≤ τ ∧ τ ≤ c.t ∧ DenseAt S c τ y ∧ out = pre ++ [(τ, y)] ∧
    pre.map Prod.fst = tl.filter (fun x => decide (x ≤ p.t)) ∧ Interpolated S s pre ∧ (∃ x ∈ tl, p.t < x) ∧
    ∀ j e', i < j → es[j]? = some e' → e'.terminal = some true → ¬ CrossesOn e' p c := by
  rcases h with ⟨h, -⟩ | h
  · exact absurd h hn
  · exact h

/-- **C45**, what holds: if at most one of the events is marked terminal, a run with a record for it ends there. Missing: several
terminal events, see `C45_last_listed_partial` and `C45_refuted`. -/
theorem C45_single_partial (S : Solver α n k X) (hM : WellConfigured S.method) (bo : BisectOpts α) (htol : 0 ≤ bo.tol)
    (argsort : List α → List Nat) (hA : ∀ l, IsArgsort l (argsort l)) (s0 s : St α n k X)
    (hc : Constructed S s0) (ho : Ordered s0) (hh : 0 < s0.h) (hs : CleanSession S bo argsort s0 s)
    (ts : List α) (hts : ts.Pairwise (· ≤ ·)) (es : List (EventSpec α n)) (o : RunOut α n k) (s' : St α n k X)
    (h : (S.runEvents bo argsort ts (some es)).run s = some (.ok o, s'))
    (hone : ∀ (i j : Nat) e e', es[i]? = some e → es[j]? = some e' → e.terminal = some true → e'.terminal = some true → i = j)
    (j : Nat) (e' : EventSpec α n) (he : es[j]? = some e') (ht : e'.terminal = some true) (tl : List α)
    (htl : o.tEvents[j]? = some tl) (τ' : α) (hτ : τ' ∈ tl) :
    ∃ pre y, o.out = pre ++ [(τ', y)] := by
  have hes : es ≠ [] := by rintro rfl; simp at he
  obtain ⟨out, l, c, h1, h2, h3, h4, h5, -, k1, k2, k3⟩ :=
    runEvents_ends S hM bo htol argsort hA s0 s hc ho hh hs ts es hes o s' h
  rw [if_pos ((isSorted_iff ts).mpr hts)] at h5
  have hj : j < o.yEvents.length := by rw [k2]; exact (List.getElem?_eq_some_iff.mp he).1
  have hL := k3 j e' tl _ he htl (List.getElem?_eq_getElem hj)
  obtain ⟨m, hm, rfl⟩ := List.getElem_of_mem hτ
  have hm' : m < (o.yEvents[j]).length := by rw [← hL.length_eq]; exact hm
  obtain ⟨a, b, hab, hd⟩ := hL.sound (tl[m], (o.yEvents[j])[m]) (by
    rw [← List.getElem_zip (l := tl) (l' := o.yEvents[j]) (h := by simp; omega)]
    exact List.getElem_mem _)
  obtain ⟨l0, p, i, e, τ, y, pre, -, -, g1, g2, -, g4, -, -, -, g5, -⟩ :=
    ends_terminal h4 fun hn => hn a b hab ⟨e', List.mem_of_getElem? he, ht, hd.crosses⟩
  have := hone i j e e' g1 he g2 ht
  subst this
  rw [htl] at g4
  cases g4
  refine ⟨pre, y, ?_⟩
  rw [h5, g5]
  have : m = 0 := by simp at hm; omega
  subst this
  rfl

/-- **C45**, what the code does: the run ends at the record of the terminal event listed last among those that trigger on its last
step, whatever their times. -/
theorem C45_last_listed_partial (S : Solver α n k X) (hM : WellConfigured S.method) (bo : BisectOpts α) (htol : 0 ≤ bo.tol)
    (argsort : List α → List Nat) (hA : ∀ l, IsArgsort l (argsort l)) (s0 s : St α n k X)
    (hc : Constructed S s0) (ho : Ordered s0) (hh : 0 < s0.h) (hs : CleanSession S bo argsort s0 s)
    (ts : List α) (hts : ts.Pairwise (· ≤ ·)) (es : List (EventSpec α n)) (hes : es ≠ []) (o : RunOut α n k) (s' : St α n k X)
    (h : (S.runEvents bo argsort ts (some es)).run s = some (.ok o, s')) :
    ∃ l c, Path S S.tBound s l c ∧ s'.t = c.t ∧ s'.y = c.y ∧ (NoTerminal es (s :: l) ∨
      ∃ (p : St α n k X) (i : Nat) (e : EventSpec α n) (τ : α) (y : Vec α n) (pre : List (α × Vec α n)),
        Consecutive (s :: l) p c ∧ es[i]? = some e ∧ e.terminal = some true ∧ CrossesOn e p c ∧
        o.tEvents[i]? = some [τ] ∧ o.out = pre ++ [(τ, y)] ∧
        ∀ j e', i < j → es[j]? = some e' → e'.terminal = some true → ¬ CrossesOn e' p c) := by
  obtain ⟨l, c, h1, h2, h3, h4⟩ := C44_ends_partial S hM bo htol argsort hA s0 s hc ho hh hs ts hts es hes o s' h
  refine ⟨l, c, h1, h2, h3, ?_⟩
  by_cases hn : NoTerminal es (s :: l)
  · exact Or.inl hn
  · obtain ⟨l0, p, i, e, τ, y, pre, g0, -, g1, g2, g3, g4, -, -, -, g5, -, -, -, g6⟩ := ends_terminal h4 hn
    exact Or.inr ⟨p, i, e, τ, y, pre, ⟨l0, [], by rw [g0]⟩, g1, g2, g3, g4, g5, g6⟩


-- C45: the run of `Demo.watched` meets the hypotheses.
open Demo in
example (argsort : List ℚ → List Nat) (hA : ∀ l, IsArgsort l (argsort l)) : ∃ o s', ∃ h : ((euler .inf).runEvents .std
    argsort [1/2, 1] (some [atTime (1/4) false, atTime (3/4) true])).run s0 = some (.ok o, s'), o.tEvents = [[1/4], [3/4]] ∧
    type_of% (C45_last_listed_partial (euler .inf) (euler_well .inf) .std std_tol argsort hA s0 s0 (constructed_s0 .inf) ordered_s0 pos_s0 session0
      [1/2, 1] (by norm_num) _ (by simp) o s' h) := by
  obtain ⟨o, s', h, h1, -⟩ := watched argsort
  exact ⟨o, s', h, h1, C45_last_listed_partial _ (euler_well .inf) .std std_tol argsort hA _ _ (constructed_s0 .inf) ordered_s0 pos_s0 session0 _ (by norm_num) _ (by simp) _ _ h⟩

/-! ## C47 -/

/-- **C47**, what holds: when a terminal event ends the run, every requested time not after the start of the last step, in whatever
order it was requested, is returned with the dense output there. Missing: times between the start of that step and the event, see
`C47_refuted`. -/
theorem C47_before_last_step_partial (S : Solver α n k X) (hM : WellConfigured S.method) (bo : BisectOpts α) (htol : 0 ≤ bo.tol)
    (argsort : List α → List Nat) (hA : ∀ l, IsArgsort l (argsort l)) (s0 s : St α n k X)
    (hc : Constructed S s0) (ho : Ordered s0) (hh : 0 < s0.h) (hs : CleanSession S bo argsort s0 s)
    (ts : List α) (es : List (EventSpec α n)) (hes : es ≠ []) (o : RunOut α n k) (s' : St α n k X)
    (h : (S.runEvents bo argsort ts (some es)).run s = some (.ok o, s')) :
    ∃ l c, Path S S.tBound s l c ∧ s'.t = c.t ∧ s'.y = c.y ∧ (NoTerminal es (s :: l) ∨
      ∃ p τ, Consecutive (s :: l) p c ∧ p.t ≤ τ ∧ τ ≤ c.t ∧ (∃ y, DenseAt S c τ y ∧ (τ, y) ∈ o.out) ∧
        ∀ x ∈ ts, x ≤ p.t → ∃ y s1, (x, y) ∈ o.out ∧ Reach S S.tBound x s s1 ∧ DenseAt S s1 x y) := by
  obtain ⟨tl, out, l, c, p1, p2, p3, h1, h2, h3, h4, -⟩ :=
    C44_any_order_partial S hM bo htol argsort hA s0 s hc ho hh hs ts es hes o s' h
  refine ⟨l, c, h1, h2, h3, ?_⟩
  by_cases hn : NoTerminal es (s :: l)
  · exact Or.inl hn
  · obtain ⟨l0, p, i, e, τ, y, pre, g0, -, g1, g2, g3, g4, g5, g6, g7, g8, g9, g10, -, -⟩ := ends_terminal h4 hn
    refine Or.inr ⟨p, τ, ⟨l0, [], by rw [g0]⟩, g5, g6, ⟨y, g7, p3.mem_iff.mp (by rw [g8]; simp)⟩, ?_⟩
    intro x hx hxp
    have : x ∈ pre.map Prod.fst := by
      rw [g9, List.mem_filter]
      exact ⟨p1.mem_iff.mpr hx, by simpa using hxp⟩
    obtain ⟨⟨x', y'⟩, hq, rfl⟩ := List.mem_map.mp this
    obtain ⟨s1, r1, r2⟩ := g10 _ hq
    exact ⟨y', s1, p3.mem_iff.mp (by rw [g8]; exact List.mem_append_left _ hq), r1, r2⟩


-- C47: the run of `Demo.watched` meets the hypotheses.
open Demo in
example (argsort : List ℚ → List Nat) (hA : ∀ l, IsArgsort l (argsort l)) : ∃ o s', ∃ h : ((euler .inf).runEvents .std
    argsort [1/2, 1] (some [atTime (1/4) false, atTime (3/4) true])).run s0 = some (.ok o, s'), o.tEvents = [[1/4], [3/4]] ∧
    type_of% (C47_before_last_step_partial (euler .inf) (euler_well .inf) .std std_tol argsort hA s0 s0 (constructed_s0 .inf) ordered_s0 pos_s0 session0
      [1/2, 1] _ (by simp) o s' h) := by
  obtain ⟨o, s', h, h1, -⟩ := watched argsort
  exact ⟨o, s', h, h1, C47_before_last_step_partial _ (euler_well .inf) .std std_tol argsort hA _ _ (constructed_s0 .inf) ordered_s0 pos_s0 session0 _ _ (by simp) _ _ h⟩

/-! ## C49 -/

/-- **C49**, what holds: the state recorded with an event time is a copy, which shows the dense output at that time whatever the
solver does later, unless the event is located exactly at a time recorded in the solver's history; then it shows that state until
the history moves on, so in particular right after the call if the event was on its last step. Missing: see `C49_refuted`. -/
theorem C49_copy_partial (S : Solver α n k X) (hM : WellConfigured S.method) (bo : BisectOpts α) (htol : 0 ≤ bo.tol)
    (argsort : List α → List Nat) (hA : ∀ l, IsArgsort l (argsort l)) (s0 s : St α n k X)
    (hc : Constructed S s0) (ho : Ordered s0) (hh : 0 < s0.h) (hs : CleanSession S bo argsort s0 s)
    (ts : List α) (es : List (EventSpec α n)) (hes : es ≠ []) (o : RunOut α n k) (s' : St α n k X)
    (h : (S.runEvents bo argsort ts (some es)).run s = some (.ok o, s')) :
    ∃ l c, Path S S.tBound s l c ∧ s'.cache = c.cache ∧
      ∀ (i : Nat) tl yl, o.tEvents[i]? = some tl → o.yEvents[i]? = some yl → tl.length = yl.length ∧
        ∀ p ∈ tl.zip yl, ∃ a b, Consecutive (s :: l) a b ∧ a.t ≤ p.1 ∧ p.1 ≤ b.t ∧
          ((∀ i, b.cache.ts i ≠ p.1) → ∃ y, DenseAt S b p.1 y ∧ ∀ later, p.2.deref later = y) ∧
          DenseAt S b p.1 (p.2.deref b.cache) ∧ (b = c → DenseAt S b p.1 (p.2.deref s'.cache)) := by
  obtain ⟨out, l, c, h1, -, -, -, -, k0, k1, k2, k3⟩ :=
    runEvents_ends S hM bo htol argsort hA s0 s hc ho hh hs ts es hes o s' h
  refine ⟨l, c, h1, k0, ?_⟩
  intro i tl yl g1 g2
  have hi : i < es.length := by rw [← k1]; exact (List.getElem?_eq_some_iff.mp g1).1
  have hL := k3 i _ tl yl (List.getElem?_eq_getElem hi) g1 g2
  refine ⟨hL.length_eq, ?_⟩
  rintro ⟨τ, r⟩ hp
  obtain ⟨a, b, hab, hd⟩ := hL.sound _ hp
  refine ⟨a, b, hab, hd.after, hd.before, ?_, hd.state, fun hbc => by rw [k0, ← hbc]; exact hd.state⟩
  intro hne
  cases r with
  | row j => exact absurd (hd.view j rfl) (hne j)
  | own y => exact ⟨y, hd.state, fun _ => rfl⟩

-- C49: the run of `Demo.watched` meets the hypotheses.
open Demo in
example (argsort : List ℚ → List Nat) (hA : ∀ l, IsArgsort l (argsort l)) : ∃ o s', ∃ h : ((euler .inf).runEvents .std
    argsort [1/2, 1] (some [atTime (1/4) false, atTime (3/4) true])).run s0 = some (.ok o, s'), o.tEvents = [[1/4], [3/4]] ∧
    type_of% (C49_copy_partial (euler .inf) (euler_well .inf) .std std_tol argsort hA s0 s0 (constructed_s0 .inf) ordered_s0 pos_s0 session0
      [1/2, 1] _ (by simp) o s' h) := by
  obtain ⟨o, s', h, h1, -⟩ := watched argsort
  exact ⟨o, s', h, h1, C49_copy_partial _ (euler_well .inf) .std std_tol argsort hA _ _ (constructed_s0 .inf) ordered_s0 pos_s0 session0 _ _ (by simp) _ _ h⟩

end field

open Demo

/-- **C44 refuted** for times out of order: asked for `[1, 1/2]`, with a terminal event at `3/4`, the event's pair comes out first,
in the place of the state at `1`. -/
theorem C44_refuted (argsort : List ℚ → List Nat) (hA : ∀ l, IsArgsort l (argsort l)) :
    ∃ o s', ((euler .inf).runEvents BisectOpts.std argsort [1, 1/2] (some [atTime (3/4) true])).run s0 = some (.ok o, s') ∧
      o.out.map Prod.fst = [3/4, 1/2] ∧ o.tEvents = [[3/4]] := by
  have key : okAnd (runEvFuel (euler .inf) BisectOpts.std .inf 10 [1/2, 1] (buildHandler [atTime (3/4) true] s0.t s0.y) s0)
      (fun p _ => decide (p.2.map Prod.fst = [1/2, 3/4]) && decide (p.1.events.map (fun e => e.t) = [[3/4]])) = true := by
    decide +kernel
  obtain ⟨p, s', h1, h2⟩ := of_okAnd key
  simp only [Bool.and_eq_true, decide_eq_true_iff] at h2
  have h3 := euler_events_unsorted (List.Perm.swap (1 : ℚ) (1/2) []) (by norm_num) (by decide +kernel) (by norm_num)
    (by simp) argsort hA h1
  have hl : p.2.length = ([1, 1/2] : List ℚ).length := by rw [← List.length_map (f := Prod.fst), h2.1]; rfl
  obtain ⟨out', r1, r2, r3, r4⟩ := reorder (hA [1, 1/2]).perm hl
  have e : argsort [1, 1/2] = [1, 0] := by
    have h4 := (hA [1, 1/2]).perm
    have h5 := (hA [1, 1/2]).sorted
    rcases List.perm_pair.mp h4 with e | e
    · rw [e] at h5; exact absurd h5 (by decide +kernel)
    · exact e
  rw [e] at h3 r1
  rw [r1] at h3
  refine ⟨_, s', h3, ?_, h2.2⟩
  obtain ⟨tl, out⟩ := p
  match out, h2, r1 with
  | [a, b], h2, r1 =>
    cases (show fancyIndex [a, b] (invPerm [1, 0]) = .ok [b, a] from rfl).symm.trans r1
    simp at h2
    simp [h2.1]

/-- **C44 refuted** for times out of order: asked for `[1, 1/8]`, with a terminal event at `1/4`, `run_events` raises. -/
theorem C44_refuted_indexError (argsort : List ℚ → List Nat) (hA : ∀ l, IsArgsort l (argsort l)) :
    ∃ s', ((euler .inf).runEvents BisectOpts.std argsort [1, 1/8] (some [atTime (1/4) true])).run s0 =
      some (.error .indexError, s') := by
  have key : okAnd (runEvFuel (euler .inf) BisectOpts.std .inf 10 [1/8, 1] (buildHandler [atTime (1/4) true] s0.t s0.y) s0)
      (fun p _ => decide (p.2.length = 1)) = true := by
    decide +kernel
  obtain ⟨p, s', h1, h2⟩ := of_okAnd key
  simp only [decide_eq_true_iff] at h2
  have h3 := euler_events_unsorted (List.Perm.swap (1 : ℚ) (1/8) []) (by norm_num) (by decide +kernel) (by norm_num)
    (by simp) argsort hA h1
  rw [reorder_short (hA [1, 1/8]).perm (by rw [h2]; simp)] at h3
  exact ⟨s', h3⟩

/-- **C45 refuted**: with terminal events at `1/8` and at `1/4` within the first step the run ends at `1/4`, although the event at
`1/8` is recorded. -/
theorem C45_refuted (argsort : List ℚ → List Nat) :
    ∃ o s', ((euler .inf).runEvents BisectOpts.std argsort [1] (some [atTime (1/8) true, atTime (1/4) true])).run s0 =
      some (.ok o, s') ∧ o.out.map Prod.fst = [1/4] ∧ o.tEvents = [[1/8], [1/4]] := by
  have key : okAnd (runEvFuel (euler .inf) BisectOpts.std .inf 10 [1]
      (buildHandler [atTime (1/8) true, atTime (1/4) true] s0.t s0.y) s0)
      (fun p _ => decide (p.2.map Prod.fst = [1/4]) && decide (p.1.events.map (fun e => e.t) = [[1/8], [1/4]])) = true := by
    decide +kernel
  obtain ⟨p, s', h1, h2⟩ := of_okAnd key
  simp only [Bool.and_eq_true, decide_eq_true_iff] at h2
  exact ⟨_, s', euler_events (by norm_num) (by simp) (by norm_num) (by simp) argsort h1, h2.1, h2.2⟩

/-- **C47 refuted**: asked for `1/8` and `1`, with a terminal event at `1/4`, the only time returned is `1/4`. -/
theorem C47_refuted (argsort : List ℚ → List Nat) :
    ∃ o s', ((euler .inf).runEvents BisectOpts.std argsort [1/8, 1] (some [atTime (1/4) true])).run s0 = some (.ok o, s') ∧
      o.out.map Prod.fst = [1/4] := by
  have key : okAnd (runEvFuel (euler .inf) BisectOpts.std .inf 10 [1/8, 1] (buildHandler [atTime (1/4) true] s0.t s0.y) s0)
      (fun p _ => decide (p.2.map Prod.fst = [1/4])) = true := by
    decide +kernel
  obtain ⟨p, s', h1, h2⟩ := of_okAnd key
  simp only [decide_eq_true_iff] at h2
  exact ⟨_, s', euler_events (by norm_num) (by simp) (by norm_num) (by simp) argsort h1, h2⟩

/-- **C49 refuted**: an event at the initial time `0`, where the solution is `1`. Read after the run to `2`, `y_events` shows
`27/8`, the solution at `3/2`. -/
theorem C49_refuted (argsort : List ℚ → List Nat) :
    ∃ o s', ((euler .inf).runEvents BisectOpts.std argsort [2] (some [atTime 0 false])).run s0 = some (.ok o, s') ∧
      o.tEvents = [[0]] ∧ s0.y 0 = 1 ∧ o.yEvents.map (fun l => l.map fun r => r.deref s'.cache 0) = [[27/8]] := by
  have key : okAnd (runEvFuel (euler .inf) BisectOpts.std .inf 10 [2] (buildHandler [atTime 0 false] s0.t s0.y) s0)
      (fun p s' => decide (p.1.events.map (fun e => e.t) = [[0]]) &&
        decide ((p.1.events.map fun e => e.y).map (fun l => l.map fun r => r.deref s'.cache 0) = [[27/8]])) = true := by
    decide +kernel
  obtain ⟨p, s', h1, h2⟩ := of_okAnd key
  simp only [Bool.and_eq_true, decide_eq_true_iff] at h2
  exact ⟨_, s', euler_events (by norm_num) (by simp) (by norm_num) (by simp) argsort h1, h2.1, rfl, h2.2⟩

end Nbkode
