import Verif.Proofs.Forward
import Verif.Props.Grid

/-!
# `run`: C10, C16, C17, C18, C19, C21

`argsort` is any function giving a sorting permutation (`IsArgsort`); ties are broken arbitrarily.
-/

set_option autoImplicit false
set_option linter.unusedSectionVars false

namespace Nbkode
open Py Spec Solver

section order
variable {α : Type} [LinearOrder α]
variable [Add α] [Sub α] [Mul α] [Div α] [Neg α] [Zero α] [One α] [NatCast α] [BEq α]
variable {n k : Nat} {X : Type}

/-- **C10** (run). If any requested time is before the recorded history or beyond `t_bound`, `run` raises
`ValueError` and changes nothing. -/
theorem C10_run_out_of_range (S : Solver α n k X) (bo : BisectOpts α) (argsort : List α → List Nat)
    (hA : ∀ l, IsArgsort l (argsort l)) (ts : List α) (s : St α n k X)
    (h : ∃ x ∈ ts, x < s.cache.ts (Buffer.iOld k) ∨ Beyond (.fin x) S.tBound) :
    (S.run bo argsort ts).run s = some (.error .valueError, s) := by
  refine run_out_of_range bo hA ?_
  obtain ⟨x, hx, h⟩ := h
  refine ⟨x, hx, h.imp id fun h => ?_⟩
  rw [exceededBy_eq, gt_iff]; exact h

/-- **C10** (step, skip) for a solver whose clock is not past its own bound (C07): any target beyond `t_bound` raises
`ValueError` and changes nothing, for every `n`. -/
theorem C10_step_beyond (S : Solver α n k X) (m : Option Int) (u : Bound α) (s : St α n k X)
    (hp : ¬ Past S.tBound s) (hb : Beyond u S.tBound) :
    (S.step m (some u)).run s = some (.error .valueError, s) ∧
    (S.skip m (some u)).run s = some (.error .valueError, s) := by
  refine C10_step_beyond_bound S m u s ?_ hb
  rcases u with u | _
  · rcases hS : S.tBound with b | _
    · rw [hS] at hp hb
      exact fun h => hp (lt_trans (show b < u from hb) h)
    · rw [hS] at hb; exact hb.elim
  · exact fun h => h

/-- **C16.** When `run` returns, the times returned are the requested ones in the caller's order, up to where it was cut
short. -/
theorem C16_run_times (S : Solver α n k X) (hM : IsLibrary S.method) (bo : BisectOpts α)
    (argsort : List α → List Nat) (hA : ∀ l, IsArgsort l (argsort l)) (ts : List α)
    (s s' : St α n k X) (out : List (α × Vec α n))
    (h : (S.run bo argsort ts).run s = some (.ok out, s')) :
    out.map Prod.fst = ts.take out.length := by
  obtain ⟨-, -, out1, h1, ⟨hs, rfl⟩ | ⟨hs, -, h2, -, h3, -⟩⟩ := run_ok hM.shaped bo hA h
  · have := (runEval_prefix h1).1
    unfold sortedTimes at this
    rwa [if_pos hs] at this
  · rw [h3, h2, List.take_length]

/-- **C16.** A run that is not cut short returns exactly the requested times, one state for each. -/
theorem C16_run_complete (S : Solver α n k X) (hM : IsLibrary S.method) (bo : BisectOpts α)
    (argsort : List α → List Nat) (hA : ∀ l, IsArgsort l (argsort l)) (ts : List α)
    (s s' : St α n k X) (out : List (α × Vec α n))
    (h : (S.run bo argsort ts).run s = some (.ok out, s')) (hc : ¬ out.length < ts.length) :
    out.map Prod.fst = ts := by
  rw [C16_run_times S hM bo argsort hA ts s s' out h, List.take_of_length_le (by omega)]

/-- **C16.** With times out of order a run that returns is never cut short. -/
theorem C16_unsorted_complete (S : Solver α n k X) (hM : IsLibrary S.method) (bo : BisectOpts α)
    (argsort : List α → List Nat) (hA : ∀ l, IsArgsort l (argsort l)) (ts : List α)
    (hu : ¬ ts.Pairwise (· ≤ ·)) (s s' : St α n k X) (out : List (α × Vec α n))
    (h : (S.run bo argsort ts).run s = some (.ok out, s')) : out.map Prod.fst = ts := by
  obtain ⟨-, -, out1, h1, ⟨hs, rfl⟩ | ⟨hs, -, h2, -, h3, -⟩⟩ := run_ok hM.shaped bo hA h
  · exact absurd ((isSorted_iff ts).mp hs) hu
  · exact h3

theorem sortedTimes_congr {argsort : List α → List Nat} (hA : ∀ l, IsArgsort l (argsort l)) {ts ts' : List α}
    (hp : ts.Perm ts') : sortedTimes argsort ts = sortedTimes argsort ts' :=
  sorted_unique (((sortedTimes_perm hA ts).trans hp).trans (sortedTimes_perm hA ts').symm)
    (sortedTimes_sorted hA ts) (sortedTimes_sorted hA ts')

/-- **C17**, the solver: whatever the order of the times, `run` leaves the solver in the same state (also when it raises
or does not terminate). -/
theorem C17_same_solver (S : Solver α n k X) (hM : IsLibrary S.method) (bo : BisectOpts α)
    (argsort : List α → List Nat) (hA : ∀ l, IsArgsort l (argsort l)) (ts ts' : List α)
    (hp : ts.Perm ts') (s : St α n k X) :
    ((S.run bo argsort ts).run s).map Prod.snd = ((S.run bo argsort ts').run s).map Prod.snd := by
  by_cases hne : ts = []
  · subst hne
    rw [hp.nil_eq]
  · have hne' : ts' ≠ [] := fun h => hne (by subst h; exact hp.eq_nil)
    rcases inRange_or (S := S) s ts with hr | hr
    · have hr' : InRange S s ts' := fun x hx => hr x (hp.mem_iff.mpr hx)
      rw [run_eq hM.shaped bo hA hne hr, run_eq hM.shaped bo hA hne' hr', sortedTimes_congr hA hp]
      rcases (S.runEval S.tBound (sortedTimes argsort ts')).run s with _ | ⟨_ | o, s1⟩
      · rfl
      · rfl
      · simp only [andThen_ok]
        split <;> split <;> rfl
    · have hr' : ∃ x ∈ ts', x < s.cache.ts (Buffer.iOld k) ∨ S.tBound.exceededBy x = true := by
        obtain ⟨x, hx, h⟩ := hr
        exact ⟨x, hp.mem_iff.mp hx, h⟩
      rw [run_out_of_range bo hA hr, run_out_of_range bo hA hr']

/-- **C17**, the answers, for runs that are not cut short by `t_bound`: on a permutation of the times `run` gives the same
pairs (time, state), in the order asked. What is missing: see `C17_refuted`. -/
theorem C17_same_answers_partial (S : Solver α n k X) (hM : IsLibrary S.method) (bo : BisectOpts α)
    (argsort : List α → List Nat) (hA : ∀ l, IsArgsort l (argsort l)) (ts ts' : List α)
    (hp : ts.Perm ts') (s s' : St α n k X) (out : List (α × Vec α n))
    (h : (S.run bo argsort ts).run s = some (.ok out, s')) (hc : ¬ out.length < ts.length) :
    ∃ out', (S.run bo argsort ts').run s = some (.ok out', s') ∧ out'.Perm out ∧
      out'.map Prod.fst = ts' := by
  obtain ⟨hne, hr, out1, h1, hcase⟩ := run_ok hM.shaped bo hA h
  have hne' : ts' ≠ [] := fun h => hne (by subst h; exact hp.eq_nil)
  have hr' : InRange S s ts' := fun x hx => hr x (hp.mem_iff.mpr hx)
  have hlen := (sortedTimes_perm hA ts).length_eq
  obtain ⟨p1, p2⟩ := runEval_prefix h1
  have hfull : out1.length = ts.length ∧ out1.Perm out := by
    rcases hcase with ⟨_, rfl⟩ | ⟨_, h2, _, h3, _⟩
    · exact ⟨by omega, List.Perm.refl _⟩
    · exact ⟨h2, h3.symm⟩
  have hrun := run_eq hM.shaped bo hA hne' hr'
  rw [← sortedTimes_congr hA hp, h1] at hrun
  simp only [andThen_ok] at hrun
  by_cases hs : isSorted ts' = true
  · rw [if_pos hs] at hrun
    refine ⟨out1, hrun, hfull.2, ?_⟩
    have e : sortedTimes argsort ts' = ts' := by unfold sortedTimes; rw [if_pos hs]
    rw [p1, sortedTimes_congr hA hp, e, hfull.1, hp.length_eq, List.take_length]
  · rw [if_neg hs] at hrun
    obtain ⟨out', e1, e2, e3, e4⟩ := reorder (hA ts').perm (hfull.1.trans hp.length_eq)
    rw [e1] at hrun
    refine ⟨out', hrun, e3.trans hfull.2, reorder_map (hA ts').perm ?_ e2 e4⟩
    rw [p1, hfull.1, ← hlen, List.take_length, sortedTimes_congr hA hp]
    unfold sortedTimes
    rw [if_neg hs]

/-- **C17 / C21 refuted**: if the run on the sorted times is cut short by `t_bound`, then on every unsorted permutation of
them `run` raises `IndexError` although it has advanced the solver as far. -/
theorem C21_cut_short_indexError (S : Solver α n k X) (hM : IsLibrary S.method) (bo : BisectOpts α)
    (argsort : List α → List Nat) (hA : ∀ l, IsArgsort l (argsort l)) (ts ts' : List α)
    (hp : ts.Perm ts') (hs : ts.Pairwise (· ≤ ·)) (hu : ¬ ts'.Pairwise (· ≤ ·))
    (s s' : St α n k X) (out : List (α × Vec α n))
    (h : (S.run bo argsort ts).run s = some (.ok out, s')) (hc : out.length < ts.length) :
    (S.run bo argsort ts').run s = some (.error .indexError, s') := by
  obtain ⟨hne, hr, out1, h1, ⟨-, rfl⟩ | ⟨h2, -⟩⟩ := run_ok hM.shaped bo hA h
  · have hne' : ts' ≠ [] := fun h => hne (by subst h; exact hp.eq_nil)
    have hr' : InRange S s ts' := fun x hx => hr x (hp.mem_iff.mpr hx)
    have hu' : ¬ isSorted ts' = true := fun h => hu ((isSorted_iff _).mp h)
    rw [run_eq hM.shaped bo hA hne' hr', ← sortedTimes_congr hA hp, h1]
    simp only [andThen_ok]
    rw [if_neg hu', reorder_short (hA ts').perm (by rw [← hp.length_eq]; exact hc)]
  · rw [(isSorted_iff ts).mpr hs] at h2; simp at h2

/-- **C21 refuted**: an empty list of times raises `IndexError`. -/
theorem C21_empty_indexError (S : Solver α n k X) (bo : BisectOpts α) (argsort : List α → List Nat)
    (s : St α n k X) : (S.run bo argsort []).run s = some (.error .indexError, s) :=
  run_nil S bo argsort s

/-! ## C19 -/

/-- **C19**, what holds: a requested time is left without a state only if it lies strictly inside the next step, and that
step does not fit below `t_bound`. Missing: such times do occur, see `C19_refuted`. -/
theorem C19_unanswered_partial (S : Solver α n k X) (hM : IsLibrary S.method) (bo : BisectOpts α)
    (argsort : List α → List Nat) (hA : ∀ l, IsArgsort l (argsort l)) (ts : List α)
    (s s' : St α n k X) (out : List (α × Vec α n))
    (h : (S.run bo argsort ts).run s = some (.ok out, s')) :
    ∀ x ∈ ts.drop out.length, s'.t < x ∧ ¬ Fits S.tBound s' := by
  intro x hx
  obtain ⟨-, -, out1, h1, ⟨hs, rfl⟩ | ⟨hs, -, h2, -, h3, -⟩⟩ := run_ok hM.shaped bo hA h
  · have e : sortedTimes argsort ts = ts := by unfold sortedTimes; rw [if_pos hs]
    rw [e] at h1
    have hsort := (isSorted_iff ts).mp hs
    by_cases hc : out.length < ts.length
    · obtain ⟨h4, h5⟩ := runEval_cut h1 hc
      refine ⟨?_, h5⟩
      rw [List.drop_eq_getElem_cons hc] at hx
      rcases List.mem_cons.mp hx with rfl | hx
      · exact h4
      · have : ((ts[out.length]) :: ts.drop (out.length + 1)).Pairwise (· ≤ ·) := by
          rw [← List.drop_eq_getElem_cons hc]; exact hsort.sublist (List.drop_sublist _ _)
        exact lt_of_lt_of_le h4 ((List.pairwise_cons.mp this).1 x hx)
    · rw [List.drop_eq_nil_of_le (by omega)] at hx; simp at hx
  · rw [h2, List.drop_length] at hx; simp at hx

/-- **C19**, without a bound every requested time gets a state. -/
theorem C19_unbounded_partial (S : Solver α n k X) (hM : IsLibrary S.method) (hb : S.tBound = .inf)
    (bo : BisectOpts α) (argsort : List α → List Nat) (hA : ∀ l, IsArgsort l (argsort l)) (ts : List α)
    (s s' : St α n k X) (out : List (α × Vec α n))
    (h : (S.run bo argsort ts).run s = some (.ok out, s')) : out.map Prod.fst = ts := by
  have h1 := C16_run_times S hM bo argsort hA ts s s' out h
  have h2 := C19_unanswered_partial S hM bo argsort hA ts s s' out h
  rw [h1]
  have : ts.drop out.length = [] := by
    rw [List.eq_nil_iff_forall_not_mem]
    intro x hx
    apply (h2 x hx).2
    unfold Fits
    rw [hb]; trivial
  rw [List.take_of_length_le (List.drop_eq_nil_iff.mp this)]

end order

section field
variable {α : Type} [Field α] [LinearOrder α] [IsStrictOrderedRing α] [BEq α]
variable {n k : Nat} {X : Type}

/-! ## C18 -/

/-- A well configured solver never steps back in time. -/
theorem Spec.WellConfigured.forward {S : Solver α n k X} (hM : WellConfigured S.method) : Forward S :=
  ⟨hM.library, fun s s' hh ht => (C11_step_increases S hM s s' hh ht).imp le_of_lt id⟩

/-- **C18.** For times in order: `run(a)` followed by `run(b)` is `run(a + b)`, as programs: the same answers, the same
exceptions, the same final solver, also when a run is cut short by `t_bound`. -/
theorem C18_resume (S : Solver α n k X) (hM : WellConfigured S.method) (bo : BisectOpts α)
    (argsort : List α → List Nat) (hA : ∀ l, IsArgsort l (argsort l)) (a b : List α)
    (hne : a ≠ []) (hneb : b ≠ []) (hs : (a ++ b).Pairwise (· ≤ ·))
    (s : St α n k X) (ho : Ordered s) (hh : 0 < s.h) (hr : InRange S s (a ++ b)) :
    (S.run bo argsort (a ++ b)).run s =
      andThen ((S.run bo argsort a).run s) fun oa s1 =>
        andThen ((S.run bo argsort b).run s1) fun ob s2 => some (.ok (oa ++ ob), s2) :=
  run_append S hM.forward bo argsort hA a b hne hneb hs s ho hh hr

end field

/-! ### Cases -/

namespace Demo

/-- There is such an `argsort`. -/
theorem exists_argsort {α : Type} [LinearOrder α] [Zero α] :
    ∃ argsort : List α → List Nat, ∀ l, IsArgsort l (argsort l) := by
  have : ∀ l : List α, ∃ ndx, IsArgsort l ndx := by
    intro l
    refine ⟨(List.range l.length).mergeSort (fun i j => decide (l.getD i 0 ≤ l.getD j 0)),
      List.mergeSort_perm _ _, ?_⟩
    have h1 : ((List.range l.length).mergeSort (fun i j => decide (l.getD i 0 ≤ l.getD j 0))).Pairwise
        (fun i j => l.getD i 0 ≤ l.getD j 0) := by
      have := List.pairwise_mergeSort (le := fun i j : Nat => decide (l.getD i 0 ≤ l.getD j 0))
        (by intro a b c h1 h2; simp only [decide_eq_true_eq] at *; exact h1.trans h2)
        (by intro a b; simp only [Bool.or_eq_true, decide_eq_true_eq]; exact le_total _ _)
        (List.range l.length)
      exact this.imp (by intro a b h; simpa using h)
    rw [List.pairwise_filterMap]
    refine h1.imp ?_
    intro i j hij x hx y hy
    rw [List.getD_eq_getElem?_getD, List.getD_eq_getElem?_getD, hx, hy] at hij
    exact hij
  choose f hf using this
  exact ⟨f, hf⟩

/-- Forward Euler with `t_bound = 3/4`, asked for `1/4` and `3/4`: only `1/4` is answered. -/
theorem euler_cut (bo : BisectOpts ℚ) (argsort : List ℚ → List Nat) (hA : ∀ l, IsArgsort l (argsort l)) :
    ∃ y, ((euler (.fin (3/4))).run bo argsort [1/4, 3/4]).run s0 = some (.ok [(1/4, y)], s1) := by
  have hr : InRange (euler (.fin (3/4))) s0 [1/4, 3/4] := by
    intro x hx
    simp only [List.mem_cons, List.not_mem_nil, or_false] at hx
    rcases hx with rfl | rfl <;>
      norm_num [s0, st, euler, NotBeyond]
  have hs : isSorted [(1/4 : ℚ), 3/4] = true := by rw [isSorted_iff]; norm_num
  obtain ⟨r, hi⟩ : ∃ r, ((euler (.fin (3/4))).interpAt (1/4)).run s1 = some (.ok r, s1) := by
    show ∃ r, (hermiteInterp (1/4) : Py _ _).run s1 = _
    unfold hermiteInterp
    simp only [run_bind, run_get, andThen_ok, run_ite, run_pure, run_ofExcept]
    have e1 : s1.cache.t = 1/2 := rfl
    have e0 : s1.cache.ts (Buffer.iOld _) = 0 := rfl
    simp only [e1, e0]
    norm_num [pyDiv]
  refine ⟨r.deref s1.cache, ?_⟩
  rw [run_eq (IsFixed.shaped (.explicitMultistep _)).toShaped bo hA (by simp) hr]
  unfold sortedTimes
  simp only [hs, if_true]
  rw [runEval_cons, advance_true.mpr (.step (s1 := s1) (by norm_num [s0, st, St.t, Buffer.t]) (by
    norm_num [Fits, euler, NotBeyond, s0, st, St.t, Buffer.t]) (takes01 _) (.here (by
    show ¬ (1/2 : ℚ) < 1/4
    norm_num)))]
  simp only [andThen_ok, if_true]
  rw [hi]
  simp only [andThen_ok]
  rw [runEval_cons, advance_false.mpr (.here (by
    show (1/2 : ℚ) < 3/4
    norm_num) (by
    have e1 : s1.t = 1/2 := rfl
    have e2 : s1.h = 1/2 := rfl
    norm_num [Fits, euler, NotBeyond, e1, e2]))]
  simp

end Demo

open Demo in
/-- **C19 refuted**: Forward Euler with `h = 1/2`, `t_bound = 3/4` asked for `1/4` and `3/4`: both are within range, the call
succeeds, and `3/4` gets no state. -/
theorem C19_refuted (bo : BisectOpts ℚ) (argsort : List ℚ → List Nat) (hA : ∀ l, IsArgsort l (argsort l)) :
    ∃ (S : Solver ℚ 1 (histExtra 0) Unit) (s s' : St ℚ 1 (histExtra 0) Unit) (ts : List ℚ)
      (out : List (ℚ × Vec ℚ 1)), InRange S s ts ∧
      (S.run bo argsort ts).run s = some (.ok out, s') ∧ ∃ x ∈ ts, ∀ p ∈ out, p.1 ≠ x := by
  obtain ⟨y, h⟩ := euler_cut bo argsort hA
  refine ⟨_, _, _, _, _, (run_ok (IsFixed.shaped (.explicitMultistep _)).toShaped bo hA h).2.1, h, 3/4,
    by simp, ?_⟩
  intro p hp
  rw [List.mem_singleton] at hp
  subst hp
  norm_num

open Demo in
/-- **C17 and C21 refuted**: the same solver asked for `3/4` and `1/4` raises `IndexError`, after advancing. -/
theorem C21_refuted (bo : BisectOpts ℚ) (argsort : List ℚ → List Nat) (hA : ∀ l, IsArgsort l (argsort l)) :
    ((euler (.fin (3/4))).run bo argsort [3/4, 1/4]).run s0 = some (.error .indexError, s1) := by
  obtain ⟨y, h⟩ := euler_cut bo argsort hA
  exact C21_cut_short_indexError _ (Or.inl (.explicitMultistep _)) bo argsort hA [1/4, 3/4] [3/4, 1/4]
    (List.Perm.swap _ _ _) (by norm_num) (by norm_num) _ _ _ h (by simp)

open Demo in
/-- **C17 refuted**: two orders of the same times, one returns and the other raises. -/
theorem C17_refuted (bo : BisectOpts ℚ) (argsort : List ℚ → List Nat) (hA : ∀ l, IsArgsort l (argsort l)) :
    (∃ out, ((euler (.fin (3/4))).run bo argsort [1/4, 3/4]).run s0 = some (.ok out, s1)) ∧
    ((euler (.fin (3/4))).run bo argsort [3/4, 1/4]).run s0 = some (.error .indexError, s1) :=
  ⟨⟨_, (euler_cut bo argsort hA).choose_spec⟩, C21_refuted bo argsort hA⟩

-- C17: two orders of the same times leave the solver in the same state.
example (bo : BisectOpts ℚ) (argsort : List ℚ → List Nat) (hA : ∀ l, IsArgsort l (argsort l)) :
    (((Demo.euler (.fin (3/4))).run bo argsort [3/4, 1/4]).run Demo.s0).map Prod.snd = some Demo.s1 := by
  rw [C17_same_solver _ (Or.inl (.explicitMultistep _)) bo argsort hA _ [1/4, 3/4] (.swap _ _ _),
    (Demo.euler_cut bo argsort hA).choose_spec]
  rfl

-- C10: a clock not past the bound and a target beyond it.
example : ¬ Past (Demo.euler (.fin 2)).tBound Demo.s0 ∧ Beyond (.fin 3) (Demo.euler (.fin 2)).tBound := by
  norm_num [Past, Beyond, Demo.euler, Demo.s0, Demo.st, St.t, Buffer.t]

-- C10: a time before the history, beyond the bound.
example (bo : BisectOpts ℚ) (argsort : List ℚ → List Nat) (hA : ∀ l, IsArgsort l (argsort l)) :
    ((Demo.euler (.fin 2)).run bo argsort [1, 3, -1]).run Demo.s0 = some (.error .valueError, Demo.s0) :=
  C10_run_out_of_range _ bo argsort hA _ _ ⟨3, by simp, Or.inr (by norm_num [Beyond, Demo.euler])⟩

-- C16-C19: a run that succeeds (cut short), and the hypotheses of the resumption theorem.
example : ∃ argsort : List ℚ → List Nat, (∀ l, IsArgsort l (argsort l)) ∧
    ∃ out, ((Demo.euler (.fin (3/4))).run ⟨1/100, 0, 50⟩ argsort [1/4, 3/4]).run Demo.s0 =
      some (.ok out, Demo.s1) := by
  obtain ⟨f, hf⟩ := Demo.exists_argsort (α := ℚ)
  exact ⟨f, hf, _, (Demo.euler_cut _ f hf).choose_spec⟩

example (bo : BisectOpts ℚ) (argsort : List ℚ → List Nat) (hA : ∀ l, IsArgsort l (argsort l)) :
    ((Demo.euler (.fin 2)).run bo argsort ([0, 1/3] ++ [1/3, 3/2])).run Demo.s0 =
      andThen (((Demo.euler (.fin 2)).run bo argsort [0, 1/3]).run Demo.s0) fun oa s1 =>
        andThen (((Demo.euler (.fin 2)).run bo argsort [1/3, 3/2]).run s1) fun ob s2 =>
          some (.ok (oa ++ ob), s2) := by
  refine C18_resume _ (Or.inl (.explicitMultistep _)) bo argsort hA _ _ (by simp) (by simp) (by norm_num) _ ?_
    (by norm_num [Demo.s0, Demo.st]) ?_
  · intro i j _; exact le_refl _
  · intro x hx
    simp only [List.cons_append, List.nil_append, List.mem_cons, List.not_mem_nil, or_false] at hx
    rcases hx with rfl | rfl | rfl | rfl <;>
      norm_num [Demo.s0, Demo.st, Demo.euler, NotBeyond]

end Nbkode
