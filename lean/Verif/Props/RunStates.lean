import Verif.Proofs.RunStates

/-!
# The states `run` returns: C20, C18, C21

The solver is one that was constructed and then used without a call raising (`Constructed`, `CleanSession`), with its
recorded times in order at construction (see C34) and a positive step.
-/

set_option autoImplicit false
set_option linter.unusedSectionVars false

namespace Nbkode
open Py Spec Solver

section field
variable {α : Type} [Field α] [LinearOrder α] [IsStrictOrderedRing α] [BEq α] [LawfulBEq α]
variable {n k : Nat} {X : Type}

/-- **C20.** The state `run` returns for a time is what `interpolate` gives at the first state, stepping on from where the
solver was, whose time is not before it. The other times requested do not occur in this. -/
theorem C20_interpolant (S : Solver α n k X) (hM : WellConfigured S.method) (bo : BisectOpts α)
    (argsort : List α → List Nat) (hA : ∀ l, IsArgsort l (argsort l)) (s0 s : St α n k X)
    (hc : Constructed S s0) (ho : Ordered s0) (hh : 0 < s0.h) (hs : CleanSession S bo argsort s0 s)
    (ts : List α) (out : List (α × Vec α n)) (s' : St α n k X)
    (h : (S.run bo argsort ts).run s = some (.ok out, s')) :
    ∀ p ∈ out, ∃ s1 r s2, Reach S S.tBound p.1 s s1 ∧
      (S.interpolate p.1).run s1 = some (.ok r, s2) ∧ r.deref s1.cache = p.2 :=
  run_interpolant S hM.forward bo argsort hA s0 s hc ho hh hs ts out s' h

/-- **C20.** Asked for that time alone, `run` gives the same state. -/
theorem C20_alone (S : Solver α n k X) (hM : WellConfigured S.method) (bo : BisectOpts α)
    (argsort : List α → List Nat) (hA : ∀ l, IsArgsort l (argsort l)) (s0 s : St α n k X)
    (hc : Constructed S s0) (ho : Ordered s0) (hh : 0 < s0.h) (hs : CleanSession S bo argsort s0 s)
    (ts : List α) (out : List (α × Vec α n)) (s' : St α n k X)
    (h : (S.run bo argsort ts).run s = some (.ok out, s')) :
    ∀ p ∈ out, ∃ s1, (S.run bo argsort [p.1]).run s = some (.ok [p], s1) :=
  run_alone S hM.forward bo argsort hA s0 s hc ho hh hs ts out s' h

/-- **C20.** Two calls from the same solver agree wherever both answer. -/
theorem C20_independent (S : Solver α n k X) (hM : WellConfigured S.method) (bo : BisectOpts α)
    (argsort : List α → List Nat) (hA : ∀ l, IsArgsort l (argsort l)) (s0 s : St α n k X)
    (hc : Constructed S s0) (ho : Ordered s0) (hh : 0 < s0.h) (hs : CleanSession S bo argsort s0 s)
    (ts ts' : List α) (out out' : List (α × Vec α n)) (s1 s2 : St α n k X)
    (h1 : (S.run bo argsort ts).run s = some (.ok out, s1))
    (h2 : (S.run bo argsort ts').run s = some (.ok out', s2)) (x : α) (y y' : Vec α n)
    (hx : (x, y) ∈ out) (hx' : (x, y') ∈ out') : y = y' :=
  run_independent S hM.forward bo argsort hA s0 s hc ho hh hs ts ts' out out' s1 s2 h1 h2 x y y' hx hx'

/-- **C18**, times in any order: if `run(a)` and then `run(b)` answer all their times, `run(a + b)` gives both answers and
leaves the same solver. Missing: `run(b)` cut short by `t_bound`, see `C18_refuted`. -/
theorem C18_resume_unsorted_partial (S : Solver α n k X) (hM : WellConfigured S.method) (bo : BisectOpts α)
    (argsort : List α → List Nat) (hA : ∀ l, IsArgsort l (argsort l)) (s0 s : St α n k X)
    (hc : Constructed S s0) (ho : Ordered s0) (hh : 0 < s0.h) (hs : CleanSession S bo argsort s0 s)
    (a b : List α) (hab : ∀ x ∈ a, ∀ y ∈ b, x ≤ y) (oa ob : List (α × Vec α n)) (s1 s2 : St α n k X)
    (h1 : (S.run bo argsort a).run s = some (.ok oa, s1)) (hla : oa.length = a.length)
    (h2 : (S.run bo argsort b).run s1 = some (.ok ob, s2)) (hlb : ob.length = b.length) :
    (S.run bo argsort (a ++ b)).run s = some (.ok (oa ++ ob), s2) :=
  run_append_unsorted S hM.forward bo argsort hA s0 s hc ho hh hs a b hab oa ob s1 s2 h1 hla h2 hlb

/-! ## C21 -/

/-- Within the recorded history the dense output is defined, if the right-hand side is. -/
theorem interp_total {S : Solver α n k X} (hM : IsLibrary S.method) (hf : ∀ t y, ∃ f, S.rhs t y = .ok f)
    {t : α} {s : St α n k X} (h1 : s.cache.ts (Buffer.iOld k) ≤ t) (h2 : t ≤ s.t) :
    ∃ r s', (S.interpAt t).run s = some (.ok r, s') := by
  have hdiv : ∀ a b : α, b ≠ 0 → ∃ x, pyDiv a b = .ok x := fun a b hb => ⟨_, by
    unfold pyDiv; rw [if_neg (by simpa using hb)]⟩
  have hermite : ∃ r s', (hermiteInterp t : Py (St α n k X) _).run s = some (.ok r, s') := by
    rw [hermiteInterp_run]
    split
    · exact ⟨_, _, rfl⟩
    · rename_i hne
      simp only [beq_iff_eq] at hne
      have hlt := lt_of_le_of_ne h1 (Ne.symm hne)
      obtain ⟨x, hx⟩ := hdiv (t - s.cache.ts (Buffer.iOld k)) (s.cache.t - s.cache.ts (Buffer.iOld k))
        (sub_pos.mpr (lt_of_lt_of_le hlt h2)).ne'
      rw [hx]
      exact ⟨_, _, rfl⟩
  obtain ⟨M, rhs, b⟩ := S
  rcases hM with hM | ⟨lib, o, ex, hM⟩
  · cases hM with
    | explicitMultistep c => exact hermite
    | implicitMultistep lib zo c => exact hermite
    | erk T => exact hermite
  · cases hM with
    | fsal c =>
      change ∃ r s', (rkInterp c.P t).run s = _
      rw [rkInterp_run]
      split
      · exact ⟨_, _, rfl⟩
      · split
        · exact ⟨_, _, rfl⟩
        · rename_i hne' hne
          simp only [beq_iff_eq] at hne
          have hlt := lt_of_le_of_ne h1 (Ne.symm hne)
          obtain ⟨x, hx⟩ := hdiv (t - s.cache.ts (Buffer.iPrev 0))
            (s.cache.ts (Buffer.iLast 0) - s.cache.ts (Buffer.iPrev 0)) (sub_pos.mpr (lt_of_lt_of_le hlt h2)).ne'
          simp only [hx]
          exact ⟨_, _, rfl⟩
    | dop853 c =>
      change ∃ r s', (dopInterp c.toDopDense rhs t).run s = _
      rw [dopInterp_run]
      split
      · exact ⟨_, _, rfl⟩
      · split
        · exact ⟨_, _, rfl⟩
        · rename_i hne' hne
          simp only [beq_iff_eq] at hne
          have hlt := lt_of_le_of_ne h1 (Ne.symm hne)
          obtain ⟨x, hx⟩ := hdiv (t - s.cache.ts (Buffer.iPrev 0))
            (s.cache.ts (Buffer.iLast 0) - s.cache.ts (Buffer.iPrev 0)) (sub_pos.mpr (lt_of_lt_of_le hlt h2)).ne'
          split
          · simp only [andThen_ok, hx]
            exact ⟨_, _, rfl⟩
          · rcases dopUpdate_run c.toDopDense rhs s with ⟨Kx, -, hu⟩ | ⟨hno, -⟩
            · rw [hu]
              simp only [andThen_ok, setItp, hx]
              exact ⟨_, _, rfl⟩
            · exact absurd (dopStages_exist c.toDopDense rhs hf _ _ _ _) hno

theorem runEval_error {S : Solver α n k X} (hM : WellConfigured S.method) (hf : ∀ t y, ∃ f, S.rhs t y = .ok f)
    (hstep : ∀ s s' e, (S.method.body S.rhs).run s ≠ some (.error e, s')) {b : Bound α} {ts : List α}
    (hs : ts.Pairwise (· ≤ ·)) {s s' : St α n k X} {e : Err} (ho : Ordered s) (hh : 0 < s.h)
    (h0 : ∀ x ∈ ts, s.cache.ts (Buffer.iOld k) ≤ x) : (S.runEval b ts).run s ≠ some (.error e, s') := by
  induction ts generalizing s with
  | nil => rw [runEval]; simp [run_pure]
  | cons ti rest ih =>
    obtain ⟨hs1, hs2⟩ := List.pairwise_cons.mp hs
    intro h
    rw [runEval_cons, andThen_eq_error] at h
    have hadv : ∀ s e s', (S.advance b ti).run s ≠ some (.error e, s') := by
      intro s e s' h
      obtain ⟨_, s1, -, -, -, h1⟩ := advance_post S b ti _ _ _ h
      exact hstep _ _ _ h1
    rcases h with h | ⟨c, s1, h1, h2⟩
    · exact hadv _ _ _ h
    · cases c with
      | false => simp at h2
      | true =>
        simp only [if_true] at h2
        have hr1 := ready_advance hM.forward (le_refl ti) ⟨ho, hh, h0 ti List.mem_cons_self⟩ h1
        obtain ⟨r, s2, hi⟩ := interp_total hM.library hf hr1.2.2
          (not_lt.mp (reach_not_lt (advance_true.mp h1)))
        rw [hi] at h2
        simp only [andThen_ok] at h2
        rw [andThen_eq_error] at h2
        obtain ⟨e1, e2⟩ := hM.library.shaped.interp _ _ _ _ _ hi
        rcases h2 with h2 | ⟨_, _, _, h2⟩
        · refine ih hs2 (s := s2) ?_ (by rw [e2]; exact hr1.2.1) ?_ h2
          · have := hr1.1
            unfold Ordered at *
            rw [e1]; exact this
          · intro x hx; rw [e1]; exact hr1.2.2.trans (hs1 x hx)
        · simp at h2

/-- **C21**, what holds: on a non-empty list of times, in order or without a bound, if neither the right-hand side nor a step
raises, `run` raises only `ValueError`. Missing: see `C21_empty_indexError` and `C21_refuted`. -/
theorem C21_only_valueError_partial (S : Solver α n k X) (hM : WellConfigured S.method) (bo : BisectOpts α)
    (argsort : List α → List Nat) (hA : ∀ l, IsArgsort l (argsort l)) (hf : ∀ t y, ∃ f, S.rhs t y = .ok f)
    (hstep : ∀ s s' e, (S.method.body S.rhs).run s ≠ some (.error e, s')) (ts : List α) (hne : ts ≠ [])
    (hts : ts.Pairwise (· ≤ ·) ∨ S.tBound = .inf) (s s' : St α n k X) (ho : Ordered s) (hh : 0 < s.h) (e : Err)
    (h : (S.run bo argsort ts).run s = some (.error e, s')) :
    e = .valueError ∧ s' = s ∧ ¬ InRange S s ts := by
  rcases inRange_or (S := S) s ts with hr | hr
  · exfalso
    rw [run_eq hM.library.shaped bo hA hne hr, andThen_eq_error] at h
    rcases h with h | ⟨out, s1, h1, h2⟩
    · exact runEval_error hM hf hstep (sortedTimes_sorted hA ts) ho hh
        (fun x hx => (hr x ((sortedTimes_perm hA ts).mem_iff.mp hx)).1) h
    · by_cases hs : isSorted ts = true
      · rw [if_pos hs] at h2; simp at h2
      · rw [if_neg hs] at h2
        have hb : S.tBound = .inf := by
          rcases hts with hts | hb
          · exact absurd ((isSorted_iff ts).mpr hts) hs
          · exact hb
        have hlen : out.length = ts.length := by
          by_contra hc
          have hl := (sortedTimes_perm hA ts).length_eq
          have := (runEval_cut h1 (by have := (runEval_prefix h1).2; omega)).2
          exact this (by unfold Fits; rw [hb]; trivial)
        obtain ⟨out', e1, -⟩ := reorder (hA ts).perm hlen
        rw [e1] at h2
        simp at h2
  · rw [run_out_of_range bo hA hr] at h
    simp only [Option.some.injEq, Prod.mk.injEq, Except.error.injEq] at h
    refine ⟨h.1.symm, h.2.symm, ?_⟩
    intro hin
    obtain ⟨x, hx, h | h⟩ := hr
    · exact absurd (hin x hx).1 (not_le.mpr h)
    · rw [(notBeyond_iff _ _).mp (hin x hx).2] at h; simp at h

end field

/-! ### Cases -/

namespace Demo

/-- The demo solver is what the constructor of `ForwardEuler` makes. -/
theorem constructed_s0 (b : Bound ℚ) : Constructed (euler b) s0 := by
  refine .explicitMultistep ForwardEuler growth b s0.cache ⟨1/100, 0, 50⟩ (fun _ => []) .none 0 (fun _ => 1)
    (some (1/2)) s0 ?_
  unfold multistepInit solverInit
  simp only [growth, pureRhs, bind, Except.bind, pure, Except.pure, Option.getD_some, if_true]
  have e : ∀ m, Buffer.pushN s0.cache 0 (fun _ => 1) (fun _ => 1) m = s0.cache := by
    intro m
    induction m with
    | zero => rfl
    | succ m ih =>
      rw [Buffer.pushN, ih]
      unfold Buffer.push s0 st shiftIn
      congr 1 <;> (funext i; simp)
  have e1 : Buffer.init s0.cache 0 (fun _ => 1) (fun _ => 1) = s0.cache := e _
  simp only [e1]
  have e2 := e (histExtra 0 + 1)
  show some (Except.ok _) = _
  congr 2
  unfold St.t St.y St.f
  show (⟨Buffer.pushN s0.cache 0 (fun _ => 1) (fun _ => 1) _, _, _⟩ : St ℚ 1 (histExtra 0) Unit) = _
  rw [e2]; rfl

theorem ordered_s0 : Ordered s0 := fun _ _ _ => le_refl _

theorem pos_s0 : 0 < s0.h := by norm_num [s0, st]

/-- Forward Euler with `t_bound = 3/4`, asked for `1/4` and the initial time, in this order. -/
theorem euler_back (bo : BisectOpts ℚ) (argsort : List ℚ → List Nat) (hA : ∀ l, IsArgsort l (argsort l)) :
    ∃ out, ((euler (.fin (3/4))).run bo argsort [1/4, 0]).run s0 = some (.ok out, s1) ∧ out.length = 2 := by
  have hr : InRange (euler (.fin (3/4))) s0 [0, 1/4] := by
    intro x hx
    simp only [List.mem_cons, List.not_mem_nil, or_false] at hx
    rcases hx with rfl | rfl <;>
      norm_num [s0, st, euler, NotBeyond]
  have hM : WellConfigured (euler (.fin (3/4))).method := Or.inl (.explicitMultistep _)
  have hs : ([0, 1/4] : List ℚ).Pairwise (· ≤ ·) := by norm_num
  have hi0 : ((euler (.fin (3/4))).interpAt 0).run s0 = some (.ok (.row (Buffer.iOld _)), s0) := by
    show (hermiteInterp 0 : Py _ _).run s0 = _
    rw [hermiteInterp_run, if_pos (by simp [s0, st])]
  obtain ⟨r, s2, hi1⟩ := interp_total (S := euler (.fin (3/4))) hM.library (fun _ y => ⟨y, rfl⟩) (t := 1/4) (s := s1)
    (by show (0 : ℚ) ≤ 1/4; norm_num) (by show (1/4 : ℚ) ≤ 1/2; norm_num)
  have hi2 : s2 = s1 := hermiteInterp_state _ _ _ _ hi1
  rw [hi2] at hi1
  have hrun : ((euler (.fin (3/4))).run bo argsort [0, 1/4]).run s0 =
      some (.ok [(0, s0.cache.ys (Buffer.iOld _)), (1/4, r.deref s1.cache)], s1) := by
    rw [run_eq hM.library.shaped bo hA (by simp) hr]
    unfold sortedTimes
    simp only [(isSorted_iff _).mpr hs, if_true]
    rw [runEval_cons, advance_true.mpr (.here (by norm_num [s0, st, St.t, Buffer.t]))]
    simp only [andThen_ok, if_true, hi0]
    rw [runEval_cons, advance_true.mpr (.step (s1 := s1) (by norm_num [s0, st, St.t, Buffer.t]) (by
      norm_num [Fits, euler, NotBeyond, s0, st, St.t, Buffer.t]) (takes01 _) (.here (by
      show ¬ (1/2 : ℚ) < 1/4
      norm_num)))]
    simp only [andThen_ok, if_true, hi1]
    rfl
  obtain ⟨out, h1, h2, -⟩ := C17_same_answers_partial _ hM.library bo argsort hA [0, 1/4] [1/4, 0]
    (List.Perm.swap _ _ _) s0 _ _ hrun (by simp)
  exact ⟨out, h1, h2.length_eq⟩

/-- ... and then for `3/4`, which gets no state. -/
theorem euler_refused (bo : BisectOpts ℚ) (argsort : List ℚ → List Nat) (hA : ∀ l, IsArgsort l (argsort l)) :
    ((euler (.fin (3/4))).run bo argsort [3/4]).run s1 = some (.ok [], s1) := by
  have hM : WellConfigured (euler (.fin (3/4))).method := Or.inl (.explicitMultistep _)
  rw [run_eq hM.library.shaped bo hA (by simp) (by
    intro x hx
    simp only [List.mem_singleton] at hx
    subst hx
    refine ⟨?_, by norm_num [euler, NotBeyond]⟩
    show (0 : ℚ) ≤ 3/4
    norm_num)]
  unfold sortedTimes
  simp only [isSorted, if_true]
  rw [runEval_cons, advance_false.mpr (.here (by
    show (1/2 : ℚ) < 3/4
    norm_num) (by
    have e1 : s1.t = 1/2 := rfl
    have e2 : s1.h = 1/2 := rfl
    norm_num [Fits, euler, NotBeyond, e1, e2]))]
  simp

end Demo

open Demo in
/-- **C18 refuted** for times out of order: with `a = [1/4, 0]` and `b = [3/4]`, `run(a)` and then `run(b)` return, while
`run(a + b)` raises `IndexError`. -/
theorem C18_refuted (bo : BisectOpts ℚ) (argsort : List ℚ → List Nat) (hA : ∀ l, IsArgsort l (argsort l)) :
    ∃ (S : Solver ℚ 1 (histExtra 0) Unit) (s s1 s2 s3 : St ℚ 1 (histExtra 0) Unit) (a b : List ℚ)
      (oa ob : List (ℚ × Vec ℚ 1)), Constructed S s ∧ (∀ x ∈ a, ∀ y ∈ b, x ≤ y) ∧
      (S.run bo argsort a).run s = some (.ok oa, s1) ∧ (S.run bo argsort b).run s1 = some (.ok ob, s2) ∧
      (S.run bo argsort (a ++ b)).run s = some (.error .indexError, s3) := by
  obtain ⟨oa, h1, -⟩ := euler_back bo argsort hA
  have h2 := euler_refused bo argsort hA
  have hM : WellConfigured (euler (.fin (3/4))).method := Or.inl (.explicitMultistep _)
  have hr : InRange (euler (.fin (3/4))) s0 [0, 1/4, 3/4] := by
    intro x hx
    simp only [List.mem_cons, List.not_mem_nil, or_false] at hx
    rcases hx with rfl | rfl | rfl <;>
      norm_num [s0, st, euler, NotBeyond]
  have hsorted : ∃ out, ((euler (.fin (3/4))).run bo argsort [0, 1/4, 3/4]).run s0 = some (.ok out, s1) ∧
      out.length < 3 := by
    have h3 := C18_resume (euler (.fin (3/4))) hM bo argsort hA [0, 1/4] [3/4] (by simp) (by simp) (by norm_num) s0
      ordered_s0 pos_s0 hr
    obtain ⟨o, h4, h5, h6⟩ := C17_same_answers_partial _ hM.library bo argsort hA [1/4, 0] [0, 1/4]
      (List.Perm.swap _ _ _) s0 _ _ h1 (by
        have := C16_unsorted_complete _ hM.library bo argsort hA [1/4, 0] (by norm_num) _ _ _ h1
        have := congrArg List.length this
        simp at this
        simp [this])
    rw [h4] at h3
    simp only [andThen_ok] at h3
    rw [h2] at h3
    refine ⟨_, h3, ?_⟩
    have := congrArg List.length h6
    simp at this
    simp [this]
  obtain ⟨out, h3, hlen⟩ := hsorted
  refine ⟨euler (.fin (3/4)), s0, s1, s1, s1, [1/4, 0], [3/4], oa, [], constructed_s0 _, ?_, h1, h2, ?_⟩
  · intro x hx y hy
    simp only [List.mem_cons, List.not_mem_nil, or_false] at hx hy
    subst hy
    rcases hx with rfl | rfl <;> norm_num
  · exact C21_cut_short_indexError _ hM.library bo argsort hA [0, 1/4, 3/4] ([1/4, 0] ++ [3/4])
      (List.Perm.swap _ _ _) (by norm_num) (by norm_num) s0 s1 out h3 (by simpa using hlen)

-- C20 and C18 (times out of order): the demo solver, just constructed, and a run that answers.
open Demo in
example : ∃ argsort : List ℚ → List Nat, (∀ l, IsArgsort l (argsort l)) ∧
    ∃ out s1 r s2, ((euler (.fin (3/4))).run ⟨1/100, 0, 50⟩ argsort [1/4, 0]).run s0 = some (.ok out, s1) ∧
      ∃ p ∈ out, ∃ s', Reach (euler (.fin (3/4))) (.fin (3/4)) p.1 s0 s' ∧
        ((euler (.fin (3/4))).interpolate p.1).run s' = some (.ok r, s2) ∧ r.deref s'.cache = p.2 := by
  obtain ⟨f, hf⟩ := exists_argsort (α := ℚ)
  obtain ⟨out, h, hl⟩ := euler_back ⟨1/100, 0, 50⟩ f hf
  obtain ⟨p, hp⟩ := List.exists_mem_of_length_pos (l := out) (by omega)
  obtain ⟨s', r, s2, h1, h2, h3⟩ := C20_interpolant _ (Or.inl (.explicitMultistep _)) _ f hf s0 s0
    (constructed_s0 (.fin (3/4))) ordered_s0 pos_s0 (.start _) _ out _ h p hp
  exact ⟨f, hf, out, _, r, s2, h, p, hp, s', h1, h2, h3⟩

-- C21: an explicit fixed-step solver with a right-hand side that never raises satisfies the hypotheses.
open Demo in
example (bo : BisectOpts ℚ) (argsort : List ℚ → List Nat) (hA : ∀ l, IsArgsort l (argsort l)) (e : Err) (s') :
    ((euler (.fin 2)).run bo argsort [0, 1, 3]).run s0 = some (.error e, s') → e = .valueError := fun h =>
  (C21_only_valueError_partial _ (Or.inl (.explicitMultistep _)) bo argsort hA (fun _ y => ⟨y, rfl⟩)
    (fun s s' e h => by
      obtain ⟨s1, h1⟩ := unfailing_explicitMultistep ForwardEuler (fun _ y => y) (.fin 2) s [] s (.nil s)
      exact absurd (h1.symm.trans h) (by simp)) _ (by simp) (Or.inl (by norm_num)) _ _ ordered_s0 pos_s0 e h).1

end Nbkode
