import Verif.Proofs.Failures
import Verif.Props.Termination

/-!
# Where exceptions come from: C69
-/

set_option autoImplicit false
set_option linter.unusedSectionVars false

namespace Nbkode
open Py Spec Solver

section field
variable {α : Type} [Field α] [LinearOrder α] [IsStrictOrderedRing α] [BEq α] [LawfulBEq α]
variable {n k : Nat} {X : Type}

theorem only_checkTime {S : Solver α n k X} {u : Bound α} {s s' : St α n k X} {e : Err}
    (h : (S.checkTime u).run s = some (.error e, s')) : e = .valueError ∧ Beyond u S.tBound := by
  unfold checkTime at h
  rw [run_ite] at h
  split at h
  · rename_i hg
    simp only [run_throw, Option.some.injEq, Prod.mk.injEq, Except.error.injEq] at h
    exact ⟨h.1.symm, (gt_iff _ _).mp hg⟩
  · cases h

/-- **C69** (step): an exception out of `step` is one the right-hand side raised, or one of the method's own (none for the
explicit methods other than DOP853), or `ValueError` because of a negative `n` or an `upto_t` beyond `t_bound`, or
`RuntimeError` because `n` steps do not fit below `t_bound`. -/
theorem C69_step (S : Solver α n k X) (own : Err → Prop) (hM : Faults S.method own) (m : Option Int) (u : Option (Bound α))
    (s s' : St α n k X) (e : Err) (h : (S.step m u).run s = some (.error e, s')) :
    FunctionRaises S.rhs e ∨ own e ∨
    (e = .valueError ∧ ((∃ i, m = some i ∧ i < 0) ∨ ∃ b, u = some b ∧ Beyond b S.tBound)) ∨
    (e = .runtimeError ∧ m ≠ none ∧ u = none ∧ ¬ Fits S.tBound s') := by
  have hb : ∀ s s' e, (S.method.body S.rhs).run s = some (.error e, s') → FunctionRaises S.rhs e ∨ own e :=
    fun s s' e h => only_body hM s e s' h
  have hn : ∀ (i : Int) (b : Bound α) s s' e, (S.nsteps i b).run s = some (.error e, s') →
      (FunctionRaises S.rhs e ∨ own e) ∨ (e = .valueError ∧ i < 0) := by
    intro i b s s' e h
    unfold nsteps at h
    rw [run_ite] at h
    split at h
    · simp only [run_throw, Option.some.injEq, Prod.mk.injEq, Except.error.injEq] at h
      exact Or.inr ⟨h.1.symm, ‹_›⟩
    · obtain ⟨_, _, _, _, _, h⟩ := nstepsLoop_error.mp h
      exact Or.inl (hb _ _ _ h)
  unfold step at h
  simp only [run_bind, run_get, andThen_ok, run_ite, run_pure] at h
  split at h
  · cases h
  · cases m with
    | none =>
      cases u with
      | none =>
        simp only [run_bind, andThen_eq_error, run_ite, run_get, andThen_ok, run_pure] at h
        rcases h with h | ⟨c, s1, -, h⟩
        · rcases hb _ _ _ (pstep_error.mp h).2 with h | h
          · exact Or.inl h
          · exact Or.inr (Or.inl h)
        · split at h <;> cases h
      | some u =>
        simp only [run_bind, andThen_eq_error, run_pure] at h
        rcases h with h | ⟨_, s1, -, h | ⟨_, _, -, h⟩⟩
        · obtain ⟨h1, h2⟩ := only_checkTime h
          exact Or.inr (Or.inr (Or.inl ⟨h1, Or.inr ⟨u, rfl, h2⟩⟩))
        · obtain ⟨_, _, _, _, h⟩ := stepsLoop_post S u _ _ _ h
          rcases hb _ _ _ h with h | h
          · exact Or.inl h
          · exact Or.inr (Or.inl h)
        · cases h
    | some i =>
      cases u with
      | none =>
        simp only [run_bind, andThen_eq_error] at h
        rcases h with h | ⟨⟨out, scon⟩, s1, h1, h⟩
        · rcases hn _ _ _ _ _ h with (h | h) | h
          · exact Or.inl h
          · exact Or.inr (Or.inl h)
          · exact Or.inr (Or.inr (Or.inl ⟨h.1, Or.inl ⟨i, rfl, h.2⟩⟩))
        · cases scon with
          | false => simp at h
          | true =>
            simp at h
            obtain ⟨rfl, rfl⟩ := h
            refine Or.inr (Or.inr (Or.inr ⟨rfl, by simp, rfl, ?_⟩))
            unfold nsteps at h1
            rw [run_ite] at h1
            split at h1
            · cases h1
            · obtain ⟨l, -, -, h2 | h2⟩ := nstepsLoop_ok.mp h1
              · exact absurd h2.1 (by simp)
              · exact h2.2.2
      | some u =>
        simp only [run_bind, andThen_eq_error, run_pure] at h
        rcases h with h | ⟨_, s1, -, h | ⟨_, _, -, h⟩⟩
        · obtain ⟨h1, h2⟩ := only_checkTime h
          exact Or.inr (Or.inr (Or.inl ⟨h1, Or.inr ⟨u, rfl, h2⟩⟩))
        · rcases hn _ _ _ _ _ h with (h | h) | h
          · exact Or.inl h
          · exact Or.inr (Or.inl h)
          · exact Or.inr (Or.inr (Or.inl ⟨h.1, Or.inl ⟨i, rfl, h.2⟩⟩))
        · cases h

/-- **C69** (skip): the same, except that a negative `n` is not refused. -/
theorem C69_skip (S : Solver α n k X) (own : Err → Prop) (hM : Faults S.method own) (m : Option Int) (u : Option (Bound α))
    (s s' : St α n k X) (e : Err) (h : (S.skip m u).run s = some (.error e, s')) :
    FunctionRaises S.rhs e ∨ own e ∨ (e = .valueError ∧ ∃ b, u = some b ∧ Beyond b S.tBound) ∨
    (e = .runtimeError ∧ m ≠ none ∧ u = none ∧ ¬ Fits S.tBound s') := by
  have hb : ∀ s s' e, (S.method.body S.rhs).run s = some (.error e, s') → FunctionRaises S.rhs e ∨ own e :=
    fun s s' e h => only_body hM s e s' h
  have hn : ∀ (i : Int) (b : Bound α) s s' e, (S.nskip i b).run s = some (.error e, s') →
      FunctionRaises S.rhs e ∨ own e := by
    intro i b s s' e h
    obtain ⟨_, _, _, _, _, h⟩ := nskipLoop_error.mp h
    exact hb _ _ _ h
  unfold skip at h
  simp only [run_bind, run_get, andThen_ok, run_ite, run_pure] at h
  split at h
  · cases h
  · cases m with
    | none =>
      cases u with
      | none =>
        simp only [run_bind, andThen_eq_error, run_pure] at h
        rcases h with h | ⟨_, _, -, h⟩
        · rcases hn _ _ _ _ _ h with h | h
          · exact Or.inl h
          · exact Or.inr (Or.inl h)
        · cases h
      | some u =>
        simp only [run_bind, andThen_eq_error] at h
        rcases h with h | ⟨_, s1, -, h⟩
        · obtain ⟨h1, h2⟩ := only_checkTime h
          exact Or.inr (Or.inr (Or.inl ⟨h1, u, rfl, h2⟩))
        · obtain ⟨_, _, _, _, h⟩ := skipLoop_post S u _ _ _ h
          rcases hb _ _ _ h with h | h
          · exact Or.inl h
          · exact Or.inr (Or.inl h)
    | some i =>
      cases u with
      | none =>
        simp only [run_bind, andThen_eq_error] at h
        rcases h with h | ⟨scon, s1, h1, h⟩
        · rcases hn _ _ _ _ _ h with h | h
          · exact Or.inl h
          · exact Or.inr (Or.inl h)
        · cases scon with
          | false => simp at h
          | true =>
            simp at h
            obtain ⟨rfl, rfl⟩ := h
            refine Or.inr (Or.inr (Or.inr ⟨rfl, by simp, rfl, ?_⟩))
            obtain ⟨l, -, h2 | h2⟩ := nskipLoop_ok.mp h1
            · exact absurd h2.1 (by simp)
            · exact h2.2.2
      | some u =>
        simp only [run_bind, andThen_eq_error, run_pure] at h
        rcases h with h | ⟨_, s1, -, h | ⟨_, _, -, h⟩⟩
        · obtain ⟨h1, h2⟩ := only_checkTime h
          exact Or.inr (Or.inr (Or.inl ⟨h1, u, rfl, h2⟩))
        · rcases hn _ _ _ _ _ h with h | h
          · exact Or.inl h
          · exact Or.inr (Or.inl h)
        · cases h

/-- **C69** (interpolate): `ValueError` outside the recorded history; inside it only what the right-hand side raises (and
only DOP853 calls it). -/
theorem C69_interpolate (S : Solver α n k X) (hM : IsLibrary S.method) (t : α) (s s' : St α n k X) (e : Err)
    (h : (S.interpolate t).run s = some (.error e, s')) :
    FunctionRaises S.rhs e ∨ (e = .valueError ∧ (t < s.cache.ts (Buffer.iOld k) ∨ s.t < t)) := by
  by_cases h1 : s.cache.ts (Buffer.iOld k) ≤ t
  · by_cases h2 : t ≤ s.t
    · rw [interpolate_inside h1 h2] at h
      exact Or.inl (interp_only hM h1 h2 h)
    · rw [C10_interpolate_outside S t s (fun h => h2 h.2)] at h
      cases h
      exact Or.inr ⟨rfl, Or.inr (not_le.mp h2)⟩
  · rw [C10_interpolate_outside S t s (fun h => h1 h.1)] at h
    cases h
    exact Or.inr ⟨rfl, Or.inl (not_le.mp h1)⟩

theorem runEval_only {S : Solver α n k X} {own : Err → Prop} (hM : WellConfigured S.method) (hF : Faults S.method own)
    {b : Bound α} {ts : List α} (hs : ts.Pairwise (· ≤ ·)) {s s' : St α n k X} {e : Err} (ho : Ordered s) (hh : 0 < s.h)
    (h0 : ∀ x ∈ ts, s.cache.ts (Buffer.iOld k) ≤ x) (h : (S.runEval b ts).run s = some (.error e, s')) :
    FunctionRaises S.rhs e ∨ own e := by
  induction ts generalizing s with
  | nil => rw [runEval] at h; cases h
  | cons ti rest ih =>
    obtain ⟨hs1, hs2⟩ := List.pairwise_cons.mp hs
    rw [runEval_cons, andThen_eq_error] at h
    rcases h with h | ⟨c, s1, h1, h2⟩
    · obtain ⟨_, s1, -, -, -, h1⟩ := advance_post S b ti _ _ _ h
      exact only_body hF _ _ _ h1
    · cases c with
      | false => simp at h2
      | true =>
        simp only [if_true] at h2
        have hr1 := ready_advance hM.forward (le_refl ti) ⟨ho, hh, h0 ti List.mem_cons_self⟩ h1
        rw [andThen_eq_error] at h2
        rcases h2 with h2 | ⟨r, s2, hi, h2⟩
        · exact Or.inl (interp_only hM.library hr1.2.2 (not_lt.mp (reach_not_lt (advance_true.mp h1))) h2)
        · rw [andThen_eq_error] at h2
          obtain ⟨e1, e2⟩ := hM.library.shaped.interp _ _ _ _ _ hi
          rcases h2 with h2 | ⟨_, _, _, h2⟩
          · refine ih hs2 (s := s2) ?_ (by rw [e2]; exact hr1.2.1) ?_ h2
            · have := hr1.1
              unfold Ordered at *
              rw [e1]; exact this
            · intro x hx; rw [e1]; exact hr1.2.2.trans (hs1 x hx)
          · simp at h2

/-- **C69** (run): an exception out of `run` is one the right-hand side raised, or one of the method's own, or `ValueError`
because of a time outside the range, or `IndexError` because there are no times, or because the times are out of order and
`t_bound` cuts the run short. -/
theorem C69_run (S : Solver α n k X) (own : Err → Prop) (hM : WellConfigured S.method) (hF : Faults S.method own)
    (bo : BisectOpts α) (argsort : List α → List Nat) (hA : ∀ l, IsArgsort l (argsort l)) (ts : List α) (s s' : St α n k X)
    (ho : Ordered s) (hh : 0 < s.h) (e : Err) (h : (S.run bo argsort ts).run s = some (.error e, s')) :
    FunctionRaises S.rhs e ∨ own e ∨ (e = .valueError ∧ ¬ InRange S s ts) ∨
    (e = .indexError ∧ (ts = [] ∨ (¬ ts.Pairwise (· ≤ ·) ∧ ¬ Fits S.tBound s'))) := by
  by_cases hne : ts = []
  · subst hne
    rw [C21_empty_indexError] at h
    cases h
    exact Or.inr (Or.inr (Or.inr ⟨rfl, Or.inl rfl⟩))
  rcases inRange_or (S := S) s ts with hr | hr
  · rw [run_eq hM.library.shaped bo hA hne hr, andThen_eq_error] at h
    rcases h with h | ⟨out, s1, h1, h2⟩
    · rcases runEval_only hM hF (sortedTimes_sorted hA ts) ho hh
        (fun x hx => (hr x ((sortedTimes_perm hA ts).mem_iff.mp hx)).1) h with h | h
      · exact Or.inl h
      · exact Or.inr (Or.inl h)
    · by_cases hs : isSorted ts = true
      · rw [if_pos hs] at h2; simp at h2
      · rw [if_neg hs] at h2
        have hs' : ¬ ts.Pairwise (· ≤ ·) := fun h => hs ((isSorted_iff ts).mpr h)
        have hl := (sortedTimes_perm hA ts).length_eq
        by_cases hlen : out.length = ts.length
        · obtain ⟨out', e1, -⟩ := reorder (hA ts).perm hlen
          rw [e1] at h2
          simp at h2
        · have hc : out.length < (sortedTimes argsort ts).length := by have := (runEval_prefix h1).2; omega
          rw [reorder_short (hA ts).perm (by rw [← hl]; exact hc)] at h2
          cases h2
          exact Or.inr (Or.inr (Or.inr ⟨rfl, Or.inr ⟨hs', (runEval_cut h1 hc).2⟩⟩))
  · rw [run_out_of_range bo hA hr] at h
    simp only [Option.some.injEq, Prod.mk.injEq, Except.error.injEq] at h
    refine Or.inr (Or.inr (Or.inl ⟨h.1.symm, ?_⟩))
    intro hin
    obtain ⟨x, hx, h | h⟩ := hr
    · exact absurd (hin x hx).1 (not_le.mpr h)
    · rw [(notBeyond_iff _ _).mp (hin x hx).2] at h; simp at h

/-- **C69**: with an explicit method other than DOP853, a right-hand side that does not raise and no bound, a run that comes
back answers every requested time. -/
theorem C69_answers (S : Solver α n k X) (hM : WellConfigured S.method) (hF : Faults S.method fun _ => False)
    (hb : S.tBound = .inf) (hf : ∀ e, ¬ FunctionRaises S.rhs e) (bo : BisectOpts α) (argsort : List α → List Nat)
    (hA : ∀ l, IsArgsort l (argsort l)) (ts : List α) (hne : ts ≠ []) (s : St α n k X) (ho : Ordered s) (hh : 0 < s.h)
    (hr : InRange S s ts) (hH : Halts (S.run bo argsort ts) s) :
    ∃ out s', (S.run bo argsort ts).run s = some (.ok out, s') ∧ out.map Prod.fst = ts := by
  obtain ⟨r, s', h⟩ := hH
  cases r with
  | ok out => exact ⟨out, s', h, C19_unbounded_partial S hM.library hb bo argsort hA ts s s' out h⟩
  | error e =>
    exfalso
    rcases C69_run S _ hM hF bo argsort hA ts s s' ho hh e h with h | h | h | ⟨-, h | h⟩
    · exact hf e h
    · exact h
    · exact h.2 hr
    · exact hne h
    · exact h.2 (by unfold Fits; rw [hb]; trivial)

end field

section archimedean
variable {α : Type} [Field α] [LinearOrder α] [IsStrictOrderedRing α] [Archimedean α] [BEq α] [LawfulBEq α]
variable {n k : Nat} {X : Type}

/-- **C69**: a fixed-step explicit solver without a bound, on a right-hand side that does not raise, answers every run. -/
theorem C69_answers_fixed (S : Solver α n k X) (hM : IsFixed S.method) (hF : Faults S.method fun _ => False)
    (hb : S.tBound = .inf) (hf : ∀ e, ¬ FunctionRaises S.rhs e) (bo : BisectOpts α) (argsort : List α → List Nat)
    (hA : ∀ l, IsArgsort l (argsort l)) (ts : List α) (hne : ts ≠ []) (s : St α n k X) (ho : Ordered s) (hh : 0 < s.h)
    (hr : InRange S s ts) :
    ∃ out s', (S.run bo argsort ts).run s = some (.ok out, s') ∧ out.map Prod.fst = ts := by
  refine C69_answers S (Or.inl hM) hF hb hf bo argsort hA ts hne s ho hh hr ?_
  obtain ⟨r, s', h⟩ := C64_fixed S hM bo argsort (.run ts) trivial s hh
  change (do let _ ← S.run bo argsort ts; pure () : Py (St α n k X) Unit).run s = _ at h
  rw [run_bind] at h
  cases h' : (S.run bo argsort ts).run s with
  | none => rw [h'] at h; cases h
  | some p => exact ⟨p.1, p.2, h'⟩

/-- **C69**: RungeKutta23 and RungeKutta45 without a bound, on a bounded right-hand side that does not raise, answer every
run. -/
theorem C69_answers_variable {s d : Nat} (lib : Lib α) (hs : SqrtLaw lib) (hp : PowLaw lib) (o : VarOptions α)
    (ho : ShrinkingOptions o) (c : FsalCoef α s d) (hT : Explicit c.toTableau) (hex : 0 ≤ c.errorExponent)
    (hps : PowSmall lib c.errorExponent) (rhs : Rhs α n) (B : α) (hB : BoundedBy rhs B) (hf : ∀ e, ¬ FunctionRaises rhs e)
    (bo : BisectOpts α) (argsort : List α → List Nat) (hA : ∀ l, IsArgsort l (argsort l)) (ts : List α) (hne : ts ≠ [])
    (st : St α n 0 (FsalAux α n s (RkItp α n d))) (he : rhs st.t st.y = .ok st.f) (hor : Ordered st) (hh : 0 < st.h)
    (hr : InRange ⟨fsal lib o c, rhs, .inf⟩ st ts) :
    ∃ out s', (Solver.run ⟨fsal lib o c, rhs, .inf⟩ bo argsort ts).run st = some (.ok out, s') ∧ out.map Prod.fst = ts := by
  refine C69_answers _ (Or.inr ⟨lib, o, _, .fsal c, hp, ⟨ho.minFactor_pos, ho.minFactor_lt.le, one_pos.trans_le ho.maxFactor_ge,
    ho.safety_lt.le⟩, hex⟩) (.fsal _ _ _ hp hs) rfl hf bo argsort hA ts hne st hor hh hr ?_
  obtain ⟨r, s', h⟩ := C64_calls_partial lib hs hp o ho c hT hex hps rhs B hB .inf bo argsort (.run ts) trivial st he hh
  change (do let _ ← Solver.run ⟨fsal lib o c, rhs, .inf⟩ bo argsort ts; pure () : Py _ Unit).run st = _ at h
  rw [run_bind] at h
  cases h' : (Solver.run ⟨fsal lib o c, rhs, .inf⟩ bo argsort ts).run st with
  | none => rw [h'] at h; cases h
  | some p => exact ⟨p.1, p.2, h'⟩

end archimedean

open Demo in
/-- **C69**: RungeKutta23 and RungeKutta45 with default options (exact real arithmetic), without a bound, on a right-hand side that is
continuous in `t` and Lipschitz in `y`, answer every run. -/
theorem C69_answers_lipschitz {n : Nat} (f : ℝ → Vec ℝ n → Vec ℝ n) (hf : ∀ y, Continuous fun t => f t y) (L : ℝ)
    (hL : ∀ t (y z : Vec ℝ n), ‖f t y - f t z‖ ≤ L * ‖y - z‖) (bo : BisectOpts ℝ) (argsort : List ℝ → List Nat)
    (hA : ∀ l, IsArgsort l (argsort l)) (ts : List ℝ) (hne : ts ≠ []) :
    (∀ st : St ℝ n 0 (FsalAux ℝ n 2 (RkItp ℝ n 3)), 0 < st.h → st.f = f st.t st.y → Ordered st →
      InRange ⟨fsal realLib .default RungeKutta23, pureRhs f, .inf⟩ st ts →
      ∃ out s', (Solver.run ⟨fsal realLib .default RungeKutta23, pureRhs f, .inf⟩ bo argsort ts).run st = some (.ok out, s') ∧
        out.map Prod.fst = ts) ∧
    (∀ st : St ℝ n 0 (FsalAux ℝ n 5 (RkItp ℝ n 4)), 0 < st.h → st.f = f st.t st.y → Ordered st →
      InRange ⟨fsal realLib .default RungeKutta45, pureRhs f, .inf⟩ st ts →
      ∃ out s', (Solver.run ⟨fsal realLib .default RungeKutta45, pureRhs f, .inf⟩ bo argsort ts).run st = some (.ok out, s') ∧
        out.map Prod.fst = ts) := by
  have hall := C64_lipschitz f hf L hL .inf bo argsort (.run ts) trivial
  refine ⟨fun st hh he ho hr => ?_, fun st hh he ho hr => ?_⟩
  · refine C69_answers _ (Or.inr ⟨_, _, _, .fsal _, realLib_powLaw, default_sane, by simp [RungeKutta23, q]⟩)
      (.fsal _ _ _ realLib_powLaw realLib_sqrtLaw) rfl (fun e ⟨t, y, h⟩ => by cases h) bo argsort hA ts hne st ho hh hr ?_
    obtain ⟨r, s', h⟩ := hall.1 st hh he
    change (do let _ ← Solver.run ⟨fsal realLib .default RungeKutta23, pureRhs f, .inf⟩ bo argsort ts; pure () : Py _ Unit).run st
      = _ at h
    rw [run_bind] at h
    cases h' : (Solver.run ⟨fsal realLib .default RungeKutta23, pureRhs f, .inf⟩ bo argsort ts).run st with
    | none => rw [h'] at h; cases h
    | some p => exact ⟨p.1, p.2, h'⟩
  · refine C69_answers _ (Or.inr ⟨_, _, _, .fsal _, realLib_powLaw, default_sane, by simp [RungeKutta45, q]⟩)
      (.fsal _ _ _ realLib_powLaw realLib_sqrtLaw) rfl (fun e ⟨t, y, h⟩ => by cases h) bo argsort hA ts hne st ho hh hr ?_
    obtain ⟨r, s', h⟩ := hall.2.1 st hh he
    change (do let _ ← Solver.run ⟨fsal realLib .default RungeKutta45, pureRhs f, .inf⟩ bo argsort ts; pure () : Py _ Unit).run st
      = _ at h
    rw [run_bind] at h
    cases h' : (Solver.run ⟨fsal realLib .default RungeKutta45, pureRhs f, .inf⟩ bo argsort ts).run st with
    | none => rw [h'] at h; cases h
    | some p => exact ⟨p.1, p.2, h'⟩

/-! ### Cases -/

open Demo in
-- C69: RungeKutta45 answers requests at 0, 100 and 10⁶ on `y' = 1 + sin t - y/2`, in that order or any other.
example (bo : BisectOpts ℝ) (argsort : List ℝ → List Nat) (hA : ∀ l, IsArgsort l (argsort l)) :
    ∃ out s', (Solver.run ⟨fsal realLib .default RungeKutta45, pureRhs fun t y i => 1 + Real.sin t - y i / 2, .inf⟩ bo argsort
        [100, 0, 1000000]).run
      (⟨⟨fun _ => 0, fun _ _ => 0, fun _ _ => 1⟩, 1 / 10, ⟨fun _ _ => 0, ⟨fun _ _ => 0, 0⟩⟩⟩ :
        St ℝ 1 0 (FsalAux ℝ 1 5 (RkItp ℝ 1 4))) = some (.ok out, s') ∧ out.map Prod.fst = [100, 0, 1000000] := by
  refine (C69_answers_lipschitz (fun t y i => 1 + Real.sin t - y i / 2) (fun y => by fun_prop) 1 (fun t y z => ?_) bo argsort hA _
    (by simp)).2 _ (by norm_num) ?_ ?_ ?_
  · rw [one_mul]
    refine (pi_norm_le_iff_of_nonneg (norm_nonneg _)).mpr fun i => ?_
    have h := norm_le_pi_norm (y - z) i
    have e : (1 + Real.sin t - y i / 2) - (1 + Real.sin t - z i / 2) = -((y - z) i) / 2 := by simp; ring
    change ‖(1 + Real.sin t - y i / 2) - (1 + Real.sin t - z i / 2)‖ ≤ _
    rw [e, norm_div, norm_neg]
    have : ‖(2 : ℝ)‖ = 2 := by norm_num
    rw [this]
    linarith [norm_nonneg ((y - z) i)]
  · funext i; simp [St.f, St.y, St.t, Buffer.t, Buffer.f, Buffer.y]
  · intro i j _; exact le_rfl
  · intro x hx
    refine ⟨?_, trivial⟩
    change (0 : ℝ) ≤ x
    simp only [List.mem_cons, List.not_mem_nil, or_false] at hx
    rcases hx with rfl | rfl | rfl <;> norm_num

open Demo in
-- C69: Forward Euler without a bound answers any times from 0 on, in any order.
example (bo : BisectOpts ℚ) (argsort : List ℚ → List Nat) (hA : ∀ l, IsArgsort l (argsort l)) :
    ∃ out s', ((euler .inf).run bo argsort [1000, 1/3, 5]).run s0 = some (.ok out, s') ∧ out.map Prod.fst = [1000, 1/3, 5] :=
  C69_answers_fixed _ (.explicitMultistep _) (.explicitMultistep _) rfl (by rintro e ⟨t, y, h⟩; cases h) bo argsort hA _
    (by simp) _ ordered_s0 pos_s0 (by
      intro x hx
      refine ⟨?_, trivial⟩
      change (0 : ℚ) ≤ x
      simp only [List.mem_cons, List.not_mem_nil, or_false] at hx
      rcases hx with rfl | rfl | rfl <;> norm_num)

/-- A right-hand side that raises after time 1. -/
def Demo.fragile : Rhs ℚ 1 := fun t y => if 1 < t then .error (.user 7) else .ok y

open Demo in
-- C69: the user's exception comes out of `step`; what `n = -1` raises is `ValueError`.
example : ∃ s', (Solver.step ⟨explicitMultistep ForwardEuler, fragile, .inf⟩ (some 1) none).run
      (⟨⟨fun _ => 1, fun _ _ => 1, fun _ _ => 1⟩, 1/2, ()⟩ : St ℚ 1 (histExtra 0) Unit) = some (.error (.user 7), s') ∧
    FunctionRaises fragile (.user 7) ∧
    (Solver.step ⟨explicitMultistep ForwardEuler, fragile, .inf⟩ (some (-1)) none).run
      (⟨⟨fun _ => 1, fun _ _ => 1, fun _ _ => 1⟩, 1/2, ()⟩ : St ℚ 1 (histExtra 0) Unit) = some (.error .valueError,
      ⟨⟨fun _ => 1, fun _ _ => 1, fun _ _ => 1⟩, 1/2, ()⟩) := by
  refine ⟨⟨⟨fun _ => 1, fun _ _ => 1, fun _ _ => 1⟩, 1/2, ()⟩, ?_, ⟨2, fun _ => 0, ?_⟩, rfl⟩
  · have h : (1 : ℚ) < 1 + 1 / 2 := by norm_num
    simp [Solver.step, inPast, nsteps, nstepsLoop, pstep, Bound.exceededBy, explicitMultistep, explicitMultistepBody, fragile,
      Buffer.t, if_pos h]
  · simp [fragile]

end Nbkode
