import Verif.Proofs.Sorting
import Verif.Proofs.Loops
import Verif.Proofs.MethodShape

/-! The loops behind `run`. -/

set_option autoImplicit false
set_option linter.unusedSectionVars false

namespace Nbkode
open Py Spec Solver

section lawless
variable {α : Type}
variable [Add α] [Sub α] [Mul α] [Div α] [Neg α] [Zero α] [One α] [NatCast α] [BEq α]
variable [LT α] [DecidableLT α] [LE α] [DecidableLE α]
variable {n k : Nat} {X : Type}

theorem advance_run (S : Solver α n k X) (b : Bound α) (ti : α) (s : St α n k X) :
    (S.advance b ti).run s = if s.t < ti then
        andThen ((S.pstep b).run s) fun c s1 =>
          if c then (S.advance b ti).run s1 else some (.ok false, s1)
      else some (.ok true, s) := by
  conv_lhs => rw [advance.eq_1]
  simp only [run_bind, run_ite, run_get, andThen_ok, run_pure]
  rfl

/-- What `advance` may end with. -/
def AdvPost (S : Solver α n k X) (b : Bound α) (ti : α) (s : St α n k X) (r : Except Err Bool)
    (s' : St α n k X) : Prop :=
  match r with
  | .ok true => Reach S b ti s s'
  | .ok false => Stuck S b ti s s'
  | .error e => ∃ l s1, Path S b s l s1 ∧ s1.t < ti ∧ Fits b s1 ∧
      (S.method.body S.rhs).run s1 = some (.error e, s')

theorem advance_post (S : Solver α n k X) (b : Bound α) (ti : α) :
    ∀ s r s', (S.advance b ti).run s = some (r, s') → AdvPost S b ti s r s' := by
  refine advance.fixpoint_induct S b ti
    (fun x => ∀ s r s', x.run s = some (r, s') → AdvPost S b ti s r s') (admissible_post _) ?_
  intro loop ih s r s' h
  simp only [run_bind, run_ite, run_get, andThen_ok, run_pure] at h
  split at h
  · rename_i hlt
    rw [andThen_eq_some] at h
    rcases h with ⟨e, s1, h1, h2⟩ | ⟨c, s1, h1, h2⟩
    · cases h2
      obtain ⟨hf, hb⟩ := pstep_error.mp h1
      exact ⟨[], s, .nil s, hlt, hf, hb⟩
    · cases c with
      | false =>
        obtain ⟨hn, rfl⟩ := pstep_false.mp h1
        simp at h2
        obtain ⟨rfl, rfl⟩ := h2
        exact .here hlt hn
      | true =>
        obtain ⟨hf, ht⟩ := pstep_true.mp h1
        have := ih s1 r s' (by simpa using h2)
        rcases r with e | (_ | _)
        · obtain ⟨l, s2, hp, h3⟩ := this
          exact ⟨s1 :: l, s2, .cons hf ht hp, h3⟩
        · exact .step hlt hf ht this
        · exact .step hlt hf ht this
  · rename_i hlt
    cases h
    exact .here hlt

theorem advance_true {S : Solver α n k X} {b : Bound α} {ti : α} {s s' : St α n k X} :
    (S.advance b ti).run s = some (.ok true, s') ↔ Reach S b ti s s' := by
  constructor
  · exact advance_post S b ti _ _ _
  · intro h
    induction h with
    | here h => rw [advance_run, if_neg h]
    | step h hf ht _ ih =>
      rw [advance_run, if_pos h, pstep_true.mpr ⟨hf, ht⟩]
      simpa using ih

theorem advance_false {S : Solver α n k X} {b : Bound α} {ti : α} {s s' : St α n k X} :
    (S.advance b ti).run s = some (.ok false, s') ↔ Stuck S b ti s s' := by
  constructor
  · exact advance_post S b ti _ _ _
  · intro h
    induction h with
    | here h hn => rw [advance_run, if_pos h, pstep_false.mpr ⟨hn, rfl⟩]; simp
    | step h hf ht _ ih =>
      rw [advance_run, if_pos h, pstep_true.mpr ⟨hf, ht⟩]
      simpa using ih

theorem reach_not_lt {S : Solver α n k X} {b : Bound α} {ti : α} {s s' : St α n k X}
    (h : Reach S b ti s s') : ¬ s'.t < ti := by
  induction h with
  | here h => exact h
  | step _ _ _ _ ih => exact ih

theorem stuck_end {S : Solver α n k X} {b : Bound α} {ti : α} {s s' : St α n k X}
    (h : Stuck S b ti s s') : s'.t < ti ∧ ¬ Fits b s' := by
  induction h with
  | here h hn => exact ⟨h, hn⟩
  | step _ _ _ _ ih => exact ih

theorem reach_det {S : Solver α n k X} {b : Bound α} {ti : α} {s a c : St α n k X}
    (h1 : Reach S b ti s a) (h2 : Reach S b ti s c) : a = c := by
  have e1 := advance_true.mpr h1
  have e2 := advance_true.mpr h2
  rw [e1] at e2
  simpa using e2

theorem runEval_cons (S : Solver α n k X) (b : Bound α) (ti : α) (rest : List α) (s : St α n k X) :
    (S.runEval b (ti :: rest)).run s =
      andThen ((S.advance b ti).run s) fun c s1 =>
        if c then andThen ((S.interpAt ti).run s1) fun r s2 =>
          andThen ((S.runEval b rest).run s2) fun out s3 =>
            some (.ok ((ti, r.deref s2.cache) :: out), s3)
        else some (.ok [], s1) := by
  rw [runEval]
  simp only [run_bind, run_ite, run_get, andThen_ok, run_pure]

/-- The times answered are a prefix of the times asked. -/
theorem runEval_prefix {S : Solver α n k X} {b : Bound α} {ts : List α} {s s' : St α n k X}
    {out : List (α × Vec α n)} (h : (S.runEval b ts).run s = some (.ok out, s')) :
    out.map Prod.fst = ts.take out.length ∧ out.length ≤ ts.length := by
  induction ts generalizing s out with
  | nil => rw [runEval] at h; cases h; exact ⟨rfl, le_refl _⟩
  | cons ti rest ih =>
    rw [runEval_cons, andThen_eq_ok] at h
    obtain ⟨c, s1, h1, h2⟩ := h
    cases c with
    | false =>
      simp at h2
      obtain ⟨rfl, rfl⟩ := h2
      simp
    | true =>
      simp only [if_true] at h2
      rw [andThen_eq_ok] at h2
      obtain ⟨r, s2, h3, h4⟩ := h2
      rw [andThen_eq_ok] at h4
      obtain ⟨out', s3, h5, h6⟩ := h4
      cases h6
      obtain ⟨e1, e2⟩ := ih h5
      simp [e1, e2]

/-- `runEval` on `a ++ b` is `runEval` on `a`, then on `b` unless it was cut short. -/
theorem runEval_append (S : Solver α n k X) (b : Bound α) (l1 l2 : List α) (s : St α n k X) :
    (S.runEval b (l1 ++ l2)).run s = andThen ((S.runEval b l1).run s) fun o1 s1 =>
      if o1.length = l1.length then andThen ((S.runEval b l2).run s1) fun o2 s2 => some (.ok (o1 ++ o2), s2)
      else some (.ok o1, s1) := by
  induction l1 generalizing s with
  | nil =>
    rw [List.nil_append, runEval]
    simp only [run_pure, andThen_ok, List.length_nil, if_true, List.nil_append]
    rcases (S.runEval b l2).run s with _ | ⟨_ | _, _⟩ <;> rfl
  | cons ti l1 ih =>
    rw [List.cons_append, runEval_cons, runEval_cons, andThen_assoc]
    congr 1
    funext c s1
    cases c with
    | false => simp
    | true =>
      simp only [if_true]
      rw [andThen_assoc]
      congr 1
      funext r s2
      rw [ih, andThen_assoc, andThen_assoc]
      congr 1
      funext o1 s3
      simp only [andThen_ok, List.length_cons, Nat.add_right_cancel_iff]
      split
      · rw [andThen_assoc]; rfl
      · rfl

theorem interpolateAll_cons (S : Solver α n k X) (t : α) (rest : List α) (s : St α n k X) :
    (S.interpolateAll (t :: rest)).run s = andThen ((S.interpolate t).run s) fun r s1 =>
      andThen ((S.interpolateAll rest).run s1) fun rs s2 => some (.ok (r :: rs), s2) := by
  rw [interpolateAll]
  simp only [run_bind, run_pure]

end lawless

section order
variable {α : Type} [LinearOrder α]
variable [Add α] [Sub α] [Mul α] [Div α] [Neg α] [Zero α] [One α] [NatCast α] [BEq α]
variable {n k : Nat} {X : Type}

theorem interpolate_inside {S : Solver α n k X} {t : α} {s : St α n k X}
    (h1 : s.cache.ts (Buffer.iOld k) ≤ t) (h2 : t ≤ s.t) :
    (S.interpolate t).run s = (S.interpAt t).run s := by
  unfold interpolate
  simp only [run_bind, run_get, andThen_ok, run_ite]
  rw [if_neg]
  simp only [Bool.not_eq_true', Bool.and_eq_false_iff, decide_eq_false_iff_not, not_or, not_not]
  exact ⟨h1, h2⟩

/-- On times within the history, `interpolateAll` followed by copying is `runEval`. -/
theorem interpolateAll_runEval {S : Solver α n k X} (hM : Shaped S.method) (b : Bound α) (ts : List α)
    (s : St α n k X) (h : ∀ x ∈ ts, s.cache.ts (Buffer.iOld k) ≤ x ∧ x ≤ s.t)  :
    (S.runEval b ts).run s = andThen ((S.interpolateAll ts).run s) fun rs s1 =>
      some (.ok (ts.zip (rs.map fun r => r.deref s1.cache)), s1) := by
  induction ts generalizing s with
  | nil => rw [runEval, interpolateAll]; rfl
  | cons t rest ih =>
    obtain ⟨h1, h2⟩ := h t List.mem_cons_self
    rw [runEval_cons, advance_run, if_neg (not_lt.mpr h2), interpolateAll_cons,
      interpolate_inside h1 h2]
    simp only [andThen_ok, if_true]
    rw [andThen_assoc]
    rcases hi : (S.interpAt t).run s with _ | ⟨_ | r, s1⟩
    · rfl
    · rfl
    · obtain ⟨e1, -⟩ := hM.interp _ _ _ _ _ hi
      simp only [andThen_ok]
      rw [ih s1 (by
        intro x hx
        unfold St.t at *
        rw [e1]
        exact h x (List.mem_cons_of_mem _ hx)), andThen_assoc, andThen_assoc]
      rcases hj : (S.interpolateAll rest).run s1 with _ | ⟨_ | rs, s2⟩
      · rfl
      · rfl
      · have e2 : s2.cache = s1.cache := by
          clear ih hi
          have : ∀ (l : List α) (s1 s2 : St α n k X) rs, (S.interpolateAll l).run s1 = some (.ok rs, s2) →
              s2.cache = s1.cache := by
            intro l
            induction l with
            | nil => intro s1 s2 rs h; rw [interpolateAll] at h; cases h; rfl
            | cons t l ih =>
              intro s1 s2 rs h
              rw [interpolateAll_cons, andThen_eq_ok] at h
              obtain ⟨r, s3, h3, h4⟩ := h
              rw [andThen_eq_ok] at h4
              obtain ⟨rs', s4, h5, h6⟩ := h4
              cases h6
              rw [ih _ _ _ h5]
              unfold interpolate at h3
              simp only [run_bind, run_get, andThen_ok, run_ite] at h3
              split at h3
              · simp at h3
              · exact (hM.interp _ _ _ _ _ h3).1
          exact this _ _ _ _ hj
        simp [e2]

theorem run_unfold (S : Solver α n k X) (bo : BisectOpts α) (argsort : List α → List Nat)
    (ts : List α) (s : St α n k X) :
    (S.run bo argsort ts).run s =
      match (if isSorted ts then .ok ts else fancyIndex ts (argsort ts)) with
      | .error e => some (.error e, s)
      | .ok [] => some (.error .indexError, s)
      | .ok (t0 :: tl) =>
        if t0 < s.cache.ts (Buffer.iOld k) then some (.error .valueError, s)
        else if (Bound.fin (listMax t0 tl)).gt S.tBound then some (.error .valueError, s)
        else andThen ((S.interpolateAll ((t0 :: tl).filter fun ti => decide (ti ≤ s.t))).run s) fun rs s1 =>
          andThen ((S.runEval S.tBound ((t0 :: tl).filter fun ti => !decide (ti ≤ s.t))).run s1) fun out s2 =>
            if isSorted ts then
              some (.ok (((t0 :: tl).filter fun ti => decide (ti ≤ s.t)).zip
                (rs.map fun r => r.deref s1.cache) ++ out), s2)
            else some (fancyIndex (((t0 :: tl).filter fun ti => decide (ti ≤ s.t)).zip
                (rs.map fun r => r.deref s1.cache) ++ out) (invPerm (argsort ts)), s2) := by
  unfold Solver.run runEvents checkTime
  by_cases hs : isSorted ts = true
  · simp only [hs, if_true, run_bind, run_pure, andThen_ok, Option.getD_none, List.isEmpty_nil,
      Bool.not_true, Bool.and_false, Bool.false_eq_true, if_false]
    rcases ts with _ | ⟨t0, tl⟩
    · rfl
    · simp only [run_bind, run_get, andThen_ok, run_ite, run_throw, run_pure, andThen_error]
      split
      · rfl
      · split
        · rfl
        · simp only [andThen_ok, andThen_assoc]
  · simp only [hs, if_false, run_bind, run_ofExcept, Option.getD_none, List.isEmpty_nil, if_true,
      Bool.not_true, Bool.and_false, Bool.false_eq_true]
    rcases fancyIndex ts (argsort ts) with e | (_ | ⟨t0, tl⟩)
    · rfl
    · rfl
    · simp only [run_bind, run_get, andThen_ok, run_ite, run_throw, run_pure, andThen_error]
      split
      · rfl
      · split
        · rfl
        · simp only [andThen_ok, andThen_assoc]
          congr 1
          funext rs s1
          congr 1
          funext out s2
          cases fancyIndex _ _ <;> rfl

end order
end Nbkode
