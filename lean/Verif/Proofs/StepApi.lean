import Verif.Proofs.Loops
import Verif.Proofs.MethodShape

/-! Running `step` and `skip`: the API calls in terms of the loops. -/

set_option autoImplicit false
set_option linter.unusedSectionVars false

namespace Nbkode
open Py Spec Solver

variable {α : Type} [Add α] [LT α] [DecidableLT α] [LE α] [DecidableLE α]
variable {n k : Nat} {X : Type}

theorem inPast_iff (u : Bound α) (s : St α n k X) : inPast (some u) s = true ↔ Past u s := by
  cases u <;> simp [inPast, Bound.lt, Past]

theorem gt_iff (u b : Bound α) : u.gt b = true ↔ Beyond u b := by
  cases u <;> cases b <;> simp [Bound.gt, Beyond]

theorem step_n_run (S : Solver α n k X) (m : Nat) (s : St α n k X) :
    (S.step (some (m : Int)) none).run s = andThen ((S.nstepsLoop S.tBound m).run s) fun r s' =>
      if r.2 then some (.error .runtimeError, s') else some (.ok (.arrays r.1), s') := by
  unfold step nsteps
  simp only [run_bind, run_get, andThen_ok, inPast, run_ite, Int.toNat_natCast]
  simp only [Bool.false_eq_true, if_false]
  rw [if_neg (by omega)]
  rfl

theorem skip_n_run (S : Solver α n k X) (m : Nat) (s : St α n k X) :
    (S.skip (some (m : Int)) none).run s = andThen ((S.nskipLoop S.tBound m).run s) fun r s' =>
      if r then some (.error .runtimeError, s') else some (.ok (), s') := by
  unfold skip nskip
  simp only [run_bind, run_get, andThen_ok, inPast, run_ite, Int.toNat_natCast]
  simp only [Bool.false_eq_true, if_false]
  rfl

theorem nstepsLoop_add (S : Solver α n k X) (b : Bound α) (m m' : Nat) (s : St α n k X) :
    (S.nstepsLoop b (m + m')).run s = andThen ((S.nstepsLoop b m).run s) fun r s1 =>
      if r.2 then some (.ok r, s1) else andThen ((S.nstepsLoop b m').run s1) fun r' s2 =>
        some (.ok (r.1 ++ r'.1, r'.2), s2) := by
  induction m generalizing s with
  | zero =>
    simp only [Nat.zero_add, nstepsLoop, run_pure, andThen_ok, Bool.false_eq_true, if_false,
      List.nil_append]
    rcases (S.nstepsLoop b m').run s with _ | ⟨_ | ⟨_, _⟩, _⟩ <;> rfl
  | succ m ih =>
    rw [show m + 1 + m' = (m + m') + 1 by omega, nstepsLoop_run_succ, nstepsLoop_run_succ,
      andThen_assoc]
    congr 1
    funext c s1
    cases c with
    | false => simp
    | true =>
      simp only [if_true]
      rw [ih, andThen_assoc, andThen_assoc]
      congr 1
      funext r s2
      obtain ⟨o, c⟩ := r
      cases c with
      | true => simp
      | false =>
        simp only [Bool.false_eq_true, if_false, andThen_ok]
        rw [andThen_assoc]
        simp

theorem nskipLoop_eq (S : Solver α n k X) (b : Bound α) (m : Nat) (s : St α n k X) :
    (S.nskipLoop b m).run s = andThen ((S.nstepsLoop b m).run s) fun r s1 =>
      some (.ok r.2, s1) := by
  induction m generalizing s with
  | zero => simp [nskipLoop, nstepsLoop]
  | succ m ih =>
    rw [nskipLoop_run_succ, nstepsLoop_run_succ, andThen_assoc]
    congr 1
    funext c s1
    cases c with
    | false => simp
    | true => simp only [if_true]; rw [ih, andThen_assoc]; rfl

theorem skipLoop_eq (S : Solver α n k X) (b : Bound α) (s : St α n k X) :
    (S.skipLoop b).run s = effect ((S.stepsLoop b).run s) := by
  cases h : (S.stepsLoop b).run s with
  | some r =>
    obtain ⟨r, s'⟩ := r
    cases r with
    | error e =>
      rw [stepsLoop_error] at h
      rw [skipLoop_error.mpr h]
      rfl
    | ok out =>
      rw [stepsLoop_ok] at h
      obtain ⟨l, hp, _, hn⟩ := h
      rw [skipLoop_ok.mpr ⟨l, hp, hn⟩]
      rfl
  | none =>
    cases h' : (S.skipLoop b).run s with
    | none => rfl
    | some r =>
      obtain ⟨r, s'⟩ := r
      cases r with
      | error e =>
        rw [skipLoop_error] at h'
        rw [stepsLoop_error.mpr h'] at h
        simp at h
      | ok u =>
        rw [skipLoop_ok] at h'
        obtain ⟨l, hp, hn⟩ := h'
        rw [stepsLoop_ok.mpr ⟨l, hp, rfl, hn⟩] at h
        simp at h

theorem effect_andThen {σ A B : Type} (x : Option (Except Err A × σ))
    (f : A → σ → Option (Except Err B × σ)) :
    effect (andThen x f) = andThen x fun a s => effect (f a s) := by
  rcases x with _ | ⟨_ | _, _⟩ <;> rfl

/-- `step(upto_t=u)` from a solver not past `u`, with `u` within the bound. -/
theorem step_upto_run (S : Solver α n k X) (u : Bound α) (s : St α n k X) (hp : ¬ Past u s)
    (hb : ¬ Beyond u S.tBound) :
    (S.step none (some u)).run s = andThen ((S.stepsLoop u).run s) fun o s' =>
      some (.ok (.arrays o), s') := by
  have hp' : ¬ inPast (some u) s = true := by rw [inPast_iff]; exact hp
  have hb' : ¬ u.gt S.tBound = true := by rw [gt_iff]; exact hb
  unfold step checkTime
  simp only [run_bind, run_get, andThen_ok, run_ite, hp', hb', if_false, Bool.false_eq_true,
    run_pure]

theorem step_n_upto_run (S : Solver α n k X) (m : Nat) (u : Bound α) (s : St α n k X)
    (hp : ¬ Past u s) (hb : ¬ Beyond u S.tBound) :
    (S.step (some (m : Int)) (some u)).run s = andThen ((S.nstepsLoop u m).run s) fun r s' =>
      some (.ok (.arrays r.1), s') := by
  have hp' : ¬ inPast (some u) s = true := by rw [inPast_iff]; exact hp
  have hb' : ¬ u.gt S.tBound = true := by rw [gt_iff]; exact hb
  unfold step checkTime nsteps
  simp only [run_bind, run_get, andThen_ok, run_ite, hp', hb', if_false, Bool.false_eq_true,
    run_pure, Int.toNat_natCast]
  rw [if_neg (by omega)]

theorem step_none_run (S : Solver α n k X) (s : St α n k X) :
    (S.step none none).run s = andThen ((S.pstep S.tBound).run s) fun c s' =>
      if c then some (.ok (.single s'.t (.row (Buffer.iLast k))), s')
      else some (.ok .none, s') := by
  unfold step
  simp [run_ite, inPast]

end Nbkode
