import Verif.Model.Construct
import Verif.Proofs.History

/-! Lemmas on buffers and constructors. -/

set_option autoImplicit false
set_option linter.unusedSectionVars false

namespace Nbkode
open Py Spec Solver

section buffer
variable {α A : Type} {n k : Nat}

/-- Reading a slot after one push. -/
theorem shiftIn_last (a : Fin (k + 2) → A) (x : A) : shiftIn a x (Buffer.iLast k) = x := by
  simp [shiftIn, Buffer.iLast]

theorem shiftIn_lt (a : Fin (k + 2) → A) (x : A) (i : Fin (k + 2)) (h : i.val + 1 < k + 2) :
    shiftIn a x i = a ⟨i.val + 1, h⟩ := by
  simp [shiftIn, h]

/-- Pushing a list of values, one after the other, onto one of the arrays. -/
def shiftAll (a : Fin (k + 2) → A) (l : List A) : Fin (k + 2) → A := l.foldl shiftIn a

/-- The window of a log: slot `i` is entry `length - (k + 2) + i`. -/
theorem shiftAll_window (a : Fin (k + 2) → A) (l : List A) (i : Fin (k + 2)) :
    some (shiftAll a l i) = (List.ofFn a ++ l)[l.length + i.val]? := by
  induction l generalizing a i with
  | nil =>
    have := i.isLt
    simp only [shiftAll, List.foldl_nil, List.append_nil, List.length_nil, Nat.zero_add]
    rw [List.getElem?_ofFn, dif_pos i.isLt]
  | cons x l ih =>
    show some (shiftAll (shiftIn a x) l i) = _
    rw [ih]
    have hi := i.isLt
    by_cases h : l.length + i.val < k + 2
    · rw [List.getElem?_append_left (by rw [List.length_ofFn]; exact h), List.getElem?_ofFn,
        dif_pos h]
      simp only [List.length_cons]
      by_cases h2 : l.length + 1 + i.val < k + 2
      · rw [List.getElem?_append_left (by rw [List.length_ofFn]; exact h2), List.getElem?_ofFn,
          dif_pos h2]
        have h3 : l.length + i.val + 1 < k + 2 := by omega
        unfold shiftIn
        rw [dif_pos h3]
        simp only [show l.length + i.val + 1 = l.length + 1 + i.val by omega]
      · rw [List.getElem?_append_right (by rw [List.length_ofFn]; omega)]
        have e : l.length + 1 + i.val - (List.ofFn a).length = 0 := by
          rw [List.length_ofFn]; omega
        rw [e]
        unfold shiftIn
        rw [dif_neg (show ¬ (l.length + i.val + 1 < k + 2) by omega)]
        rfl
    · rw [List.getElem?_append_right (by rw [List.length_ofFn]; omega),
        List.getElem?_append_right (by rw [List.length_ofFn, List.length_cons]; omega)]
      simp only [List.length_ofFn, List.length_cons]
      rw [show l.length + 1 + i.val - (k + 2) = (l.length + i.val - (k + 2)) + 1 by omega]
      rfl

/-- Pushing a list of triples. -/
def pushList (b : Buffer α n k) (l : List (α × Vec α n × Vec α n)) : Buffer α n k :=
  l.foldl (fun b p => b.push p.1 p.2.1 p.2.2) b

theorem pushList_ts (b : Buffer α n k) (l : List (α × Vec α n × Vec α n)) :
    (pushList b l).ts = shiftAll b.ts (l.map fun p => p.1) := by
  induction l generalizing b with
  | nil => rfl
  | cons p l ih => exact ih _

theorem pushList_ys (b : Buffer α n k) (l : List (α × Vec α n × Vec α n)) :
    (pushList b l).ys = shiftAll b.ys (l.map fun p => p.2.1) := by
  induction l generalizing b with
  | nil => rfl
  | cons p l ih => exact ih _

theorem pushList_fs (b : Buffer α n k) (l : List (α × Vec α n × Vec α n)) :
    (pushList b l).fs = shiftAll b.fs (l.map fun p => p.2.2) := by
  induction l generalizing b with
  | nil => rfl
  | cons p l ih => exact ih _

theorem pushList_append (b : Buffer α n k) (l l' : List (α × Vec α n × Vec α n)) :
    pushList b (l ++ l') = pushList (pushList b l) l' := by
  simp [pushList]

theorem pushN_eq_pushList (b : Buffer α n k) (t : α) (y f : Vec α n) (m : Nat) :
    b.pushN t y f m = pushList b (List.replicate m (t, y, f)) := by
  induction m with
  | zero => rfl
  | succ m ih =>
    rw [List.replicate_succ', pushList_append, ← ih]
    rfl

theorem shiftAll_replicate (a : Fin (k + 2) → A) (x : A) (i : Fin (k + 2)) :
    shiftAll a (List.replicate (k + 2) x) i = x := by
  have h := shiftAll_window a (List.replicate (k + 2) x) i
  rw [List.getElem?_append_right (by simp)] at h
  have := i.isLt
  rw [List.length_replicate, List.length_ofFn, Nat.add_sub_cancel_left,
    List.getElem?_replicate, if_pos this] at h
  exact Option.some.inj h

theorem init_ts (g : Buffer α n k) (t : α) (y f : Vec α n) (i : Fin (k + 2)) :
    (Buffer.init g t y f).ts i = t := by
  unfold Buffer.init
  rw [pushN_eq_pushList, pushList_ts, List.map_replicate, shiftAll_replicate]

theorem init_ys (g : Buffer α n k) (t : α) (y f : Vec α n) (i : Fin (k + 2)) :
    (Buffer.init g t y f).ys i = y := by
  unfold Buffer.init
  rw [pushN_eq_pushList, pushList_ys, List.map_replicate, shiftAll_replicate]

theorem init_fs (g : Buffer α n k) (t : α) (y f : Vec α n) (i : Fin (k + 2)) :
    (Buffer.init g t y f).fs i = f := by
  unfold Buffer.init
  rw [pushN_eq_pushList, pushList_fs, List.map_replicate, shiftAll_replicate]

end buffer

variable {α : Type}
variable [Add α] [Sub α] [Mul α] [Div α] [Neg α] [Zero α] [One α] [NatCast α] [BEq α]
variable [LT α] [DecidableLT α] [LE α] [DecidableLE α]
variable {n k : Nat} {X : Type}

theorem solverInit_ok {g : Buffer α n k} {aux : X} {rhs : Rhs α n} {t0 : α} {y0 : Vec α n}
    {h : Option α} {s : St α n k X} (hs : solverInit g aux rhs t0 y0 h = .ok s) :
    ∃ f0, rhs t0 y0 = .ok f0 ∧ s.cache = Buffer.init g t0 y0 f0 ∧ s.h = h.getD 1 ∧ s.aux = aux := by
  unfold solverInit at hs
  cases hf : rhs t0 y0 with
  | error e => rw [hf] at hs; simp [bind, Except.bind] at hs
  | ok f0 =>
    rw [hf] at hs
    simp only [bind, Except.bind, pure, Except.pure, Except.ok.injEq] at hs
    subst hs
    exact ⟨f0, rfl, rfl, rfl, rfl⟩

theorem variableInit_ok {o : VarOptions α}
    {sel : Rhs α n → α → Vec α n → Vec α n → Except Err α} {g : Buffer α n k} {aux : X}
    {rhs : Rhs α n} {t0 : α} {y0 : Vec α n} {h first : Option α} {s : St α n k X}
    (hs : variableInit o sel g aux rhs t0 y0 h first = .ok s) :
    ∃ s0, solverInit g aux rhs t0 y0 h = .ok s0 ∧ s.cache = s0.cache ∧ s.aux = s0.aux ∧
      (∀ h', first = some h' → s.h = h') ∧
      (first = none → sel rhs s0.t s0.y s0.f = .ok s.h) := by
  unfold variableInit at hs
  cases h0 : solverInit g aux rhs t0 y0 h with
  | error e => rw [h0] at hs; simp [bind, Except.bind] at hs
  | ok s0 =>
    rw [h0] at hs
    refine ⟨s0, rfl, ?_⟩
    have key : ∀ c1 c2 : Bool, (do
        if c1 then throw Err.valueError
        if c2 then throw Err.valueError
        let h' ← match first with
          | some h => pure h
          | none => sel rhs s0.t s0.y s0.f
        return { s0 with h := h' } : Except Err (St α n k X)) = .ok s →
        s.cache = s0.cache ∧ s.aux = s0.aux ∧ (∀ h', first = some h' → s.h = h') ∧
        (first = none → sel rhs s0.t s0.y s0.f = .ok s.h) := by
      intro c1 c2 hs
      cases c1 with
      | true => exact absurd hs (by simp [bind, Except.bind, throw, throwThe, MonadExceptOf.throw])
      | false =>
        cases c2 with
        | true =>
          exact absurd hs (by simp [bind, Except.bind, throw, throwThe, MonadExceptOf.throw, pure, Except.pure])
        | false =>
          cases first with
          | some h' =>
            simp [bind, Except.bind, pure, Except.pure] at hs
            subst hs
            exact ⟨rfl, rfl, fun _ h => (by cases h; rfl), fun h => by simp at h⟩
          | none =>
            simp only [bind, Except.bind, pure, Except.pure] at hs
            cases hsel : sel rhs s0.t s0.y s0.f with
            | error e => rw [hsel] at hs; simp at hs
            | ok h1 =>
              rw [hsel] at hs
              simp at hs
              subst hs
              exact ⟨rfl, rfl, fun _ h => by simp at h, fun _ => rfl⟩
    refine key (!(match o.maxStep with
      | .fin m => decide (0 < m)
      | .inf => true)) (decide (o.atol < 0)) ?_
    rw [← hs]
    simp only [bind, Except.bind, decide_eq_true_eq]
    rfl

theorem fsalInit_ok {s d : Nat} {P : Fin (s + 2) → Fin d → α} {o : VarOptions α}
    {sel : Rhs α n → α → Vec α n → Vec α n → Except Err α} {g : Buffer α n 0}
    {K : Fin (s + 2) → Vec α n} {itp : RkItp α n d} {rhs : Rhs α n} {t0 : α} {y0 : Vec α n}
    {h first : Option α} {st : St α n 0 (FsalAux α n s (RkItp α n d))}
    (hs : fsalInit P o sel g K itp rhs t0 y0 h first = .ok st) :
    ∃ s0, variableInit o sel g (⟨K, itp⟩ : FsalAux α n s (RkItp α n d)) rhs t0 y0 h first = .ok s0 ∧ st.cache = s0.cache ∧
      st.h = s0.h ∧ st.aux.K = K := by
  unfold fsalInit at hs
  cases h0 : variableInit (X := FsalAux α n s (RkItp α n d)) o sel g ⟨K, itp⟩ rhs t0 y0 h first with
  | error e => rw [h0] at hs; simp [bind, Except.bind] at hs
  | ok s0 =>
    rw [h0] at hs
    simp only [bind, Except.bind, rkUpdate, run_modify, pure, Except.pure, Except.ok.injEq] at hs
    subst hs
    obtain ⟨s1, h1, h2, h3, _⟩ := variableInit_ok h0
    obtain ⟨_, _, _, _, h4⟩ := solverInit_ok h1
    refine ⟨s0, rfl, rfl, rfl, ?_⟩
    show s0.aux.K = K
    rw [h3, h4]

theorem dopInit_ok {d : DopDense α} {o : VarOptions α}
    {sel : Rhs α n → α → Vec α n → Vec α n → Except Err α} {g : Buffer α n 0}
    {K : Fin 13 → Vec α n} {itp : DopItp α n} {rhs : Rhs α n} {t0 : α} {y0 : Vec α n}
    {h first : Option α} {st : St α n 0 (FsalAux α n 11 (DopItp α n))}
    (hs : dopInit d o sel g K itp rhs t0 y0 h first = .ok st) :
    ∃ s0, variableInit o sel g (⟨K, itp⟩ : FsalAux α n 11 (DopItp α n)) rhs t0 y0 h first = .ok s0 ∧ st.cache = s0.cache ∧
      st.h = s0.h := by
  unfold dopInit at hs
  cases h0 : variableInit (X := FsalAux α n 11 (DopItp α n)) o sel g ⟨K, itp⟩ rhs t0 y0 h first with
  | error e => rw [h0] at hs; simp [bind, Except.bind] at hs
  | ok s0 =>
    rw [h0] at hs
    simp only [bind, Except.bind] at hs
    split at hs
    · rename_i h1
      simp only [pure, Except.pure, Except.ok.injEq] at hs
      subst hs
      obtain ⟨h2, h3, _⟩ := dopUpdate_state _ _ _ _ _ h1
      exact ⟨s0, rfl, h2, h3⟩
    · simp [throw, throwThe, MonadExceptOf.throw] at hs
    · simp only [pure, Except.pure, Except.ok.injEq] at hs
      subst hs
      exact ⟨s0, rfl, rfl, rfl⟩

end Nbkode
