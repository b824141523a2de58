import Verif.Proofs.PyLemmas
import Verif.Spec.Stepping

/-! Running the stepping loops, and their relation to paths. -/

set_option autoImplicit false
set_option linter.unusedSectionVars false

namespace Nbkode
open Py Spec

variable {α : Type}
variable [Add α] [Sub α] [Mul α] [Div α] [Neg α] [Zero α] [One α] [NatCast α] [BEq α]
variable [LT α] [DecidableLT α] [LE α] [DecidableLE α]
variable {n k : Nat} {X : Type}

namespace Solver

omit [Sub α] [Mul α] [Div α] [Neg α] [Zero α] [One α] [NatCast α] [BEq α] [LE α] [DecidableLE α]

omit [Add α] in
theorem notBeyond_iff (b : Bound α) (t : α) : NotBeyond b t ↔ b.exceededBy t = false := by
  cases b <;> simp [NotBeyond, Bound.exceededBy]

theorem pstep_run (S : Solver α n k X) (b : Bound α) (s : St α n k X) :
    (S.pstep b).run s =
      if b.exceededBy (s.cache.t + s.h) then some (.ok false, s)
      else andThen ((S.method.body S.rhs).run s) (fun _ s' => some (.ok true, s')) := by
  unfold pstep
  simp only [run_bind, run_get, andThen_ok, run_ite, run_pure]

theorem pstep_false {S : Solver α n k X} {b : Bound α} {s s' : St α n k X} :
    (S.pstep b).run s = some (.ok false, s') ↔ (¬ Fits b s ∧ s' = s) := by
  rw [pstep_run]
  simp only [Fits, St.t, notBeyond_iff]
  split
  · rename_i h; simp [h, eq_comm]
  · rename_i h
    simp only [Bool.not_eq_true] at h
    simp [h, andThen_eq_some]

theorem pstep_true {S : Solver α n k X} {b : Bound α} {s s' : St α n k X} :
    (S.pstep b).run s = some (.ok true, s') ↔ (Fits b s ∧ Takes S s s') := by
  rw [pstep_run]
  simp only [Fits, Takes, St.t, notBeyond_iff]
  split
  · rename_i h; simp [h]
  · rename_i h
    simp only [Bool.not_eq_true] at h
    simp only [andThen_eq_some, h, true_and]
    constructor
    · rintro (⟨e, s1, _, h2⟩ | ⟨a, s1, h1, h2⟩)
      · simp at h2
      · simp only [Option.some.injEq, Prod.mk.injEq, true_and] at h2
        subst h2; exact h1
    · intro h; exact Or.inr ⟨_, _, h, rfl⟩

theorem pstep_error {S : Solver α n k X} {b : Bound α} {s s' : St α n k X} {e : Err} :
    (S.pstep b).run s = some (.error e, s') ↔
      (Fits b s ∧ (S.method.body S.rhs).run s = some (.error e, s')) := by
  rw [pstep_run]
  simp only [Fits, St.t, notBeyond_iff]
  split
  · rename_i h; simp [h]
  · rename_i h
    simp only [Bool.not_eq_true] at h
    simp only [andThen_eq_some, h, true_and]
    constructor
    · rintro (⟨e', s1, h1, h2⟩ | ⟨a, s1, h1, h2⟩)
      · simp only [Prod.mk.injEq, Except.error.injEq] at h2
        obtain ⟨rfl, rfl⟩ := h2; exact h1
      · simp at h2
    · intro h; exact Or.inl ⟨_, _, h, rfl⟩

theorem stepsLoop_run (S : Solver α n k X) (b : Bound α) (s : St α n k X) :
    (S.stepsLoop b).run s = andThen ((S.pstep b).run s) fun c s1 =>
      if c then andThen ((S.stepsLoop b).run s1) fun rest s2 =>
        some (.ok ((s1.t, s1.y) :: rest), s2)
      else some (.ok [], s1) := by
  conv_lhs => rw [stepsLoop.eq_1]
  simp only [run_bind, run_ite, run_get, andThen_ok, run_pure]

theorem skipLoop_run (S : Solver α n k X) (b : Bound α) (s : St α n k X) :
    (S.skipLoop b).run s = andThen ((S.pstep b).run s) fun c s1 =>
      if c then (S.skipLoop b).run s1 else some (.ok (), s1) := by
  conv_lhs => rw [skipLoop.eq_1]
  simp only [run_bind, run_ite, run_pure]

theorem nstepsLoop_run_succ (S : Solver α n k X) (b : Bound α) (m : Nat) (s : St α n k X) :
    (S.nstepsLoop b (m + 1)).run s = andThen ((S.pstep b).run s) fun c s1 =>
      if c then andThen ((S.nstepsLoop b m).run s1) fun r s2 =>
        some (.ok ((s1.t, s1.y) :: r.1, r.2), s2)
      else some (.ok ([], true), s1) := by
  rw [nstepsLoop]
  simp only [run_bind, run_ite, run_get, andThen_ok, run_pure]
  congr 1
  funext c s1
  cases c <;> simp

theorem nskipLoop_run_succ (S : Solver α n k X) (b : Bound α) (m : Nat) (s : St α n k X) :
    (S.nskipLoop b (m + 1)).run s = andThen ((S.pstep b).run s) fun c s1 =>
      if c then (S.nskipLoop b m).run s1 else some (.ok true, s1) := by
  rw [nskipLoop]
  simp only [run_bind, run_ite, run_pure]
  congr 1
  funext c s1
  cases c <;> simp

/-! ### Paths -/

theorem takes_det {S : Solver α n k X} {s a b : St α n k X} (h1 : Takes S s a) (h2 : Takes S s b) :
    a = b := by
  unfold Takes at *
  rw [h1] at h2
  simpa using h2

theorem path_append {S : Solver α n k X} {b : Bound α} {s s1 s2 : St α n k X}
    {l1 l2 : List (St α n k X)} (h1 : Path S b s l1 s1) (h2 : Path S b s1 l2 s2) :
    Path S b s (l1 ++ l2) s2 := by
  induction h1 with
  | nil => exact h2
  | cons hf ht _ ih => exact .cons hf ht (ih h2)

theorem path_split {S : Solver α n k X} {b : Bound α} {s s2 : St α n k X}
    {l1 l2 : List (St α n k X)} (h : Path S b s (l1 ++ l2) s2) :
    ∃ s1, Path S b s l1 s1 ∧ Path S b s1 l2 s2 := by
  induction l1 generalizing s with
  | nil => exact ⟨s, .nil s, h⟩
  | cons a l1 ih =>
    cases h with
    | cons hf ht hp =>
      obtain ⟨s1, h1, h2⟩ := ih hp
      exact ⟨s1, .cons hf ht h1, h2⟩

/-- Paths are deterministic: one is a prefix of the other. -/
theorem path_det {S : Solver α n k X} {b : Bound α} {s s1 s2 : St α n k X}
    {l1 l2 : List (St α n k X)} (h1 : Path S b s l1 s1) (h2 : Path S b s l2 s2)
    (hl : l1.length ≤ l2.length) : ∃ l, l2 = l1 ++ l ∧ Path S b s1 l s2 := by
  induction h1 generalizing l2 s2 with
  | nil s => exact ⟨l2, rfl, h2⟩
  | cons hf ht _ ih =>
    cases h2 with
    | nil => simp at hl
    | cons hf' ht' hp' =>
      have := takes_det ht ht'
      subst this
      obtain ⟨l, rfl, hl'⟩ := ih hp' (by simpa using hl)
      exact ⟨l, rfl, hl'⟩

theorem path_det_eq {S : Solver α n k X} {b : Bound α} {s s1 s2 : St α n k X}
    {l1 l2 : List (St α n k X)} (h1 : Path S b s l1 s1) (h2 : Path S b s l2 s2)
    (hl : l1.length = l2.length) : l1 = l2 ∧ s1 = s2 := by
  obtain ⟨l, rfl, hp⟩ := path_det h1 h2 (by omega)
  have : l = [] := by
    rw [List.length_append] at hl
    exact List.length_eq_zero_iff.mp (by omega)
  subst this
  cases hp
  simp

/-- A path that cannot be continued is the longest. -/
theorem path_last {S : Solver α n k X} {b : Bound α} {s s' : St α n k X} {l : List (St α n k X)}
    (hp : Path S b s l s') (h : l ≠ []) : l.getLast h = s' := by
  induction hp with
  | nil => simp at h
  | @cons s s1 s2 l _ _ hp' ih =>
    cases l with
    | nil => cases hp'; rfl
    | cons a l => rw [List.getLast_cons (by simp)]; exact ih (by simp)

theorem path_maximal {S : Solver α n k X} {b : Bound α} {s s1 s2 : St α n k X}
    {l1 l2 : List (St α n k X)} (h1 : Path S b s l1 s1) (hn : ¬ Fits b s1)
    (h2 : Path S b s l2 s2) : ∃ l, l1 = l2 ++ l ∧ Path S b s2 l s1 := by
  by_cases hl : l2.length ≤ l1.length
  · exact path_det h2 h1 hl
  · obtain ⟨l, rfl, hp⟩ := path_det h1 h2 (by omega)
    cases hp with
    | nil => simp at hl
    | cons hf _ _ => exact absurd hf hn

/-! ### Loops as paths -/

theorem nstepsLoop_ok {S : Solver α n k X} {b : Bound α} {m : Nat} {s s' : St α n k X}
    {out : List (α × Vec α n)} {scon : Bool} :
    (S.nstepsLoop b m).run s = some (.ok (out, scon), s') ↔
      ∃ l, Path S b s l s' ∧ out = l.map record ∧
        ((scon = false ∧ l.length = m) ∨ (scon = true ∧ l.length < m ∧ ¬ Fits b s')) := by
  induction m generalizing s out with
  | zero =>
    simp only [nstepsLoop, run_pure, Option.some.injEq, Prod.mk.injEq, Except.ok.injEq]
    constructor
    · rintro ⟨⟨rfl, rfl⟩, rfl⟩
      exact ⟨[], .nil _, rfl, Or.inl ⟨rfl, rfl⟩⟩
    · rintro ⟨l, hp, rfl, ⟨rfl, hl⟩ | ⟨_, hl, _⟩⟩
      · have : l = [] := List.length_eq_zero_iff.mp hl
        subst this
        cases hp; simp
      · simp at hl
  | succ m ih =>
    rw [nstepsLoop_run_succ, andThen_eq_ok]
    constructor
    · rintro ⟨c, s1, hs, h⟩
      cases c with
      | false =>
        rw [pstep_false] at hs
        obtain ⟨hf, rfl⟩ := hs
        simp only [Bool.false_eq_true, if_false, Option.some.injEq, Prod.mk.injEq,
          Except.ok.injEq] at h
        obtain ⟨⟨rfl, rfl⟩, rfl⟩ := h
        exact ⟨[], .nil _, rfl, Or.inr ⟨rfl, by simp, hf⟩⟩
      | true =>
        rw [pstep_true] at hs
        simp only [if_true, andThen_eq_ok] at h
        obtain ⟨⟨out', scon'⟩, s2, hr, h⟩ := h
        simp only [Option.some.injEq, Prod.mk.injEq, Except.ok.injEq] at h
        obtain ⟨⟨rfl, rfl⟩, rfl⟩ := h
        obtain ⟨l, hp, rfl, hc⟩ := ih.mp hr
        refine ⟨s1 :: l, .cons hs.1 hs.2 hp, rfl, ?_⟩
        simpa using hc
    · rintro ⟨l, hp, rfl, hc⟩
      cases hp with
      | nil =>
        rcases hc with ⟨_, hl⟩ | ⟨rfl, _, hf⟩
        · simp at hl
        · exact ⟨false, _, pstep_false.mpr ⟨hf, rfl⟩, rfl⟩
      | @cons _ s1 _ l hf ht hp =>
        refine ⟨true, s1, pstep_true.mpr ⟨hf, ht⟩, ?_⟩
        simp only [if_true, andThen_eq_ok]
        exact ⟨(l.map record, scon), s', ih.mpr ⟨l, hp, rfl, by simpa using hc⟩, rfl⟩

theorem nstepsLoop_error {S : Solver α n k X} {b : Bound α} {m : Nat} {s s' : St α n k X}
    {e : Err} :
    (S.nstepsLoop b m).run s = some (.error e, s') ↔
      ∃ l s1, Path S b s l s1 ∧ l.length < m ∧ Fits b s1 ∧
        (S.method.body S.rhs).run s1 = some (.error e, s') := by
  induction m generalizing s with
  | zero => simp [nstepsLoop]
  | succ m ih =>
    rw [nstepsLoop_run_succ, andThen_eq_some]
    constructor
    · rintro (⟨e', s1, hs, h⟩ | ⟨c, s1, hs, h⟩)
      · simp only [Prod.mk.injEq, Except.error.injEq] at h
        obtain ⟨rfl, rfl⟩ := h
        rw [pstep_error] at hs
        exact ⟨[], s, .nil _, by simp, hs.1, hs.2⟩
      · cases c with
        | false => simp at h
        | true =>
          rw [pstep_true] at hs
          simp only [if_true, andThen_eq_some] at h
          rcases h with ⟨e', s2, h1, h2⟩ | ⟨_, _, _, h2⟩
          · simp only [Prod.mk.injEq, Except.error.injEq] at h2
            obtain ⟨rfl, rfl⟩ := h2
            obtain ⟨l, s3, hp, hl, hf, hb⟩ := ih.mp h1
            exact ⟨s1 :: l, s3, .cons hs.1 hs.2 hp, by simpa using hl, hf, hb⟩
          · simp at h2
    · rintro ⟨l, s1, hp, hl, hf, hb⟩
      cases hp with
      | nil => exact Or.inl ⟨e, s', pstep_error.mpr ⟨hf, hb⟩, rfl⟩
      | @cons _ s2 _ l hf' ht hp =>
        refine Or.inr ⟨true, s2, pstep_true.mpr ⟨hf', ht⟩, ?_⟩
        simp only [if_true, andThen_eq_some]
        exact Or.inl ⟨e, s', ih.mpr ⟨l, s1, hp, by simpa using hl, hf, hb⟩, rfl⟩

theorem nskipLoop_ok {S : Solver α n k X} {b : Bound α} {m : Nat} {s s' : St α n k X}
    {scon : Bool} :
    (S.nskipLoop b m).run s = some (.ok scon, s') ↔
      ∃ l, Path S b s l s' ∧
        ((scon = false ∧ l.length = m) ∨ (scon = true ∧ l.length < m ∧ ¬ Fits b s')) := by
  induction m generalizing s with
  | zero =>
    simp only [nskipLoop, run_pure, Option.some.injEq, Prod.mk.injEq, Except.ok.injEq]
    constructor
    · rintro ⟨rfl, rfl⟩
      exact ⟨[], .nil _, Or.inl ⟨rfl, rfl⟩⟩
    · rintro ⟨l, hp, ⟨rfl, hl⟩ | ⟨_, hl, _⟩⟩
      · have : l = [] := List.length_eq_zero_iff.mp hl
        subst this
        cases hp; simp
      · simp at hl
  | succ m ih =>
    rw [nskipLoop_run_succ, andThen_eq_ok]
    constructor
    · rintro ⟨c, s1, hs, h⟩
      cases c with
      | false =>
        rw [pstep_false] at hs
        obtain ⟨hf, rfl⟩ := hs
        simp only [Bool.false_eq_true, if_false, Option.some.injEq, Prod.mk.injEq,
          Except.ok.injEq] at h
        obtain ⟨rfl, rfl⟩ := h
        exact ⟨[], .nil _, Or.inr ⟨rfl, by simp, hf⟩⟩
      | true =>
        rw [pstep_true] at hs
        simp only [if_true] at h
        obtain ⟨l, hp, hc⟩ := ih.mp h
        refine ⟨s1 :: l, .cons hs.1 hs.2 hp, ?_⟩
        simpa using hc
    · rintro ⟨l, hp, hc⟩
      cases hp with
      | nil =>
        rcases hc with ⟨_, hl⟩ | ⟨rfl, _, hf⟩
        · simp at hl
        · exact ⟨false, _, pstep_false.mpr ⟨hf, rfl⟩, rfl⟩
      | @cons _ s1 _ l hf ht hp =>
        refine ⟨true, s1, pstep_true.mpr ⟨hf, ht⟩, ?_⟩
        simp only [if_true]
        exact ih.mpr ⟨l, hp, by simpa using hc⟩

theorem nskipLoop_error {S : Solver α n k X} {b : Bound α} {m : Nat} {s s' : St α n k X}
    {e : Err} :
    (S.nskipLoop b m).run s = some (.error e, s') ↔
      ∃ l s1, Path S b s l s1 ∧ l.length < m ∧ Fits b s1 ∧
        (S.method.body S.rhs).run s1 = some (.error e, s') := by
  induction m generalizing s with
  | zero => simp [nskipLoop]
  | succ m ih =>
    rw [nskipLoop_run_succ, andThen_eq_some]
    constructor
    · rintro (⟨e', s1, hs, h⟩ | ⟨c, s1, hs, h⟩)
      · simp only [Prod.mk.injEq, Except.error.injEq] at h
        obtain ⟨rfl, rfl⟩ := h
        rw [pstep_error] at hs
        exact ⟨[], s, .nil _, by simp, hs.1, hs.2⟩
      · cases c with
        | false => simp at h
        | true =>
          rw [pstep_true] at hs
          simp only [if_true] at h
          obtain ⟨l, s3, hp, hl, hf, hb⟩ := ih.mp h
          exact ⟨s1 :: l, s3, .cons hs.1 hs.2 hp, by simpa using hl, hf, hb⟩
    · rintro ⟨l, s1, hp, hl, hf, hb⟩
      cases hp with
      | nil => exact Or.inl ⟨e, s', pstep_error.mpr ⟨hf, hb⟩, rfl⟩
      | @cons _ s2 _ l hf' ht hp =>
        refine Or.inr ⟨true, s2, pstep_true.mpr ⟨hf', ht⟩, ?_⟩
        simp only [if_true]
        exact ih.mpr ⟨l, s1, hp, by simpa using hl, hf, hb⟩

/-- The postcondition of the two `while` loops. -/
def LoopPost (S : Solver α n k X) (b : Bound α) {A : Type} (out : List (St α n k X) → A)
    (s : St α n k X) (r : Except Err A) (s' : St α n k X) : Prop :=
  match r with
  | .ok a => ∃ l, Path S b s l s' ∧ a = out l ∧ ¬ Fits b s'
  | .error e => ∃ l s1, Path S b s l s1 ∧ Fits b s1 ∧
        (S.method.body S.rhs).run s1 = some (.error e, s')

theorem stepsLoop_post (S : Solver α n k X) (b : Bound α) :
    ∀ s r s', (S.stepsLoop b).run s = some (r, s') → LoopPost S b (List.map record) s r s' := by
  refine stepsLoop.fixpoint_induct S b
    (fun x => ∀ s r s', x.run s = some (r, s') → LoopPost S b (List.map record) s r s')
    (admissible_post _) ?_
  intro loop ih s r s' h
  simp only [run_bind, run_ite, run_get, andThen_ok, run_pure] at h
  rw [andThen_eq_some] at h
  rcases h with ⟨e, s1, h1, h2⟩ | ⟨c, s1, h1, h2⟩
  · cases h2
    rw [pstep_error] at h1
    exact ⟨[], s, .nil _, h1.1, h1.2⟩
  · cases c with
    | false =>
      rw [pstep_false] at h1
      obtain ⟨hf, rfl⟩ := h1
      simp only [Bool.false_eq_true, if_false, Option.some.injEq, Prod.mk.injEq] at h2
      obtain ⟨rfl, rfl⟩ := h2
      exact ⟨[], .nil _, rfl, hf⟩
    | true =>
      rw [pstep_true] at h1
      simp only [if_true, andThen_eq_some] at h2
      rcases h2 with ⟨e, s2, h2, h3⟩ | ⟨out, s2, h2, h3⟩
      · cases h3
        obtain ⟨l, s3, hp, hf, hb⟩ := ih _ _ _ h2
        exact ⟨s1 :: l, s3, .cons h1.1 h1.2 hp, hf, hb⟩
      · simp only [Option.some.injEq, Prod.mk.injEq] at h3
        obtain ⟨rfl, rfl⟩ := h3
        obtain ⟨l, hp, rfl, hn⟩ := ih _ _ _ h2
        exact ⟨s1 :: l, .cons h1.1 h1.2 hp, rfl, hn⟩

theorem skipLoop_post (S : Solver α n k X) (b : Bound α) :
    ∀ s r s', (S.skipLoop b).run s = some (r, s') → LoopPost S b (fun _ => ()) s r s' := by
  refine skipLoop.fixpoint_induct S b
    (fun x => ∀ s r s', x.run s = some (r, s') → LoopPost S b (fun _ => ()) s r s')
    (admissible_post _) ?_
  intro loop ih s r s' h
  simp only [run_bind, run_ite, run_pure] at h
  rw [andThen_eq_some] at h
  rcases h with ⟨e, s1, h1, h2⟩ | ⟨c, s1, h1, h2⟩
  · cases h2
    rw [pstep_error] at h1
    exact ⟨[], s, .nil _, h1.1, h1.2⟩
  · cases c with
    | false =>
      rw [pstep_false] at h1
      obtain ⟨hf, rfl⟩ := h1
      simp only [Bool.false_eq_true, if_false, Option.some.injEq, Prod.mk.injEq] at h2
      obtain ⟨rfl, rfl⟩ := h2
      exact ⟨[], .nil _, rfl, hf⟩
    | true =>
      rw [pstep_true] at h1
      simp only [if_true] at h2
      have := ih _ _ _ h2
      cases r with
      | ok a =>
        obtain ⟨l, hp, ha, hn⟩ := this
        exact ⟨s1 :: l, .cons h1.1 h1.2 hp, ha, hn⟩
      | error e =>
        obtain ⟨l, s3, hp, hf, hb⟩ := this
        exact ⟨s1 :: l, s3, .cons h1.1 h1.2 hp, hf, hb⟩

theorem stepsLoop_of_path {S : Solver α n k X} {b : Bound α} {s s1 : St α n k X}
    {l : List (St α n k X)} (hp : Path S b s l s1) :
    (S.stepsLoop b).run s = andThen ((S.stepsLoop b).run s1) fun out s2 =>
      some (.ok (l.map record ++ out), s2) := by
  induction hp with
  | nil s =>
    rcases (S.stepsLoop b).run s with _ | ⟨_ | _, _⟩ <;> rfl
  | @cons s s1 s2 l hf ht hp ih =>
    rw [stepsLoop_run, pstep_true.mpr ⟨hf, ht⟩]
    simp only [andThen_ok, if_true]
    rw [ih, andThen_assoc]
    rfl

theorem skipLoop_of_path {S : Solver α n k X} {b : Bound α} {s s1 : St α n k X}
    {l : List (St α n k X)} (hp : Path S b s l s1) :
    (S.skipLoop b).run s = (S.skipLoop b).run s1 := by
  induction hp with
  | nil s => rfl
  | @cons s s1 s2 l hf ht hp ih =>
    rw [skipLoop_run, pstep_true.mpr ⟨hf, ht⟩]
    simpa only [andThen_ok, if_true] using ih

theorem stepsLoop_ok {S : Solver α n k X} {b : Bound α} {s s' : St α n k X}
    {out : List (α × Vec α n)} :
    (S.stepsLoop b).run s = some (.ok out, s') ↔
      ∃ l, Path S b s l s' ∧ out = l.map record ∧ ¬ Fits b s' := by
  constructor
  · exact stepsLoop_post S b _ _ _
  · rintro ⟨l, hp, rfl, hn⟩
    rw [stepsLoop_of_path hp, stepsLoop_run, pstep_false.mpr ⟨hn, rfl⟩]
    simp

theorem stepsLoop_error {S : Solver α n k X} {b : Bound α} {s s' : St α n k X} {e : Err} :
    (S.stepsLoop b).run s = some (.error e, s') ↔
      ∃ l s1, Path S b s l s1 ∧ Fits b s1 ∧
        (S.method.body S.rhs).run s1 = some (.error e, s') := by
  constructor
  · exact stepsLoop_post S b _ _ _
  · rintro ⟨l, s1, hp, hf, hb⟩
    rw [stepsLoop_of_path hp, stepsLoop_run, pstep_error.mpr ⟨hf, hb⟩]
    simp

theorem skipLoop_ok {S : Solver α n k X} {b : Bound α} {s s' : St α n k X} :
    (S.skipLoop b).run s = some (.ok (), s') ↔ ∃ l, Path S b s l s' ∧ ¬ Fits b s' := by
  constructor
  · intro h
    obtain ⟨l, hp, _, hn⟩ := skipLoop_post S b _ _ _ h
    exact ⟨l, hp, hn⟩
  · rintro ⟨l, hp, hn⟩
    rw [skipLoop_of_path hp, skipLoop_run, pstep_false.mpr ⟨hn, rfl⟩]
    simp

theorem skipLoop_error {S : Solver α n k X} {b : Bound α} {s s' : St α n k X} {e : Err} :
    (S.skipLoop b).run s = some (.error e, s') ↔
      ∃ l s1, Path S b s l s1 ∧ Fits b s1 ∧
        (S.method.body S.rhs).run s1 = some (.error e, s') := by
  constructor
  · exact skipLoop_post S b _ _ _
  · rintro ⟨l, s1, hp, hf, hb⟩
    rw [skipLoop_of_path hp, skipLoop_run, pstep_error.mpr ⟨hf, hb⟩]
    simp

end Solver
end Nbkode
