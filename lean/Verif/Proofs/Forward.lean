import Verif.Proofs.RunSorted
import Verif.Proofs.Construct

/-! Solvers that never step back in time. -/

set_option autoImplicit false
set_option linter.unusedSectionVars false

namespace Nbkode
open Py Spec Solver

variable {α : Type} [LinearOrder α]
variable [Add α] [Sub α] [Mul α] [Div α] [Neg α] [Zero α] [One α] [NatCast α] [BEq α]
variable {n k : Nat} {X : Type}

/-- A solver of the library whose time does not decrease in a step and whose step size stays positive. -/
structure Forward (S : Solver α n k X) : Prop where
  library : IsLibrary S.method
  step : ∀ s s', 0 < s.h → Takes S s s' → s.t ≤ s'.t ∧ 0 < s'.h

theorem runEval_cut {S : Solver α n k X} {b : Bound α} {ts : List α} {s s' : St α n k X}
    {out : List (α × Vec α n)} (h : (S.runEval b ts).run s = some (.ok out, s'))
    (hc : out.length < ts.length) : s'.t < ts[out.length] ∧ ¬ Fits b s' := by
  induction ts generalizing s out with
  | nil => simp at hc
  | cons ti rest ih =>
    rw [runEval_cons, andThen_eq_ok] at h
    obtain ⟨c, s1, h1, h2⟩ := h
    cases c with
    | false =>
      simp at h2
      obtain ⟨rfl, rfl⟩ := h2
      exact stuck_end (advance_false.mp h1)
    | true =>
      simp only [if_true] at h2
      rw [andThen_eq_ok] at h2
      obtain ⟨r, s2, h3, h4⟩ := h2
      rw [andThen_eq_ok] at h4
      obtain ⟨out', s3, h5, h6⟩ := h4
      cases h6
      simp only [List.length_cons, Nat.add_lt_add_iff_right] at hc
      simpa using ih h5 hc

/-- History in order, positive step, oldest time not after `u`. -/
def Ready (u : α) (s : St α n k X) : Prop :=
  Ordered s ∧ 0 < s.h ∧ s.cache.ts (Buffer.iOld k) ≤ u

theorem shiftIn_end {A : Type} {k : Nat} (a : Fin (k + 2) → A) (x : A) (i : Fin (k + 2)) (h : ¬ i.val + 1 < k + 2) :
    shiftIn a x i = x := by
  unfold shiftIn; rw [dif_neg h]

theorem ordered_step {S : Solver α n k X} (hM : Forward S) {s s' : St α n k X}
    (ho : Ordered s) (hh : 0 < s.h) (ht : Takes S s s') : Ordered s' := by
  obtain ⟨t, y, f, e, -⟩ := hM.library.shaped.body_ok _ _ _ ht
  obtain ⟨h1, -⟩ := hM.step s s' hh ht
  have ht' : s'.t = t := by unfold St.t; rw [e, push_t]
  rw [ht'] at h1
  intro i j hij
  rw [e]
  show shiftIn s.cache.ts t i ≤ shiftIn s.cache.ts t j
  have hmax : ∀ i, s.cache.ts i ≤ t := fun i => (ho i (Buffer.iLast k) (by
    rw [Fin.le_def]; have := i.isLt; simp only [Buffer.iLast]; omega)).trans h1
  by_cases hj : j.val + 1 < k + 2
  · have hi : i.val + 1 < k + 2 := by rw [Fin.le_def] at hij; omega
    rw [shiftIn_lt _ _ _ hi, shiftIn_lt _ _ _ hj]
    exact ho _ _ (by rw [Fin.le_def] at hij ⊢; simp only; omega)
  · rw [shiftIn_end _ _ _ hj]
    by_cases hi : i.val + 1 < k + 2
    · rw [shiftIn_lt _ _ _ hi]; exact hmax _
    · rw [shiftIn_end _ _ _ hi]

theorem ready_step {S : Solver α n k X} (hM : Forward S) {u : α} {s s' : St α n k X}
    (hr : Ready u s) (hu : s.t < u) (ht : Takes S s s') : Ready u s' := by
  obtain ⟨ho, hh, -⟩ := hr
  obtain ⟨t, y, f, e, -⟩ := hM.library.shaped.body_ok _ _ _ ht
  refine ⟨ordered_step hM ho hh ht, (hM.step s s' hh ht).2, ?_⟩
  rw [e]
  show shiftIn s.cache.ts t (Buffer.iOld k) ≤ u
  rw [shiftIn_lt _ _ _ (by simp [Buffer.iOld])]
  refine le_trans (ho _ (Buffer.iLast k) ?_) hu.le
  rw [Fin.le_def]; simp [Buffer.iOld, Buffer.iLast]

theorem ready_advance {S : Solver α n k X} (hM : Forward S) {u ti : α} {b : Bound α}
    (hu : ti ≤ u) {s s' : St α n k X} (hr : Ready u s) {c : Bool}
    (h : (S.advance b ti).run s = some (.ok c, s')) : Ready u s' := by
  cases c with
  | true =>
    have h := advance_true.mp h
    induction h with
    | here _ => exact hr
    | step hlt _ ht _ ih => exact ih (ready_step hM hr (lt_of_lt_of_le hlt hu) ht) (advance_true.mpr ‹_›)
  | false =>
    have h := advance_false.mp h
    induction h with
    | here _ => exact hr
    | step hlt _ ht _ ih => exact ih (ready_step hM hr (lt_of_lt_of_le hlt hu) ht) (advance_false.mpr ‹_›)

theorem ready_runEval {S : Solver α n k X} (hM : Forward S) {u : α} {b : Bound α}
    {ts : List α} (hu : ∀ x ∈ ts, x ≤ u) {s s' : St α n k X} (hr : Ready u s)
    {out : List (α × Vec α n)} (h : (S.runEval b ts).run s = some (.ok out, s')) : Ready u s' := by
  induction ts generalizing s out with
  | nil => rw [runEval] at h; cases h; exact hr
  | cons ti rest ih =>
    rw [runEval_cons, andThen_eq_ok] at h
    obtain ⟨c, s1, h1, h2⟩ := h
    have hr1 := ready_advance hM (hu ti List.mem_cons_self) hr h1
    cases c with
    | false => simp at h2; rw [← h2.2]; exact hr1
    | true =>
      simp only [if_true] at h2
      rw [andThen_eq_ok] at h2
      obtain ⟨r, s2, h3, h4⟩ := h2
      rw [andThen_eq_ok] at h4
      obtain ⟨out', s3, h5, h6⟩ := h4
      cases h6
      obtain ⟨e1, e2⟩ := hM.library.shaped.interp _ _ _ _ _ h3
      refine ih (fun x hx => hu x (List.mem_cons_of_mem _ hx)) ?_ h5
      unfold Ready Ordered at *
      rw [e1, e2]
      exact hr1

theorem run_append (S : Solver α n k X) (hM : Forward S) (bo : BisectOpts α)
    (argsort : List α → List Nat) (hA : ∀ l, IsArgsort l (argsort l)) (a b : List α)
    (hne : a ≠ []) (hneb : b ≠ []) (hs : (a ++ b).Pairwise (· ≤ ·))
    (s : St α n k X) (ho : Ordered s) (hh : 0 < s.h) (hr : InRange S s (a ++ b)) :
    (S.run bo argsort (a ++ b)).run s =
      andThen ((S.run bo argsort a).run s) fun oa s1 =>
        andThen ((S.run bo argsort b).run s1) fun ob s2 => some (.ok (oa ++ ob), s2) := by
  obtain ⟨hsa, hsb, hab⟩ := List.pairwise_append.mp hs
  have e : ∀ l : List α, l.Pairwise (· ≤ ·) → sortedTimes argsort l = l := fun l hl => by
    unfold sortedTimes; rw [if_pos ((isSorted_iff l).mpr hl)]
  have run1 : ∀ (l : List α) (s : St α n k X), l ≠ [] → l.Pairwise (· ≤ ·) → InRange S s l →
      (S.run bo argsort l).run s = (S.runEval S.tBound l).run s := by
    intro l s h1 h2 h3
    rw [run_eq hM.library.shaped bo hA h1 h3, e l h2]
    simp only [(isSorted_iff l).mpr h2, if_true]
    rcases (S.runEval S.tBound l).run s with _ | ⟨_ | o, s1⟩ <;> rfl
  rw [run1 _ s (by simp [hne]) hs hr,
    run1 a s hne hsa (fun x hx => hr x (List.mem_append_left _ hx)), runEval_append]
  rcases h1 : (S.runEval S.tBound a).run s with _ | ⟨_ | oa, s1⟩
  · rfl
  · rfl
  · simp only [andThen_ok]
    obtain ⟨b0, b', rfl⟩ : ∃ b0 b', b = b0 :: b' := by
      cases b with
      | nil => exact absurd rfl hneb
      | cons b0 b' => exact ⟨b0, b', rfl⟩
    obtain ⟨a0, a', rfl⟩ : ∃ a0 a', a = a0 :: a' := by
      cases a with
      | nil => exact absurd rfl hne
      | cons a0 a' => exact ⟨a0, a', rfl⟩
    have hready : Ready b0 s1 := by
      refine ready_runEval hM (fun x hx => hab x hx b0 List.mem_cons_self) ⟨ho, hh, ?_⟩ h1
      exact (hr b0 (by simp)).1
    have hrb : InRange S s1 (b0 :: b') := by
      intro x hx
      refine ⟨hready.2.2.trans ?_, (hr x (List.mem_append_right _ hx)).2⟩
      rcases List.mem_cons.mp hx with rfl | hx
      · exact le_refl _
      · exact (List.pairwise_cons.mp hsb).1 x hx
    rw [run1 _ s1 hneb hsb hrb]
    split
    · rfl
    · rename_i hlen
      have hlt : oa.length < (a0 :: a').length := lt_of_le_of_ne (runEval_prefix h1).2 hlen
      obtain ⟨h2, h3⟩ := runEval_cut h1 hlt
      have h4 : s1.t < b0 := lt_of_lt_of_le h2 (hab _ (List.getElem_mem _) b0 List.mem_cons_self)
      rw [runEval_cons, advance_run, if_pos h4, pstep_false.mpr ⟨h3, rfl⟩]
      simp


end Nbkode
