import Verif.Proofs.Run
import Verif.Proofs.StepApi

/-! `run` in terms of the sorted list of times. -/

set_option autoImplicit false
set_option linter.unusedSectionVars false

namespace Nbkode
open Py Spec Solver

section order
variable {α : Type} [LinearOrder α]
variable [Add α] [Sub α] [Mul α] [Div α] [Neg α] [Zero α] [One α] [NatCast α] [BEq α]
variable {n k : Nat} {X : Type}

/-- The list of times in the order in which `run` visits them. -/
def sortedTimes (argsort : List α → List Nat) (ts : List α) : List α :=
  if isSorted ts then ts else (argsort ts).filterMap fun i => ts[i]?

theorem sortedTimes_eq {argsort : List α → List Nat} (hA : ∀ l, IsArgsort l (argsort l)) (ts : List α) :
    (if isSorted ts then Except.ok ts else fancyIndex ts (argsort ts)) =
      .ok (sortedTimes argsort ts) := by
  unfold sortedTimes
  split
  · rfl
  · exact (fancyIndex_perm (hA ts).perm).1

theorem sortedTimes_perm {argsort : List α → List Nat} (hA : ∀ l, IsArgsort l (argsort l)) (ts : List α) :
    (sortedTimes argsort ts).Perm ts := by
  unfold sortedTimes
  split
  · exact List.Perm.refl _
  · exact (fancyIndex_perm (hA ts).perm).2.1

theorem sortedTimes_sorted {argsort : List α → List Nat} (hA : ∀ l, IsArgsort l (argsort l)) (ts : List α) :
    (sortedTimes argsort ts).Pairwise (· ≤ ·) := by
  unfold sortedTimes
  split
  · exact (isSorted_iff ts).mp ‹_›
  · exact (hA ts).sorted

theorem sorted_unique {l l' : List α} (h : l.Perm l') (h1 : l.Pairwise (· ≤ ·)) (h2 : l'.Pairwise (· ≤ ·)) :
    l = l' :=
  h.eq_of_pairwise (fun _ _ _ _ h1 h2 => le_antisymm h1 h2) h1 h2

theorem exceededBy_eq (b : Bound α) (x : α) : b.exceededBy x = (Bound.fin x).gt b := by
  cases b <;> rfl

/-- `run` on times in range: visit the sorted times, then put the answers into the caller's order. -/
theorem run_eq {S : Solver α n k X} (hM : Shaped S.method) (bo : BisectOpts α)
    {argsort : List α → List Nat} (hA : ∀ l, IsArgsort l (argsort l)) {ts : List α} (hne : ts ≠ [])
    {s : St α n k X} (hr : InRange S s ts) :
    (S.run bo argsort ts).run s =
      andThen ((S.runEval S.tBound (sortedTimes argsort ts)).run s) fun out s2 =>
        if isSorted ts then some (.ok out, s2) else some (fancyIndex out (invPerm (argsort ts)), s2) := by
  rw [run_unfold, sortedTimes_eq hA]
  have hp := sortedTimes_perm hA ts
  have hs := sortedTimes_sorted hA ts
  rcases hT : sortedTimes argsort ts with _ | ⟨t0, tl⟩
  · rw [hT] at hp; exact absurd hp.symm.eq_nil hne
  · rw [hT] at hp hs
    have hr' : InRange S s (t0 :: tl) := fun x hx => hr x (hp.mem_iff.mp hx)
    simp only
    rw [if_neg (not_lt.mpr (hr' t0 List.mem_cons_self).1)]
    rw [if_neg (by
      rw [← exceededBy_eq, (notBeyond_iff _ _).mp (hr' _ (listMax_mem t0 tl)).2]; simp)]
    have key := interpolateAll_runEval hM S.tBound ((t0 :: tl).filter fun ti => decide (ti ≤ s.t)) s (by
      intro x hx
      rw [List.mem_filter, decide_eq_true_iff] at hx
      exact ⟨(hr' x hx.1).1, hx.2⟩)
    conv_rhs => rw [← filter_split (t0 :: tl) hs s.t, runEval_append, key]
    rw [andThen_assoc, andThen_assoc]
    have hlen : ∀ (l : List α) (s s1 : St α n k X) rs, (S.interpolateAll l).run s = some (.ok rs, s1) →
        rs.length = l.length := by
      intro l
      induction l with
      | nil => intro s s1 rs h; rw [interpolateAll] at h; cases h; rfl
      | cons t l ih =>
        intro s s1 rs h
        rw [interpolateAll_cons, andThen_eq_ok] at h
        obtain ⟨r, s3, h3, h4⟩ := h
        rw [andThen_eq_ok] at h4
        obtain ⟨rs', s4, h5, h6⟩ := h4
        cases h6
        rw [List.length_cons, List.length_cons, ih _ _ _ h5]
    rcases hI : (S.interpolateAll ((t0 :: tl).filter fun ti => decide (ti ≤ s.t))).run s with _ | ⟨_ | rs, s1⟩
    · rfl
    · rfl
    · simp only [andThen_ok]
      rw [if_pos (by rw [List.length_zip, List.length_map, hlen _ _ _ _ hI, Nat.min_self]), andThen_assoc]
      rfl

theorem run_out_of_range {S : Solver α n k X} (bo : BisectOpts α)
    {argsort : List α → List Nat} (hA : ∀ l, IsArgsort l (argsort l)) {ts : List α}
    {s : St α n k X} (hr : ∃ x ∈ ts, x < s.cache.ts (Buffer.iOld k) ∨ S.tBound.exceededBy x = true) :
    (S.run bo argsort ts).run s = some (.error .valueError, s) := by
  rw [run_unfold, sortedTimes_eq hA]
  have hp := sortedTimes_perm hA ts
  have hs := sortedTimes_sorted hA ts
  obtain ⟨x, hx, hx'⟩ := hr
  have hx := hp.mem_iff.mpr hx
  rcases hT : sortedTimes argsort ts with _ | ⟨t0, tl⟩
  · rw [hT] at hx; simp at hx
  · rw [hT] at hx hs
    simp only
    split
    · rfl
    · rename_i h0
      split
      · rfl
      · rename_i h1
        exfalso
        rcases hx' with hx' | hx'
        · apply h0
          rcases List.mem_cons.mp hx with rfl | hx
          · exact hx'
          · exact lt_of_le_of_lt ((List.pairwise_cons.mp hs).1 x hx) hx'
        · apply h1
          have hle : x ≤ listMax t0 tl := by
            rcases List.mem_cons.mp hx with rfl | hx
            · exact (listMax_ge _ _).1
            · exact (listMax_ge _ _).2 x hx
          rw [← exceededBy_eq]
          cases hb : S.tBound with
          | inf => rw [hb] at hx'; simp [Bound.exceededBy] at hx'
          | fin b =>
            rw [hb] at hx'
            simp only [Bound.exceededBy, decide_eq_true_eq] at *
            exact lt_of_lt_of_le hx' hle

/-- Either all times are in range or the run is refused. -/
theorem inRange_or {S : Solver α n k X} (s : St α n k X) (ts : List α) :
    InRange S s ts ∨ ∃ x ∈ ts, x < s.cache.ts (Buffer.iOld k) ∨ S.tBound.exceededBy x = true := by
  by_cases h : InRange S s ts
  · exact Or.inl h
  · right
    unfold InRange at h
    push Not at h
    obtain ⟨x, hx, h⟩ := h
    refine ⟨x, hx, ?_⟩
    by_cases h1 : s.cache.ts (Buffer.iOld k) ≤ x
    · right; simpa [notBeyond_iff] using h h1
    · left; exact not_le.mp h1

theorem run_nil (S : Solver α n k X) (bo : BisectOpts α) (argsort : List α → List Nat) (s : St α n k X) :
    (S.run bo argsort []).run s = some (.error .indexError, s) := by
  rw [run_unfold]; rfl

/-- What a successful `run` did. -/
theorem run_ok {S : Solver α n k X} (hM : Shaped S.method) (bo : BisectOpts α)
    {argsort : List α → List Nat} (hA : ∀ l, IsArgsort l (argsort l)) {ts : List α}
    {s s' : St α n k X} {out : List (α × Vec α n)}
    (h : (S.run bo argsort ts).run s = some (.ok out, s')) :
    ts ≠ [] ∧ InRange S s ts ∧ ∃ out1, (S.runEval S.tBound (sortedTimes argsort ts)).run s = some (.ok out1, s') ∧
      ((isSorted ts = true ∧ out = out1) ∨
        (isSorted ts = false ∧ out1.length = ts.length ∧ out.length = ts.length ∧ out.Perm out1 ∧
          out.map Prod.fst = ts ∧ ∀ i, i < ts.length → out[i]? = out1[(argsort ts).idxOf i]?)) := by
  have hne : ts ≠ [] := by
    rintro rfl
    rw [run_nil] at h; simp at h
  rcases inRange_or (S := S) s ts with hr | hr
  · refine ⟨hne, hr, ?_⟩
    rw [run_eq hM bo hA hne hr, andThen_eq_ok] at h
    obtain ⟨out1, s1, h1, h2⟩ := h
    by_cases hs : isSorted ts = true
    · rw [if_pos hs] at h2
      cases h2
      exact ⟨_, h1, Or.inl ⟨hs, rfl⟩⟩
    · rw [if_neg hs] at h2
      simp only [Option.some.injEq, Prod.mk.injEq] at h2
      obtain ⟨h2, rfl⟩ := h2
      refine ⟨out1, h1, Or.inr ⟨by simpa using hs, ?_⟩⟩
      obtain ⟨p1, p2⟩ := runEval_prefix h1
      have hlen : (sortedTimes argsort ts).length = ts.length := (sortedTimes_perm hA ts).length_eq
      rcases lt_or_eq_of_le p2 with hlt | heq
      · rw [reorder_short (hA ts).perm (by omega)] at h2; simp at h2
      · obtain ⟨out', e1, e2, e3, e4⟩ := reorder (hA ts).perm (heq.trans hlen)
        rw [e1] at h2
        cases h2
        refine ⟨heq.trans hlen, e2, e3, ?_, e4⟩
        refine reorder_map (hA ts).perm ?_ e2 e4
        rw [p1, heq, List.take_length]
        unfold sortedTimes
        rw [if_neg hs]
  · rw [run_out_of_range bo hA hr] at h; simp at h

end order
end Nbkode
