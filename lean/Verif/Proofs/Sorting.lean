import Verif.Spec.Run
import Mathlib.Data.List.Sort
import Mathlib.Data.List.Perm.Subperm
import Mathlib.Data.List.Nodup
import Mathlib.Order.Basic

/-! Lists indexed by permutations. -/

set_option autoImplicit false
set_option linter.unusedSectionVars false

namespace Nbkode
open Spec Solver

section lists
variable {A B : Type}

theorem fancyIndex_nil (a : List A) : fancyIndex a [] = .ok [] := rfl

theorem fancyIndex_cons (a : List A) (i : Nat) (idx : List Nat) :
    fancyIndex a (i :: idx) = match a[i]? with
      | none => .error .indexError
      | some x => match fancyIndex a idx with
        | .ok l => .ok (x :: l)
        | .error e => .error e := by
  unfold fancyIndex
  rw [List.mapM_cons]
  cases a[i]? with
  | none => rfl
  | some x =>
    simp only [bind, Except.bind, pure, Except.pure]
    generalize (List.mapM _ idx : Except Err (List A)) = r
    cases r <;> rfl

theorem fancyIndex_ok {a : List A} {idx : List Nat} (h : ∀ i ∈ idx, i < a.length) :
    ∃ l, fancyIndex a idx = .ok l ∧ l.map some = idx.map (fun i => a[i]?) := by
  induction idx with
  | nil => exact ⟨[], rfl, rfl⟩
  | cons i idx ih =>
    obtain ⟨l, h1, h2⟩ := ih fun j hj => h j (List.mem_cons_of_mem _ hj)
    have hi := h i List.mem_cons_self
    refine ⟨a[i] :: l, ?_, ?_⟩
    · rw [fancyIndex_cons, List.getElem?_eq_getElem hi, h1]
    · rw [List.map_cons, List.map_cons, h2, List.getElem?_eq_getElem hi]

theorem fancyIndex_error {a : List A} {idx : List Nat} (h : ∃ i ∈ idx, a.length ≤ i) :
    fancyIndex a idx = .error .indexError := by
  induction idx with
  | nil => simp at h
  | cons i idx ih =>
    rw [fancyIndex_cons]
    by_cases hi : a.length ≤ i
    · rw [List.getElem?_eq_none hi]
    · rw [List.getElem?_eq_getElem (by omega)]
      obtain ⟨j, hj, hj'⟩ := h
      rcases List.mem_cons.mp hj with rfl | hj
      · exact absurd hj' hi
      · rw [ih ⟨j, hj, hj'⟩]

theorem map_some_inj {l l' : List A} (h : l.map some = l'.map some) : l = l' :=
  List.map_injective_iff.mpr (fun _ _ h => Option.some.inj h) h

theorem filterMap_range_getElem? (l : List A) : (List.range l.length).filterMap (fun i => l[i]?) = l := by
  have : (List.range l.length).map (fun i => l[i]?) = l.map some := by
    apply List.ext_getElem?
    intro i
    rw [List.getElem?_map, List.getElem?_map]
    by_cases hi : i < l.length
    · rw [List.getElem?_range hi, List.getElem?_eq_getElem hi]; simp [hi]
    · rw [List.getElem?_eq_none (by simpa using hi), List.getElem?_eq_none (by simpa using hi)]; rfl
  calc _ = ((List.range l.length).map (fun i => l[i]?)).filterMap id := by
        rw [List.filterMap_map]; rfl
    _ = l := by rw [this, List.filterMap_map]; simp

/-- Indexing with a permutation of the indices succeeds and permutes. -/
theorem fancyIndex_perm {a : List A} {ndx : List Nat} (hp : ndx.Perm (List.range a.length)) :
    fancyIndex a ndx = .ok (ndx.filterMap fun i => a[i]?) ∧
      (ndx.filterMap fun i => a[i]?).Perm a ∧
      (ndx.filterMap fun i => a[i]?).map some = ndx.map (fun i => a[i]?) := by
  have hlt : ∀ i ∈ ndx, i < a.length := fun i hi => List.mem_range.mp (hp.mem_iff.mp hi)
  obtain ⟨l, h1, h2⟩ := fancyIndex_ok hlt
  have e : (ndx.filterMap fun i => a[i]?) = l := by
    calc _ = (ndx.map (fun i => a[i]?)).filterMap id := by rw [List.filterMap_map]; rfl
      _ = l := by rw [← h2, List.filterMap_map]; simp
  refine ⟨by rw [h1, e], ?_, by rw [e, h2]⟩
  have := hp.filterMap (fun i => a[i]?)
  rwa [filterMap_range_getElem?] at this

theorem invPerm_length (ndx : List Nat) : (invPerm ndx).length = ndx.length := by
  simp [invPerm]

theorem invPerm_perm {ndx : List Nat} {m : Nat} (hp : ndx.Perm (List.range m)) :
    (invPerm ndx).Perm (List.range m) := by
  have hl : ndx.length = m := by rw [hp.length_eq, List.length_range]
  have hmem : ∀ i, i < m → i ∈ ndx := fun i hi => hp.mem_iff.mpr (List.mem_range.mpr hi)
  have hnd : (invPerm ndx).Nodup := by
    unfold invPerm
    refine List.Nodup.map_on ?_ List.nodup_range
    intro x hx y hy hxy
    exact (List.idxOf_inj (hmem x (by rw [List.mem_range] at hx; omega))).mp hxy
  have hsub : invPerm ndx ⊆ List.range m := by
    intro x hx
    unfold invPerm at hx
    rw [List.mem_map] at hx
    obtain ⟨i, hi, rfl⟩ := hx
    rw [List.mem_range] at hi ⊢
    rw [← hl]
    exact List.idxOf_lt_length_iff.mpr (hmem i (by omega))
  exact (List.subperm_of_subset hnd hsub).perm_of_length_le (by simp [invPerm_length, hl])

/-- `ts[ondx]` after `ts = t[ndx]`: entry `i` is the entry of the sorted array that came from position `i`. -/
theorem reorder {out : List A} {ndx : List Nat} {m : Nat} (hp : ndx.Perm (List.range m))
    (hl : out.length = m) :
    ∃ out', fancyIndex out (invPerm ndx) = .ok out' ∧ out'.length = m ∧ out'.Perm out ∧
      ∀ i, i < m → out'[i]? = out[ndx.idxOf i]? := by
  have hq := invPerm_perm hp
  subst hl
  obtain ⟨h1, h2, h3⟩ := fancyIndex_perm (a := out) hq
  refine ⟨_, h1, h2.length_eq, h2, ?_⟩
  intro i hi
  have := congrArg (fun l => l[i]?) h3
  simp only [List.getElem?_map] at this
  have hlen : ndx.length = out.length := by rw [hp.length_eq, List.length_range]
  have e : (invPerm ndx)[i]? = some (ndx.idxOf i) := by
    unfold invPerm
    rw [List.getElem?_map, List.getElem?_range (by omega)]; rfl
  rw [e] at this
  have hi2 : i < (List.filterMap (fun i => out[i]?) (invPerm ndx)).length := by
    rw [h2.length_eq]; exact hi
  rw [List.getElem?_eq_getElem hi2] at this ⊢
  simp only [Option.map_some, Option.some.injEq] at this
  exact this

theorem reorder_short {out : List A} {ndx : List Nat} {m : Nat} (hp : ndx.Perm (List.range m))
    (hl : out.length < m) : fancyIndex out (invPerm ndx) = .error .indexError := by
  apply fancyIndex_error
  exact ⟨out.length, (invPerm_perm hp).mem_iff.mpr (List.mem_range.mpr hl), le_refl _⟩

/-- The reordered list, when the sorted list came from `ts` by `ndx`, is in the order of `ts`. -/
theorem reorder_map {ts : List B} {out out' : List A} {ndx : List Nat} {f : A → B}
    (hp : ndx.Perm (List.range ts.length))
    (ho : out.map f = ndx.filterMap fun i => ts[i]?)
    (hl : out'.length = ts.length)
    (h : ∀ i, i < ts.length → out'[i]? = out[ndx.idxOf i]?) : out'.map f = ts := by
  apply List.ext_getElem?
  intro i
  by_cases hi : i < ts.length
  · rw [List.getElem?_map, h i hi, ← List.getElem?_map, ho]
    obtain ⟨-, -, h3⟩ := fancyIndex_perm (a := ts) hp
    have hm : i ∈ ndx := hp.mem_iff.mpr (List.mem_range.mpr hi)
    have := congrArg (fun l => l[ndx.idxOf i]?) h3
    simp only [List.getElem?_map] at this
    rw [List.getElem?_eq_getElem (List.idxOf_lt_length_iff.mpr hm)] at this
    rw [List.getElem_idxOf] at this
    simp only [Option.map_some] at this
    cases hx : (List.filterMap (fun i => ts[i]?) ndx)[ndx.idxOf i]? with
    | none => rw [hx] at this; simp at this
    | some x => rw [hx] at this; simpa using this
  · rw [List.getElem?_eq_none (by simpa [hl] using hi), List.getElem?_eq_none (by omega)]

end lists

section order
variable {α : Type} [LinearOrder α]

theorem isSorted_iff (l : List α) : isSorted l = true ↔ l.Pairwise (· ≤ ·) := by
  induction l with
  | nil => simp [isSorted]
  | cons a l ih =>
    cases l with
    | nil => simp [isSorted]
    | cons b l =>
      rw [isSorted, Bool.and_eq_true, ih, decide_eq_true_iff, List.pairwise_cons (a := a)]
      constructor
      · rintro ⟨h1, h2⟩
        refine ⟨fun x hx => ?_, h2⟩
        rcases List.mem_cons.mp hx with rfl | hx
        · exact h1
        · exact h1.trans ((List.pairwise_cons.mp h2).1 x hx)
      · rintro ⟨h1, h2⟩
        exact ⟨h1 b List.mem_cons_self, h2⟩

theorem listMax_ge (a : α) (l : List α) : a ≤ listMax a l ∧ ∀ x ∈ l, x ≤ listMax a l := by
  unfold listMax
  induction l generalizing a with
  | nil => simp
  | cons b l ih =>
    rw [List.foldl_cons]
    obtain ⟨h1, h2⟩ := ih (pyMax a b)
    have ha : a ≤ pyMax a b := by unfold pyMax; split <;> [exact le_of_lt ‹_›; exact le_refl _]
    have hb : b ≤ pyMax a b := by unfold pyMax; split <;> [exact le_refl _; exact not_lt.mp ‹_›]
    refine ⟨ha.trans h1, fun x hx => ?_⟩
    rcases List.mem_cons.mp hx with rfl | hx
    · exact hb.trans h1
    · exact h2 x hx

theorem listMax_mem (a : α) (l : List α) : listMax a l ∈ a :: l := by
  unfold listMax
  induction l generalizing a with
  | nil => simp
  | cons b l ih =>
    rw [List.foldl_cons]
    rcases List.mem_cons.mp (ih (pyMax a b)) with h | h
    · rw [h]; unfold pyMax; split <;> simp
    · simp [h]

/-- A sorted list split by a threshold is the two filters in order. -/
theorem filter_split (l : List α) (h : l.Pairwise (· ≤ ·)) (t : α) :
    (l.filter fun x => decide (x ≤ t)) ++ (l.filter fun x => !decide (x ≤ t)) = l := by
  induction l with
  | nil => rfl
  | cons a l ih =>
    obtain ⟨h1, h2⟩ := List.pairwise_cons.mp h
    by_cases ha : a ≤ t
    · simp only [List.filter_cons, ha, decide_true, if_true, Bool.not_true, Bool.false_eq_true, if_false,
        List.cons_append, ih h2]
    · have : l.filter (fun x => decide (x ≤ t)) = [] := by
        rw [List.filter_eq_nil_iff]
        intro x hx
        have := h1 x hx
        simp only [decide_eq_true_eq]
        exact fun hxt => ha (this.trans hxt)
      have ih := ih h2
      rw [this, List.nil_append] at ih
      simp [ha, this, ih]

end order

end Nbkode
