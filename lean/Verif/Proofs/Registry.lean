import Verif.Spec.Registry
import Verif.Proofs.Dict
import Verif.Proofs.PyLemmas

/-! # Registration and lookup: lemmas -/

set_option autoImplicit false
set_option linter.unusedSectionVars false

namespace Nbkode
open Spec

namespace Registry
variable {κ ℓ : Type} [DecidableEq ℓ] {lower : κ → ℓ}

theorem contains_iff {ν : Type} {d : CIDict κ ℓ ν} {k : κ} :
    d.contains lower k = true ↔ lower k ∈ d.store.map Prod.fst := by
  rw [CIDict.contains, CIDict.getItem]
  cases hg : d.store.get? (lower k) with
  | none => simpa using ODict.get?_eq_none.1 hg
  | some kv =>
    have : lower k ∈ d.store.map Prod.fst := by
      by_contra hn
      rw [ODict.get?_eq_none.2 hn] at hg
      cases hg
    simpa using this

theorem contains_false_iff {ν : Type} {d : CIDict κ ℓ ν} {k : κ} :
    d.contains lower k = false ↔ lower k ∉ d.store.map Prod.fst := by
  rw [← contains_iff (lower := lower), Bool.not_eq_true]

/-- The registry with the names `xs` appended for the class `c`. -/
def withNames (lower : κ → ℓ) (r : Registry κ ℓ) (c : SolverClass κ) (xs : List κ) : Registry κ ℓ :=
  { r with solvers := ⟨r.solvers.store ++ xs.map fun x => (lower x, (x, c))⟩ }

/-- None of `xs` is taken, and no two of them are the same name. -/
def Free (lower : κ → ℓ) (r : Registry κ ℓ) (xs : List κ) : Prop :=
  (xs.map lower).Nodup ∧ ∀ x ∈ xs, lower x ∉ r.solvers.store.map Prod.fst

theorem free_cons {r : Registry κ ℓ} {c : SolverClass κ} {x : κ} {xs : List κ}
    (hx : lower x ∉ r.solvers.store.map Prod.fst)
    (h : Free lower (withNames lower r c [x]) xs) : Free lower r (x :: xs) := by
  constructor
  · rw [List.map_cons, List.nodup_cons]
    refine ⟨?_, h.1⟩
    intro hm
    obtain ⟨y, hy, he⟩ := List.mem_map.1 hm
    apply h.2 y hy
    rw [he]
    simp [withNames]
  · intro y hy
    rcases List.mem_cons.1 hy with rfl | hy
    · exact hx
    · intro hm
      apply h.2 y hy
      simp only [withNames, List.map_append, List.mem_append]
      exact Or.inl hm

theorem addNames_spec (c : SolverClass κ) (xs : List κ) (r : Registry κ ℓ) :
    ∃ pre suf, xs = pre ++ suf ∧ Free lower r pre ∧
      ((suf = [] ∧ (addNames lower c xs).run r = some (.ok (), withNames lower r c pre)) ∨
       (∃ x rest, suf = x :: rest ∧ lower x ∈ (withNames lower r c pre).solvers.store.map Prod.fst ∧
        (addNames lower c xs).run r = some (.error .exception, withNames lower r c pre))) := by
  induction xs generalizing r with
  | nil =>
    refine ⟨[], [], rfl, ⟨by simp, by simp⟩, Or.inl ⟨rfl, ?_⟩⟩
    have : withNames lower r c [] = r := by simp [withNames]
    rw [this]; rfl
  | cons x xs ih =>
    by_cases hx : lower x ∈ r.solvers.store.map Prod.fst
    · refine ⟨[], x :: xs, rfl, ⟨by simp, by simp⟩, Or.inr ⟨x, xs, rfl, ?_, ?_⟩⟩
      · simpa [withNames] using hx
      · have h1 := (contains_iff (lower := lower)).2 hx
        have : withNames lower r c [] = r := by simp [withNames]
        rw [this]
        show (if r.solvers.contains lower x = true then
          (do
            (throw Err.exception : Py (Registry κ ℓ) PUnit)
            set { r with solvers := r.solvers.setItem lower x c }
            addNames lower c xs)
          else _ : Py (Registry κ ℓ) Unit) r = _
        rw [if_pos h1]
        rfl
    · have h1 := (contains_false_iff (lower := lower)).2 hx
      have hset : ({ r with solvers := r.solvers.setItem lower x c } : Registry κ ℓ)
          = withNames lower r c [x] := by
        show Registry.mk ⟨r.solvers.store.set (lower x) (x, c)⟩ r.groups = _
        rw [ODict.set_of_notMem hx]
        rfl
      have hrun : (addNames lower c (x :: xs)).run r
          = (addNames lower c xs).run (withNames lower r c [x]) := by
        rw [← hset]
        show (if r.solvers.contains lower x = true then _
          else (do
            set { r with solvers := r.solvers.setItem lower x c }
            addNames lower c xs) : Py (Registry κ ℓ) Unit) r = _
        rw [if_neg (by rw [h1]; simp)]
        rfl
      have happ : ∀ pre, withNames lower (withNames lower r c [x]) c pre
          = withNames lower r c (x :: pre) := by
        intro pre; simp [withNames]
      obtain ⟨pre, suf, hxs, hfree, h⟩ := ih (withNames lower r c [x])
      refine ⟨x :: pre, suf, by rw [hxs, List.cons_append], free_cons hx hfree, ?_⟩
      rw [hrun]
      simp only [← happ pre]
      exact h

theorem addNames_free {c : SolverClass κ} {xs : List κ} {r : Registry κ ℓ} (h : Free lower r xs) :
    (addNames lower c xs).run r = some (.ok (), withNames lower r c xs) := by
  obtain ⟨pre, suf, hxs, hfree, ⟨hs, hr⟩ | ⟨x, rest, hs, hm, hr⟩⟩ := addNames_spec (lower := lower) c xs r
  · subst hs
    rw [List.append_nil] at hxs
    subst hxs
    exact hr
  · exfalso
    subst hs
    subst hxs
    simp only [withNames, List.map_append, List.mem_append, List.map_map] at hm
    rcases hm with hm | hm
    · exact h.2 x (by simp) hm
    · have hn := h.1
      rw [List.map_append, List.map_cons] at hn
      refine List.disjoint_of_nodup_append hn (a := lower x) ?_ (by simp)
      simpa using hm

theorem addNames_ok {c : SolverClass κ} {xs : List κ} {r r' : Registry κ ℓ}
    (h : (addNames lower c xs).run r = some (.ok (), r')) :
    Free lower r xs ∧ r' = withNames lower r c xs := by
  obtain ⟨pre, suf, hxs, hfree, ⟨hs, hr⟩ | ⟨x, rest, hs, hm, hr⟩⟩ := addNames_spec (lower := lower) c xs r
  · subst hs
    rw [List.append_nil] at hxs
    subst hxs
    rw [h] at hr
    cases hr
    exact ⟨hfree, rfl⟩
  · rw [h] at hr
    cases hr

/-- The groups after the class `c` was appended to the group `g`. -/
def withGroup (lower : κ → ℓ) (r : Registry κ ℓ) (c : SolverClass κ) (g : κ) : Registry κ ℓ :=
  { r with groups := ⟨match r.groups.store.get? (lower g) with
    | none => r.groups.store ++ [(lower g, (g, [c]))]
    | some kv => r.groups.store.set (lower g) (kv.1, kv.2 ++ [c])⟩ }

theorem set_append_new {ν : Type} {s : ODict ℓ ν} {l : ℓ} {v w : ν} (h : l ∉ s.map Prod.fst) :
    ODict.set (s ++ [(l, v)]) l w = s ++ [(l, w)] := by
  induction s with
  | nil => simp [ODict.set]
  | cons e s ih =>
    obtain ⟨l', v'⟩ := e
    simp only [List.map_cons, List.mem_cons, not_or] at h
    simp only [List.cons_append, ODict.set, if_neg (fun h' => h.1 h'.symm : ¬ l' = l)]
    rw [ih h.2]

theorem get?_append_new {ν : Type} {s : ODict ℓ ν} {l : ℓ} {v : ν} (h : l ∉ s.map Prod.fst) :
    ODict.get? (s ++ [(l, v)]) l = some v := by
  induction s with
  | nil => simp [ODict.get?]
  | cons e s ih =>
    obtain ⟨l', v'⟩ := e
    simp only [List.map_cons, List.mem_cons, not_or] at h
    simp only [List.cons_append, ODict.get?, if_neg (fun h' => h.1 h'.symm : ¬ l' = l)]
    exact ih h.2

theorem addGroup_run (c : SolverClass κ) (r : Registry κ ℓ) :
    (addGroup lower c).run r = match c.group with
      | none => some (.error .attributeError, r)
      | some g => some (.ok (), withGroup lower r c g) := by
  cases hg : c.group with
  | none =>
    show (match c.group with
      | none => (throw Err.attributeError : Py (Registry κ ℓ) Unit)
      | some g => _) r = _
    rw [hg]
    rfl
  | some g =>
    simp only [addGroup, hg, withGroup]
    cases hget : r.groups.store.get? (lower g) with
    | none =>
      have hn := ODict.get?_eq_none.1 hget
      have hc : r.groups.contains lower g = false := contains_false_iff.2 hn
      have hs : (r.groups.setItem lower g []).store = r.groups.store ++ [(lower g, (g, []))] :=
        ODict.set_of_notMem hn
      simp only [Py.run_bind, Py.run_get, Py.andThen_ok, hc, if_true, Py.run_set, hs,
        get?_append_new hn, set_append_new hn, List.nil_append]
    | some kv =>
      have hn : lower g ∈ r.groups.store.map Prod.fst := by
        by_contra h
        rw [ODict.get?_eq_none.2 h] at hget
        cases hget
      have hc : ¬ r.groups.contains lower g = false := by
        rw [Bool.not_eq_false]; exact contains_iff.2 hn
      simp only [Py.run_bind, Py.run_get, Py.andThen_ok, if_neg hc, Py.run_set, hget]

/-- The possible outcomes of a class statement. -/
theorem defineSolver_cases (c : SolverClass κ) (r : Registry κ ℓ) :
    (∃ e, (defineSolver lower c false).run r = some (.error e, r) ∧
      ((c.erkExplicit = some false ∧ e = .assertionError) ∨
       (c.erkExplicit ≠ some false ∧ (∀ n, c.lenHistory = some n → n < 2) ∧ e = .valueError))) ∨
    (c.erkExplicit ≠ some false ∧ ∃ n, c.lenHistory = some n ∧ 2 ≤ n ∧
      ∃ pre suf, names c = pre ++ suf ∧ Free lower r pre ∧
      ((∃ x rest, suf = x :: rest ∧ lower x ∈ (withNames lower r c pre).solvers.store.map Prod.fst ∧
        (defineSolver lower c false).run r = some (.error .exception, withNames lower r c pre)) ∨
       (suf = [] ∧ ((c.group = none ∧
          (defineSolver lower c false).run r = some (.error .attributeError, withNames lower r c pre)) ∨
        (∃ g, c.group = some g ∧ (defineSolver lower c false).run r
          = some (c.builds, withGroup lower (withNames lower r c pre) c g)))))) := by
  by_cases he : c.erkExplicit = some false
  · left
    refine ⟨.assertionError, ?_, Or.inl ⟨he, rfl⟩⟩
    show (if c.erkExplicit = some false then (throw Err.assertionError : Py (Registry κ ℓ) PUnit) >>= _
      else _ : Py (Registry κ ℓ) Unit) r = _
    rw [if_pos he]
    rfl
  · have h1 : (defineSolver lower c false).run r = (match c.lenHistory with
        | none => throw Err.valueError
        | some len => do
          if len < 2 then throw .valueError
          addNames lower c (c.name :: c.aliases)
          addGroup lower c
          Py.ofExcept c.builds : Py (Registry κ ℓ) Unit) r := by
      show (if c.erkExplicit = some false then _
        else (match c.lenHistory with
        | none => throw Err.valueError
        | some len => do
          if len < 2 then throw .valueError
          addNames lower c (c.name :: c.aliases)
          addGroup lower c
          Py.ofExcept c.builds : Py (Registry κ ℓ) Unit)) r = _
      rw [if_neg he]
    cases hl : c.lenHistory with
    | none =>
      left
      refine ⟨.valueError, ?_, Or.inr ⟨he, by simp, rfl⟩⟩
      rw [h1, hl]
      rfl
    | some n =>
      rw [hl] at h1
      by_cases hn : n < 2
      · left
        refine ⟨.valueError, ?_, Or.inr ⟨he, by rintro m ⟨rfl⟩; exact hn, rfl⟩⟩
        rw [h1]
        show (if n < 2 then (throw Err.valueError : Py (Registry κ ℓ) PUnit) >>= _
          else _ : Py (Registry κ ℓ) Unit) r = _
        rw [if_pos hn]
        rfl
      · right
        refine ⟨he, n, rfl, by omega, ?_⟩
        have h2 : (defineSolver lower c false).run r = (do
            addNames lower c (c.name :: c.aliases)
            addGroup lower c
            Py.ofExcept c.builds : Py (Registry κ ℓ) Unit).run r := by
          rw [h1]
          show (if n < 2 then _ else (do
            addNames lower c (c.name :: c.aliases)
            addGroup lower c
            Py.ofExcept c.builds) : Py (Registry κ ℓ) Unit) r = _
          rw [if_neg hn]
          rfl
        obtain ⟨pre, suf, hxs, hfree, ⟨hs, hr⟩ | ⟨x, rest, hs, hm, hr⟩⟩ :=
          addNames_spec (lower := lower) c (c.name :: c.aliases) r
        · refine ⟨pre, suf, hxs, hfree, Or.inr ⟨hs, ?_⟩⟩
          have h4 := addGroup_run (lower := lower) c (withNames lower r c pre)
          cases hg : c.group with
          | none =>
            rw [hg] at h4
            refine Or.inl ⟨rfl, ?_⟩
            rw [h2]
            simp only [Py.run_bind, hr, Py.andThen_ok, h4, Py.andThen_error]
          | some g =>
            rw [hg] at h4
            refine Or.inr ⟨g, rfl, ?_⟩
            rw [h2]
            simp only [Py.run_bind, hr, Py.andThen_ok, h4, Py.run_ofExcept]
        · refine ⟨pre, suf, hxs, hfree, Or.inl ⟨x, rest, hs, hm, ?_⟩⟩
          rw [h2]
          simp only [Py.run_bind, hr, Py.andThen_error]

theorem defineSolver_abstract (c : SolverClass κ) (r : Registry κ ℓ) :
    (defineSolver lower c true).run r = some (.ok (), r) := rfl

end Registry
end Nbkode
