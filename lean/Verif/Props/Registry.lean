import Verif.Props.RegistryDemo

/-! # C52–C55: registering, listing and looking up solvers -/

set_option autoImplicit false
set_option linter.unusedSectionVars false

namespace Nbkode
open Spec Registry

variable {κ ℓ : Type} [DecidableEq ℓ] {lower : κ → ℓ}

/-! ## C54: registration -/

/-- `x` is a free name. -/
theorem free_iff {r : Registry κ ℓ} {x : κ} :
    r.getSolver lower x = .error .valueError ↔ lower x ∉ r.solvers.store.map Prod.fst := by
  rw [← ODict.get?_eq_none, getSolver, CIDict.getItem]
  cases r.solvers.store.get? (lower x) <;> simp

theorem taken_iff {r : Registry κ ℓ} {x : κ} :
    (∃ c, r.getSolver lower x = .ok c) ↔ lower x ∈ r.solvers.store.map Prod.fst := by
  rw [← not_iff_not, ← free_iff (lower := lower) (r := r)]
  constructor
  · intro h
    exact (getSolver_cases r x).resolve_left h
  · rintro h ⟨c, hc⟩
    rw [h] at hc
    cases hc

/-- **C54** (checked). A concrete class statement always terminates. It succeeds exactly when the
tableau of an explicit Runge–Kutta class is strictly lower triangular, `LEN_HISTORY` is an integer not
smaller than 2, the name and the aliases are different from each other and free, there is a group, and
the step functions can be built. -/
theorem C54_checked (c : SolverClass κ) (r : Registry κ ℓ) :
    ∃ res r', (defineSolver lower c false).run r = some (res, r') ∧
      (res = .ok () ↔
        c.erkExplicit ≠ some false ∧ (∃ n, c.lenHistory = some n ∧ 2 ≤ n) ∧
        ((names c).map lower).Nodup ∧ (∀ k ∈ names c, r.getSolver lower k = .error .valueError) ∧
        (∃ g, c.group = some g) ∧ c.builds = .ok ()) := by
  rcases defineSolver_cases (lower := lower) c r with ⟨e, hr, he⟩ |
    ⟨he, n, hn, h2, pre, suf, hxs, hf, ⟨x, rest, hs, hm, hr⟩ | ⟨hs, ⟨hg, hr⟩ | ⟨g, hg, hr⟩⟩⟩
  · refine ⟨_, _, hr, ?_⟩
    simp only [reduceCtorEq, false_iff, not_and]
    intro h1 h3
    rcases he with ⟨he, -⟩ | ⟨-, he, -⟩
    · exact absurd he h1
    · obtain ⟨n, hn, h2⟩ := h3
      exact absurd (he n hn) (by omega)
  · refine ⟨_, _, hr, ?_⟩
    simp only [reduceCtorEq, false_iff, not_and]
    intro _ _ hnd hfree
    exfalso
    subst hs
    simp only [withNames, List.map_append, List.mem_append, List.map_map] at hm
    rcases hm with hm | hm
    · exact free_iff.1 (hfree x (by rw [hxs]; simp)) hm
    · rw [hxs, List.map_append, List.map_cons] at hnd
      exact List.disjoint_of_nodup_append hnd (a := lower x) (by simpa using hm) (by simp)
  · refine ⟨_, _, hr, ?_⟩
    simp only [reduceCtorEq, false_iff, not_and]
    rintro _ _ _ _ ⟨g, hg'⟩
    rw [hg] at hg'
    cases hg'
  · refine ⟨_, _, hr, ?_⟩
    subst hs
    rw [List.append_nil] at hxs
    constructor
    · intro hb
      exact ⟨he, ⟨n, hn, h2⟩, hxs ▸ hf.1, fun k hk => free_iff.2 (hf.2 k (hxs ▸ hk)), ⟨g, hg⟩, hb⟩
    · exact fun h => h.2.2.2.2.2

theorem getSolver_withNames {r : Registry κ ℓ} {c : SolverClass κ} {xs : List κ}
    (hf : Free lower r xs) (x : κ) :
    (withNames lower r c xs).getSolver lower x =
      if lower x ∈ xs.map lower then .ok c else r.getSolver lower x := by
  have hget : ∀ (s : ODict ℓ (κ × SolverClass κ)) (xs : List κ) (l : ℓ),
      ODict.get? (s ++ xs.map fun x => (lower x, (x, c))) l =
        match s.get? l with
        | some kv => some kv
        | none => ODict.get? (xs.map fun x => (lower x, (x, c))) l := by
    intro s xs l
    induction s with
    | nil => rfl
    | cons e s ih =>
      obtain ⟨l', v⟩ := e
      by_cases h : l' = l
      · simp [ODict.get?, h]
      · simp only [List.cons_append, ODict.get?, if_neg h]
        exact ih
  have hnew : ∀ (xs : List κ) (l : ℓ),
      (ODict.get? (xs.map fun x => (lower x, (x, c))) l).map Prod.snd =
        if l ∈ xs.map lower then some c else none := by
    intro xs l
    induction xs with
    | nil => rfl
    | cons y ys ih =>
      by_cases h : lower y = l
      · simp [ODict.get?, h]
      · have h' : ¬ l = lower y := fun h'' => h h''.symm
        simp only [List.map_cons, ODict.get?, if_neg h, List.mem_cons, h', false_or]
        exact ih
  simp only [getSolver, CIDict.getItem, withNames]
  rw [hget]
  cases hg : r.solvers.store.get? (lower x) with
  | some kv =>
    have hmem : lower x ∈ r.solvers.store.map Prod.fst := by
      by_contra h
      rw [ODict.get?_eq_none.2 h] at hg
      cases hg
    rw [if_neg]
    intro h
    obtain ⟨y, hy, he⟩ := List.mem_map.1 h
    exact hf.2 y hy (he ▸ hmem)
  | none =>
    have := hnew xs (lower x)
    simp only
    cases hg' : ODict.get? (xs.map fun x => (lower x, (x, c))) (lower x) with
    | none =>
      rw [hg'] at this
      split at this
      · cases this
      · rename_i h; rw [if_neg h]
    | some kv =>
      rw [hg'] at this
      split at this
      · rename_i h
        rw [if_pos h]
        simp only [Option.map_some, Option.some.injEq] at this
        exact congrArg Except.ok this
      · cases this

/-- **C54** (effect of an accepted definition). Afterwards the class, and no other, is found under its
name and its aliases in any case; every other lookup is unchanged; it is appended to its group, once,
and the other groups are unchanged. -/
theorem C54_accepted {c : SolverClass κ} {r r' : Registry κ ℓ}
    (hrun : (defineSolver lower c false).run r = some (.ok (), r')) :
    (∀ x, r'.getSolver lower x =
      if lower x ∈ (names c).map lower then .ok c else r.getSolver lower x) ∧
    ∃ g, c.group = some g ∧
      (∃ before, (r.groups.getItem lower g = .ok before ∨
          (r.groups.getItem lower g = .error .keyError ∧ before = [])) ∧
        r'.groups.getItem lower g = .ok (before ++ [c])) ∧
      ∀ g', lower g' ≠ lower g → r'.groups.getItem lower g' = r.groups.getItem lower g' := by
  rcases defineSolver_cases (lower := lower) c r with ⟨e, hr, he⟩ |
    ⟨he, n, hn, h2, pre, suf, hxs, hf, ⟨x, rest, hs, hm, hr⟩ | ⟨hs, ⟨hg, hr⟩ | ⟨g, hg, hr⟩⟩⟩
  · rw [hr] at hrun; cases hrun
  · rw [hr] at hrun; cases hrun
  · rw [hr] at hrun; cases hrun
  · rw [hr] at hrun
    simp only [Option.some.injEq, Prod.mk.injEq] at hrun
    obtain ⟨-, rfl⟩ := hrun
    subst hs
    rw [List.append_nil] at hxs
    subst hxs
    refine ⟨fun x => getSolver_withNames hf x, g, hg, ?_, ?_⟩
    · have h1 := get?_withGroup (lower := lower) (withNames lower r c (names c)) c g (lower g)
      rw [if_pos rfl] at h1
      have h2 : (withNames lower r c (names c)).groups = r.groups := rfl
      rw [h2] at h1
      cases hget : r.groups.store.get? (lower g) with
      | none =>
        rw [hget] at h1
        refine ⟨[], Or.inr ⟨?_, rfl⟩, ?_⟩
        · rw [CIDict.getItem, hget]
        · rw [CIDict.getItem, h1]; rfl
      | some kv =>
        rw [hget] at h1
        refine ⟨kv.2, Or.inl ?_, ?_⟩
        · rw [CIDict.getItem, hget]
        · rw [CIDict.getItem, h1]
    · intro g' hg'
      have h1 := get?_withGroup (lower := lower) (withNames lower r c (names c)) c g (lower g')
      rw [if_neg hg'] at h1
      rw [CIDict.getItem, h1, CIDict.getItem]
      rfl

/-- **C54**: an accepted class occurs exactly once in its group. -/
theorem C54_once [DecidableEq κ] {c : SolverClass κ} {h : List (Stmt κ)} {r : Registry κ ℓ}
    (hi : Imported lower h r) (hb : ∀ d ∈ h, d.cls.builds = .ok ()) (hc : c ∈ accepted h) :
    ∃ g cs, c.group = some g ∧ r.groups.getItem lower g = .ok cs ∧ cs.count c = 1 := by
  have hg : ∃ g, c.group = some g := by
    induction hi with
    | start => cases hc
    | @define h r r' c' abstract res hi hrun ih =>
      rw [accepted_append, List.mem_append] at hc
      rcases hc with hc | hc
      · exact ih (fun d hd => hb d (List.mem_append_left _ hd)) hc
      · obtain ⟨d, hd, rfl, h2, h3⟩ := mem_accepted.1 hc
        rw [List.mem_singleton] at hd
        subst hd
        simp only at h2 h3
        subst h2 h3
        obtain ⟨g, hg, -⟩ := (C54_accepted hrun).2
        exact ⟨g, hg⟩
  obtain ⟨g, hg⟩ := hg
  obtain ⟨h1, h2⟩ := members_of_imported hi hb
  have hmem : lower g ∈ r.groups.store.map Prod.fst := (h2 _).2 ⟨c, hc, by rw [hg]; rfl⟩
  refine ⟨g, members r (lower g), hg, getItem_members hmem, ?_⟩
  rw [h1]
  apply List.count_eq_one_of_mem ((accepted_nodup hi).filter _)
  rw [List.mem_filter]
  exact ⟨hc, by simp [hg]⟩

/-- **C54** (rejection). A class one of whose names is taken is rejected with an exception. -/
theorem C54_taken {c : SolverClass κ} {r : Registry κ ℓ} {k : κ} (hk : k ∈ names c)
    {c' : SolverClass κ} (ht : r.getSolver lower k = .ok c') :
    ∃ e r', (defineSolver lower c false).run r = some (.error e, r') := by
  obtain ⟨res, r', hr, hiff⟩ := C54_checked (lower := lower) c r
  rcases res with e | ⟨⟩
  · exact ⟨e, r', hr⟩
  · have := (hiff.1 rfl).2.2.2.1 k hk
    rw [ht] at this
    cases this

/-- **C54** (partial: what a rejected definition leaves alone). Names that were taken keep their class,
names the class does not use stay as they were, and nothing at all changes when the class name itself
is taken, when `LEN_HISTORY` is unsuitable or when the tableau is not explicit. Missing: a rejected
definition may leave its free names registered (`C54_refuted`). -/
theorem C54_rejected_partial {c : SolverClass κ} {r r' : Registry κ ℓ} {e : Err}
    (hrun : (defineSolver lower c false).run r = some (.error e, r')) :
    (∀ x c', r.getSolver lower x = .ok c' → r'.getSolver lower x = .ok c') ∧
    (∀ x, (∀ k ∈ names c, lower k ≠ lower x) → r'.getSolver lower x = r.getSolver lower x) ∧
    ((∃ c', r.getSolver lower c.name = .ok c') ∨ c.erkExplicit = some false ∨
      (∀ n, c.lenHistory = some n → n < 2) → r' = r) ∧
    (c.builds = .ok () → r'.groups = r.groups) := by
  have look : ∀ {pre : List κ} {suf : List κ}, names c = pre ++ suf → Free lower r pre →
      (∀ x c', r.getSolver lower x = .ok c' →
        (withNames lower r c pre).getSolver lower x = .ok c') ∧
      (∀ x, (∀ k ∈ names c, lower k ≠ lower x) →
        (withNames lower r c pre).getSolver lower x = r.getSolver lower x) := by
    intro pre suf hxs hf
    constructor
    · intro x c' hx
      rw [getSolver_withNames hf, if_neg]
      · exact hx
      · intro h
        obtain ⟨y, hy, he⟩ := List.mem_map.1 h
        refine hf.2 y hy ?_
        rw [he]
        exact taken_iff.1 ⟨c', hx⟩
    · intro x hx
      rw [getSolver_withNames hf, if_neg]
      intro h
      obtain ⟨y, hy, he⟩ := List.mem_map.1 h
      exact hx y (by rw [hxs]; exact List.mem_append_left _ hy) he
  have name : ∀ {pre : List κ} {suf : List κ}, names c = pre ++ suf → Free lower r pre →
      (∃ c', r.getSolver lower c.name = .ok c') → pre = [] := by
    intro pre suf hxs hf hc'
    cases pre with
    | nil => rfl
    | cons y ys =>
      exfalso
      rw [names, List.cons_append, List.cons.injEq] at hxs
      exact hf.2 y (List.mem_cons_self ..) (hxs.1 ▸ taken_iff.1 hc')
  rcases defineSolver_cases (lower := lower) c r with ⟨e', hr, he⟩ |
    ⟨he, n, hn, h2, pre, suf, hxs, hf, ⟨x, rest, hs, hm, hr⟩ | ⟨hs, ⟨hg, hr⟩ | ⟨g, hg, hr⟩⟩⟩
  · rw [hr] at hrun
    cases hrun
    exact ⟨fun _ _ h => h, fun _ _ => rfl, fun _ => rfl, fun _ => rfl⟩
  · rw [hr] at hrun
    cases hrun
    refine ⟨(look hxs hf).1, (look hxs hf).2, ?_, fun _ => rfl⟩
    rintro (h | h | h)
    · rw [name hxs hf h]
      simp [withNames]
    · exact absurd h he
    · exact absurd (h n hn) (by omega)
  · rw [hr] at hrun
    cases hrun
    refine ⟨(look hxs hf).1, (look hxs hf).2, ?_, fun _ => rfl⟩
    rintro (h | h | h)
    · rw [name hxs hf h]
      simp [withNames]
    · exact absurd h he
    · exact absurd (h n hn) (by omega)
  · rw [hr] at hrun
    simp only [Option.some.injEq, Prod.mk.injEq] at hrun
    obtain ⟨hb, rfl⟩ := hrun
    refine ⟨(look hxs hf).1, (look hxs hf).2, ?_, ?_⟩
    · rintro (h | h | h)
      · have := name hxs hf h
        subst this hs
        cases hxs
      · exact absurd h he
      · exact absurd (h n hn) (by omega)
    · intro h
      rw [hb] at h
      cases h

/-- **C54 is false**: `class MyEuler(ForwardEuler)` raises because of the inherited alias, and yet
`get_solver("MyEuler")`, which failed before, finds the class afterwards, although it is in no
group. -/
theorem C54_refuted : ∃ e r', (defineSolver Demo.low Demo.myEuler false).run Demo.packageRegistry
      = some (.error e, r') ∧
    Demo.packageRegistry.getSolver Demo.low "MyEuler" = .error .valueError ∧
    r'.getSolver Demo.low "MyEuler" = .ok Demo.myEuler ∧
    r'.groups = Demo.packageRegistry.groups := by
  obtain ⟨e, r', hr⟩ := C54_taken (lower := Demo.low) (c := Demo.myEuler)
    (r := Demo.packageRegistry) (k := "Euler") (by decide +kernel)
    (c' := packageClasses[10].toClass 10) (by decide +kernel)
  refine ⟨e, r', hr, by decide +kernel, ?_, (C54_rejected_partial hr).2.2.2 rfl⟩
  have : ((defineSolver Demo.low Demo.myEuler false).run Demo.packageRegistry).map
      (fun p => p.2.getSolver Demo.low "MyEuler") = some (.ok Demo.myEuler) := by
    decide +kernel
  rw [hr] at this
  exact Option.some.inj this

/-- A class without a group is rejected too, and also stays registered. -/
theorem C54_refuted_no_group :
    ∃ r', (defineSolver Demo.low Demo.orphan false).run Demo.packageRegistry
      = some (.error .attributeError, r') ∧
    r'.getSolver Demo.low "orphan" = .ok Demo.orphan := by
  have h : ((defineSolver Demo.low Demo.orphan false).run Demo.packageRegistry).map
      (fun p => (p.1, p.2.getSolver Demo.low "orphan"))
      = some (.error .attributeError, .ok Demo.orphan) := by
    decide +kernel
  cases hr : (defineSolver Demo.low Demo.orphan false).run Demo.packageRegistry with
  | none => rw [hr] at h; cases h
  | some p =>
    rw [hr] at h
    obtain ⟨h1, h2⟩ := Prod.mk.inj (Option.some.inj h)
    exact ⟨p.2, by rw [← h1], h2⟩

/-- The hypotheses of the theorems above are met by the package and by a new class. -/
example : ∃ r', (defineSolver Demo.low Demo.fineEuler false).run Demo.packageRegistry
      = some (.ok (), r') ∧
    (∃ c, Demo.packageRegistry.getSolver Demo.low "EULER" = .ok c) := by
  obtain ⟨res, r', hr, hiff⟩ := C54_checked (lower := Demo.low) Demo.fineEuler
    Demo.packageRegistry
  have h1 : (Demo.fineEuler).erkExplicit ≠ some false := by decide +kernel
  have h2 : (Demo.fineEuler).lenHistory = some 2 := by decide +kernel
  have h3 : ((names Demo.fineEuler).map Demo.low).Nodup := by decide +kernel
  have h4 : ∀ k ∈ names Demo.fineEuler,
      Demo.packageRegistry.getSolver Demo.low k = .error .valueError := by decide +kernel
  have h5 : (Demo.fineEuler).group = some "Euler" := by decide +kernel
  have h6 : (Demo.fineEuler).builds = .ok () := by decide +kernel
  have h7 : Demo.packageRegistry.getSolver Demo.low "EULER"
      = .ok (packageClasses[10].toClass 10) := by decide +kernel
  have : res = .ok () := hiff.2 ⟨h1, ⟨2, h2, by decide⟩, h3, h4, ⟨"Euler", h5⟩, h6⟩
  subst this
  exact ⟨r', hr, _, h7⟩

/-! ## C55: `get_solver` -/

/-- **C55**. In any registry a program can build: names that only differ in case give the same answer;
every class that was defined successfully is found under its name and all its aliases; whatever is
found was defined with that name or alias; everything else raises `ValueError`. -/
theorem C55_get_solver {h : List (Stmt κ)} {r : Registry κ ℓ} (hi : Imported lower h r) :
    (∀ x x', lower x = lower x' → r.getSolver lower x = r.getSolver lower x') ∧
    (∀ c ∈ accepted h, ∀ k ∈ names c, ∀ x, lower x = lower k → r.getSolver lower x = .ok c) ∧
    (∀ x c, r.getSolver lower x = .ok c →
      ∃ d ∈ h, d.abstract = false ∧ d.cls = c ∧ ∃ k ∈ names c, lower k = lower x) ∧
    (∀ x, (∃ c, r.getSolver lower x = .ok c) ∨ r.getSolver lower x = .error .valueError) ∧
    (∀ x, ¬ Claimed lower h x → r.getSolver lower x = .error .valueError) := by
  have hinv := inv_of_imported hi
  have found : ∀ x c, r.getSolver lower x = .ok c →
      ∃ d ∈ h, d.abstract = false ∧ d.cls = c ∧ ∃ k ∈ names c, lower k = lower x := by
    intro x c hx
    obtain ⟨k, hk⟩ := (getItem_ok_iff hinv.ns).1 hx
    obtain ⟨h1, h2, d, hd, h3, h4⟩ := hinv.own _ _ _ hk
    exact ⟨d, hd, h3, h4, k, h2, h1.symm⟩
  refine ⟨?_, ?_, found, getSolver_cases r, ?_⟩
  · intro x x' hx
    rw [getSolver, getSolver, CIDict.getItem, CIDict.getItem, hx]
  · intro c hc k hk x hx
    rw [getItem_ok_iff hinv.ns, hx]
    exact ⟨k, hinv.kept c hc k hk⟩
  · intro x hx
    refine (getSolver_cases r x).resolve_left ?_
    rintro ⟨c, hc⟩
    obtain ⟨d, hd, h1, h2, k, hk, he⟩ := found x c hc
    exact hx ⟨d, hd, h1, k, h2 ▸ hk, he⟩

/-- On the package: classes are found under names in any case, an alias is one of the names, and an
unknown name raises. -/
example : Demo.packageRegistry.getSolver Demo.low "bdf3" = .ok (packageClasses[14].toClass 14) ∧
    Demo.packageRegistry.getSolver Demo.low "eULER" = .ok (packageClasses[10].toClass 10) ∧
    Demo.packageRegistry.getSolver Demo.low "not_a_solver" = .error .valueError := by
  obtain ⟨h1, h2, h3, h4, h5⟩ := C55_get_solver Demo.imported_package
  rw [Demo.accepted_okHistory] at h2
  refine ⟨?_, ?_, by decide +kernel⟩
  · exact h2 _ (Demo.mem_packageSolvers 14 (by decide)) "BDF3" (by decide +kernel) _
      (by decide +kernel)
  · exact h2 _ (Demo.mem_packageSolvers 10 (by decide)) "Euler" (by decide +kernel) _
      (by decide +kernel)

/-! ## C52: `get_solvers` -/

open Classical in
/-- **C52** (exact). In any registry built from classes that declare their attributes and can build
their step functions, `get_solvers(*groups, ...)` answers, group by group in the order given and in
registration order within a group, exactly the accepted classes of the group that satisfy every filter
given. An unknown group raises `KeyError`. -/
theorem C52_groups {h : List (Stmt κ)} {r : Registry κ ℓ} (hi : Imported lower h r)
    (hb : ∀ d ∈ h, d.cls.builds = .ok ()) (hc : ∀ c ∈ accepted h, Classified c)
    (groups : List κ) (hne : groups ≠ []) (f : Filters) :
    r.getSolvers lower groups f =
      if ∀ g ∈ groups, ∃ c ∈ accepted h, InGroup lower g c then
        .ok (groups.flatMap fun g =>
          (accepted h).filter fun c => decide (InGroup lower g c ∧ Wanted f c))
      else .error .keyError := by
  obtain ⟨h1, h2⟩ := members_of_imported hi hb
  have hin : ∀ g c, c.group.map lower = some (lower g) ↔ InGroup lower g c := by
    intro g c
    rw [InGroup, Option.map_eq_some_iff]
  have hcl : ∀ g ∈ groups, ∀ c ∈ members r (lower g), Classified c := by
    intro g _ c hcm
    rw [h1] at hcm
    exact hc c (List.mem_of_mem_filter hcm)
  have hget : r.getSolvers lower groups f = collect lower r f groups := by
    cases groups with
    | nil => exact absurd rfl hne
    | cons g gs => rfl
  rw [hget]
  split
  · rename_i hall
    rw [collect_eq ?_ hcl]
    · congr 1
      rw [List.filter_flatMap]
      congr 1
      funext g
      rw [h1, List.filter_filter]
      congr 1
      funext c
      by_cases ha : InGroup lower g c <;> by_cases hw : Wanted f c <;> simp [ha, hw, hin]
    · intro g hg
      obtain ⟨c, hc', hg'⟩ := hall g hg
      exact (h2 _).2 ⟨c, hc', (hin g c).2 hg'⟩
  · rename_i hall
    apply collect_unknown _ hcl
    by_contra hno
    apply hall
    intro g hg
    by_contra hex
    apply hno
    refine ⟨g, hg, ?_⟩
    intro hmem
    obtain ⟨c, hc', hg'⟩ := (h2 _).1 hmem
    exact hex ⟨c, hc', (hin g c).1 hg'⟩

open Classical in
/-- **C52** (no groups). `get_solvers(...)` without groups answers each accepted class that satisfies
the filters exactly once; the classes of one group come in registration order. -/
theorem C52_all {h : List (Stmt κ)} {r : Registry κ ℓ} (hi : Imported lower h r)
    (hb : ∀ d ∈ h, d.cls.builds = .ok ()) (hc : ∀ c ∈ accepted h, Classified c) (f : Filters) :
    ∃ out, r.getSolvers lower [] f = .ok out ∧ out.Nodup ∧
      (∀ c, c ∈ out ↔ c ∈ accepted h ∧ Wanted f c) ∧
      ∀ g, (out.filter fun c => decide (InGroup lower g c)) =
        (accepted h).filter fun c => decide (InGroup lower g c ∧ Wanted f c) := by
  obtain ⟨h1, h2⟩ := members_of_imported hi hb
  have hinv := inv_of_imported hi
  have hin : ∀ g c, c.group.map lower = some (lower g) ↔ InGroup lower g c := by
    intro g c
    rw [InGroup, Option.map_eq_some_iff]
  have hkeys : r.groups.iter.map lower = r.groups.store.map Prod.fst := by
    rw [CIDict.iter, List.map_map]
    apply List.map_congr_left
    rintro ⟨l, g, cs⟩ he
    exact (hinv.gkey l g cs he).symm
  have hmemk : ∀ g ∈ r.groups.iter, lower g ∈ r.groups.store.map Prod.fst := by
    intro g hg
    rw [← hkeys]
    exact List.mem_map_of_mem hg
  have hcl : ∀ g ∈ r.groups.iter, ∀ c ∈ members r (lower g), Classified c := by
    intro g _ c hcm
    rw [h1] at hcm
    exact hc c (List.mem_of_mem_filter hcm)
  set ls := r.groups.store.map Prod.fst with hls
  have hflat : (r.groups.iter.flatMap fun g => members r (lower g))
      = ls.flatMap fun l => (accepted h).filter fun c => decide (c.group.map lower = some l) := by
    rw [← hkeys, List.flatMap_map]
    congr 1
    funext g
    rw [h1]
  have hcover : ∀ c ∈ accepted h, ∃ l ∈ ls, c.group.map lower = some l := by
    intro c hc'
    have : ∃ g, c.group = some g := by
      obtain ⟨g, -, hg, -⟩ := C54_once (κ := κ) hi hb hc'
      exact ⟨g, hg⟩
    obtain ⟨g, hg⟩ := this
    exact ⟨lower g, (h2 _).2 ⟨c, hc', by rw [hg]; rfl⟩, by rw [hg]; rfl⟩
  have hperm := perm_flatMap_filter (fun c : SolverClass κ => c.group.map lower) (accepted h) ls
    hinv.ng hcover
  refine ⟨_, collect_eq hmemk hcl, ?_, ?_, ?_⟩
  · rw [hflat]
    exact (hperm.nodup_iff.2 (accepted_nodup hi)).filter _
  · intro c
    rw [List.mem_filter, hflat, hperm.mem_iff, decide_eq_true_eq]
  · intro g
    rw [hflat, List.filter_comm, List.filter_flatMap]
    have hpick : ∀ ls : List ℓ, ls.Nodup →
        (ls.flatMap fun l => ((accepted h).filter fun c => decide (c.group.map lower = some l)).filter
          fun c => decide (InGroup lower g c))
        = if lower g ∈ ls then (accepted h).filter fun c => decide (InGroup lower g c) else [] := by
      intro ls hn
      induction ls with
      | nil => rfl
      | cons l ls ih =>
        rw [List.nodup_cons] at hn
        rw [List.flatMap_cons, ih hn.2, List.filter_filter]
        by_cases hl : lower g = l
        · subst hl
          rw [if_neg hn.1, List.append_nil, if_pos (List.mem_cons_self ..)]
          congr 1
          funext c
          by_cases ha : InGroup lower g c <;> simp [ha, hin]
        · have hempty : ((accepted h).filter fun c =>
              decide (InGroup lower g c) && decide (c.group.map lower = some l)) = [] := by
            rw [List.filter_eq_nil_iff]
            intro c _ hc'
            simp only [Bool.and_eq_true, decide_eq_true_eq] at hc'
            have := (hin g c).2 hc'.1
            rw [hc'.2] at this
            exact hl (Option.some.inj this).symm
          rw [hempty, List.nil_append]
          simp [hl]
    rw [hpick ls hinv.ng]
    split
    · rw [List.filter_filter]
      congr 1
      funext c
      by_cases ha : InGroup lower g c <;> by_cases hw : Wanted f c <;> simp [ha, hw]
    · rename_i hno
      symm
      rw [List.filter_nil, List.filter_eq_nil_iff]
      intro c hc' hc''
      simp only [decide_eq_true_eq] at hc''
      exact hno ((h2 _).2 ⟨c, hc', (hin g c).2 hc''.1⟩)

/-- The filters with the `i`-th one set to `b`. -/
def setFilter (f : Filters) (i : Fin 4) (b : Option Bool) : Filters :=
  match i with
  | 0 => { f with implicit := b }
  | 1 => { f with fixedStep := b }
  | 2 => { f with rungeKutta := b }
  | 3 => { f with multistep := b }

omit [DecidableEq ℓ] in
theorem wanted_split {c : SolverClass κ} (hc : Classified c) (f : Filters) (i : Fin 4) :
    (Wanted (setFilter f i none) c ↔
      Wanted (setFilter f i (some true)) c ∨ Wanted (setFilter f i (some false)) c) ∧
    ¬ (Wanted (setFilter f i (some true)) c ∧ Wanted (setFilter f i (some false)) c) := by
  obtain ⟨⟨bi, h1⟩, ⟨bf, h2⟩⟩ := hc
  unfold Wanted
  rw [h1, h2]
  match i with
  | 0 => cases bi <;> simp [setFilter]
  | 1 => cases bf <;> simp [setFilter]
  | 2 => cases h : c.isRungeKutta <;> simp [setFilter]
  | 3 => cases h : c.isMultistep <;> simp [setFilter]

/-- **C52** (partition). The True and the False half of any filter partition the result without that
filter: every class of it is in exactly one of the halves, and the halves contain nothing else. -/
theorem C52_partition {h : List (Stmt κ)} {r : Registry κ ℓ} (hi : Imported lower h r)
    (hb : ∀ d ∈ h, d.cls.builds = .ok ()) (hc : ∀ c ∈ accepted h, Classified c) (f : Filters)
    (i : Fin 4) :
    ∃ all yes no, r.getSolvers lower [] (setFilter f i none) = .ok all ∧
      r.getSolvers lower [] (setFilter f i (some true)) = .ok yes ∧
      r.getSolvers lower [] (setFilter f i (some false)) = .ok no ∧ (yes ++ no).Perm all := by
  obtain ⟨all, ha, na, ma, -⟩ := C52_all hi hb hc (setFilter f i none)
  obtain ⟨yes, hy, ny, my, -⟩ := C52_all hi hb hc (setFilter f i (some true))
  obtain ⟨no, hn, nn, mn, -⟩ := C52_all hi hb hc (setFilter f i (some false))
  refine ⟨all, yes, no, ha, hy, hn, ?_⟩
  refine (List.perm_ext_iff_of_nodup (List.Nodup.append ny nn ?_) na).2 ?_
  · intro c h1 h2
    exact (wanted_split (hc c ((my c).1 h1).1) f i).2 ⟨((my c).1 h1).2, ((mn c).1 h2).2⟩
  · intro c
    rw [List.mem_append, my, mn, ma]
    constructor
    · rintro (⟨h1, h2⟩ | ⟨h1, h2⟩)
      · exact ⟨h1, (wanted_split (hc c h1) f i).1.2 (Or.inl h2)⟩
      · exact ⟨h1, (wanted_split (hc c h1) f i).1.2 (Or.inr h2)⟩
    · rintro ⟨h1, h2⟩
      rcases (wanted_split (hc c h1) f i).1.1 h2 with h3 | h3
      · exact Or.inl ⟨h1, h3⟩
      · exact Or.inr ⟨h1, h3⟩

theorem package_builds : ∀ d ∈ Demo.okHistory Demo.packageSolvers, d.cls.builds = .ok () := by
  intro d hd
  obtain ⟨c, hc, rfl⟩ := List.mem_map.1 hd
  rw [Demo.packageSolvers] at hc
  obtain ⟨⟨d, i⟩, -, rfl⟩ := List.mem_map.1 hc
  rfl

theorem package_classified :
    ∀ c ∈ accepted (Demo.okHistory Demo.packageSolvers), Classified c := by
  rw [Demo.accepted_okHistory, Demo.packageSolvers]
  intro c hc
  obtain ⟨⟨⟨n, a, g, fs, sch⟩, i⟩, -, rfl⟩ := List.mem_map.1 hc
  cases sch
  · exact ⟨⟨_, rfl⟩, ⟨_, rfl⟩⟩
  · exact ⟨⟨_, rfl⟩, ⟨_, rfl⟩⟩

/-- On the package: 26 solvers, 2 of them in the group "euler" in any case, 23 of fixed step; an
unknown group raises. -/
example : (Demo.packageRegistry.getSolvers Demo.low [] {}).map List.length = .ok 26 ∧
    (Demo.packageRegistry.getSolvers Demo.low ["euler"] {}).map List.length = .ok 2 ∧
    (Demo.packageRegistry.getSolvers Demo.low [] { fixedStep := some true }).map List.length
      = .ok 23 ∧
    Demo.packageRegistry.getSolvers Demo.low ["nope"] {} = .error .keyError ∧
    (∃ all yes no, Demo.packageRegistry.getSolvers Demo.low [] {} = .ok all ∧
      Demo.packageRegistry.getSolvers Demo.low [] { multistep := some true } = .ok yes ∧
      Demo.packageRegistry.getSolvers Demo.low [] { multistep := some false } = .ok no ∧
      (yes ++ no).Perm all) :=
  ⟨by decide +kernel, by decide +kernel, by decide +kernel, by decide +kernel,
    C52_partition Demo.imported_package package_builds package_classified {} 3⟩

/-! ## C53: the `implicit` filter -/

/-- **C53** (partial: what the filter does). Among the classes of the package and the ones users
derive from `Multistep` or `ERK`, `get_solvers(implicit=True)` is right about the Runge–Kutta classes:
none is implicit and none is returned. For multistep classes it is inverted: it returns exactly those
whose formula is explicit. -/
theorem C53_inverted_partial {h : List (Stmt String)} {r : Registry String ℓ} {lower : String → ℓ}
    (hi : Imported lower h r) (hb : ∀ d ∈ h, d.cls.builds = .ok ())
    (hc : ∀ c ∈ accepted h, Classified c) :
    ∃ out, r.getSolvers lower [] { implicit := some true } = .ok out ∧
      ∀ (d : ClassStmt) (i : Nat), d.toClass i ∈ accepted h →
        match d.scheme with
        | .erk _ _ => ¬ Implicit d.scheme ∧ d.toClass i ∉ out
        | .multistep _ _ => (d.toClass i ∈ out ↔ ¬ Implicit d.scheme) := by
  obtain ⟨out, ho, -, hm, -⟩ := C52_all hi hb hc { implicit := some true }
  refine ⟨out, ho, ?_⟩
  rintro ⟨n, a, g, fs, sch⟩ i hacc
  cases sch with
  | erk s T =>
    refine ⟨?_, ?_⟩
    · have hex : T.explicit = true := by
        have hh : ∀ {h r}, Imported lower h r → ∀ c ∈ accepted h, c.erkExplicit ≠ some false := by
          intro h r hi
          induction hi with
          | start => intro c hc; cases hc
          | @define h r r' c' abstract res hi hrun ih =>
            intro c hc
            rw [accepted_append, List.mem_append] at hc
            rcases hc with hc | hc
            · exact ih c hc
            · obtain ⟨d, hd, rfl, h2, h3⟩ := mem_accepted.1 hc
              rw [List.mem_singleton] at hd
              subst hd
              simp only at h2 h3
              subst h2 h3
              obtain ⟨res, r'', hr, hiff⟩ := C54_checked (lower := lower) c' r
              rw [hrun] at hr
              cases hr
              exact (hiff.1 rfl).1
        have := hh hi _ hacc
        cases he : T.explicit with
        | true => rfl
        | false => exact absurd (show (some T.explicit : Option Bool) = some false by rw [he]) this
      rintro ⟨p, q, hpq, hne⟩
      simp only [Tableau.explicit, List.all_eq_true, List.mem_finRange, forall_const,
        decide_eq_true_eq] at hex
      exact hne (hex p q hpq)
    · intro hmem
      have := (hm _).1 hmem
      have h1 := this.2.1 true rfl
      cases h1
  | multistep p c =>
    show _ ↔ ¬ (c.Bn ≠ 0)
    rw [hm, not_not]
    constructor
    · rintro ⟨-, hw, -⟩
      have := hw true rfl
      have h2 : ClassAttr.bool (c.Bn == 0) = .bool true := this
      simpa using h2
    · intro h0
      refine ⟨hacc, ?_, by simp, by simp, by simp⟩
      intro b hb'
      cases hb'
      show ClassAttr.bool (c.Bn == 0) = .bool true
      rw [h0]
      rfl

/-- **C53 is false**: after `import nbkode`, `get_solvers(implicit=True)` contains the explicit
`ForwardEuler` and `AdamsBashforth2` and lacks the implicit `BackwardEuler` and `BDF2`. -/
theorem C53_refuted : ∃ out,
    Demo.packageRegistry.getSolvers Demo.low [] { implicit := some true } = .ok out ∧
    (¬ Implicit packageClasses[10].scheme ∧ packageClasses[10].toClass 10 ∈ out) ∧
    (¬ Implicit packageClasses[1].scheme ∧ packageClasses[1].toClass 1 ∈ out) ∧
    (Implicit packageClasses[11].scheme ∧ packageClasses[11].toClass 11 ∉ out) ∧
    (Implicit packageClasses[13].scheme ∧ packageClasses[13].toClass 13 ∉ out) := by
  obtain ⟨out, ho, h⟩ := C53_inverted_partial Demo.imported_package package_builds package_classified
  have acc : ∀ i (hi : i < packageClasses.length), packageClasses[i].toClass i ∈
      accepted (Demo.okHistory Demo.packageSolvers) := by
    intro i hi
    rw [Demo.accepted_okHistory]
    exact Demo.mem_packageSolvers i hi
  have e10 : ¬ Implicit packageClasses[10].scheme := by
    show ¬ ((ForwardEuler : MultistepCoef ℚ 0).Bn ≠ 0)
    exact not_not.2 rfl
  have e1 : ¬ Implicit packageClasses[1].scheme := by
    show ¬ ((AdamsBashforth2 : MultistepCoef ℚ 1).Bn ≠ 0)
    exact not_not.2 rfl
  have i11 : Implicit packageClasses[11].scheme := by
    show (BackwardEuler : MultistepCoef ℚ 0).Bn ≠ 0
    decide +kernel
  have i13 : Implicit packageClasses[13].scheme := by
    show (BDF2 : MultistepCoef ℚ 1).Bn ≠ 0
    decide +kernel
  refine ⟨out, ho, ⟨e10, ?_⟩, ⟨e1, ?_⟩, ⟨i11, ?_⟩, ⟨i13, ?_⟩⟩
  · exact (h _ 10 (acc 10 (by decide))).2 e10
  · exact (h _ 1 (acc 1 (by decide))).2 e1
  · exact fun hm => (h _ 11 (acc 11 (by decide))).1 hm i11
  · exact fun hm => (h _ 13 (acc 13 (by decide))).1 hm i13

end Nbkode
