import Verif.Props.Registry
import Mathlib.Data.List.Basic

/-! # C60–C62: listing the solvers, `dir(nbkode)` and `nbkode.<name>` -/

set_option autoImplicit false
set_option linter.unusedSectionVars false

namespace Nbkode
open Spec Registry

variable {κ ℓ : Type} [DecidableEq κ] [DecidableEq ℓ] {lower : κ → ℓ}

/-! ## C60: `list_solvers` and `get_groups` -/

theorem mapM_ok {A B : Type} {f : A → Except Err B} {g : A → B} {l : List A}
    (h : ∀ a ∈ l, f a = .ok (g a)) : l.mapM f = .ok (l.map g) := by
  induction l with
  | nil => rfl
  | cons a l ih =>
    rw [List.mapM_cons, h a (List.mem_cons_self ..), ih fun b hb => h b (List.mem_cons_of_mem _ hb)]
    rfl

theorem items_of_imported {h : List (Stmt κ)} {r : Registry κ ℓ} (hi : Imported lower h r) :
    r.solvers.items lower = .ok (r.solvers.store.map fun e => e.2) := by
  have hinv := inv_of_imported hi
  have h1 : ∀ e ∈ r.solvers.store, (do return (e.2.1, ← r.solvers.getItem lower e.2.1) :
      Except Err (κ × SolverClass κ)) = .ok e.2 := by
    rintro ⟨l, k, c⟩ he
    have hl := (hinv.own l k c he).1
    have : r.solvers.getItem lower k = .ok c := by
      rw [CIDict.getItem, ← hl, (ODict.get?_eq_some hinv.ns).2 he]
    simp only [this]
    rfl
  have h2 := mapM_ok h1
  rw [CIDict.items, CIDict.iter, List.mapM_map]
  exact h2

/-- The line that shows the name or alias `k` of the class `c`. -/
def lineOf (c : SolverClass κ) (k : κ) : Line κ := if k = c.name then .name k else .alias k c.name

/-- **C60** (exact). If no definition failed, `list_solvers()` shows, for each solver in the order of
definition, its name and then its aliases; `list_solvers(include_alias=False)` shows the names only. -/
theorem C60_list {h : List (Stmt κ)} {r : Registry κ ℓ} (hi : Imported lower h r)
    (hok : ∀ d ∈ h, d.outcome = .ok ()) :
    r.listSolvers lower true =
      .ok ((accepted h).flatMap fun c => .name c.name :: c.aliases.map fun a => .alias a c.name) ∧
    r.listSolvers lower false = .ok ((accepted h).map fun c => .name c.name) := by
  have hinv := inv_of_imported hi
  have hst := store_of_imported hi hok
  have hal : ∀ c ∈ accepted h, ∀ a ∈ c.aliases, a ≠ c.name := by
    intro c hc a ha heq
    have hn := hinv.ns
    rw [hst, List.map_flatMap] at hn
    have := (List.nodup_flatMap.1 hn).1 c hc
    rw [List.map_map, names, List.map_cons, List.nodup_cons] at this
    exact this.1 (List.mem_map.2 ⟨a, ha, by rw [heq]⟩)
  constructor
  · simp only [listSolvers, items_of_imported hi]
    refine congrArg Except.ok ?_
    rw [hst, List.map_flatMap, List.filterMap_flatMap]
    apply List.flatMap_congr
    intro c hc
    simp only [names, List.map_map, List.filterMap_map, List.filterMap_cons, Function.comp]
    simp only [if_true, List.cons.injEq, true_and]
    rw [← List.filterMap_eq_map]
    apply List.filterMap_congr
    intro a ha
    simp [hal c hc a ha]
  · simp only [listSolvers, items_of_imported hi]
    refine congrArg Except.ok ?_
    rw [hst, List.map_flatMap, List.filterMap_flatMap]
    rw [← List.flatMap_pure_eq_map]
    apply List.flatMap_congr
    intro c hc
    simp only [names, List.map_map, List.filterMap_map, List.filterMap_cons, Function.comp]
    simp only [if_true]
    refine congrArg (List.cons _) ?_
    rw [List.filterMap_eq_nil_iff]
    intro a ha
    simp [hal c hc a ha]

/-- **C60** (whatever failed). In any registry a program can build, each solver that was defined
successfully is shown exactly once by name, and once per alias if aliases are included. -/
theorem C60_once {h : List (Stmt κ)} {r : Registry κ ℓ} (hi : Imported lower h r) (b : Bool) :
    ∃ out, r.listSolvers lower b = .ok out ∧ out.Nodup ∧
      ∀ c ∈ accepted h, Line.name c.name ∈ out ∧
        (b = true → ∀ a ∈ c.aliases, a ≠ c.name → Line.alias a c.name ∈ out) := by
  have hinv := inv_of_imported hi
  refine ⟨_, by simp only [listSolvers, items_of_imported hi]; rfl, ?_, ?_⟩
  · have hk : (r.solvers.store.map fun e => e.2.1).Nodup := by
      have h1 : r.solvers.store.map Prod.fst = (r.solvers.store.map fun e => e.2.1).map lower := by
        rw [List.map_map]
        apply List.map_congr_left
        rintro ⟨l, k, c⟩ he
        exact (hinv.own l k c he).1
      have := hinv.ns
      rw [h1] at this
      exact List.Nodup.of_map _ this
    rw [List.filterMap_map]
    have : ∀ s : List (ℓ × (κ × SolverClass κ)), (s.map fun e => e.2.1).Nodup →
        (s.filterMap ((fun kv : κ × SolverClass κ =>
          if kv.1 = kv.2.name then some (Line.name kv.1)
          else if b = true then some (Line.alias kv.1 kv.2.name) else none) ∘ fun e => e.2)).Nodup := by
      intro s hs
      have hp : s.Pairwise fun e e' => e.2.1 ≠ e'.2.1 := List.pairwise_map.1 hs
      rw [List.Nodup, List.pairwise_filterMap]
      refine hp.imp ?_
      rintro ⟨l, k, c⟩ ⟨l', k', c'⟩ hne x hx y hy hxy
      subst hxy
      simp only [Function.comp] at hx hy hne
      apply hne
      have t1 : x.text = k := by
        split at hx
        · cases hx; rfl
        · split at hx <;> cases hx
          rfl
      have t2 : x.text = k' := by
        split at hy
        · cases hy; rfl
        · split at hy <;> cases hy
          rfl
      exact t1.symm.trans t2
    exact this _ hk
  · intro c hc
    constructor
    · rw [List.mem_filterMap]
      refine ⟨(c.name, c), List.mem_map.2 ⟨_, hinv.kept c hc c.name (List.mem_cons_self ..), rfl⟩, ?_⟩
      simp
    · intro hb a ha hne
      rw [List.mem_filterMap]
      refine ⟨(a, c), List.mem_map.2 ⟨_, hinv.kept c hc a (List.mem_cons_of_mem _ ha), rfl⟩, ?_⟩
      simp [hne, hb]

theorem group_spelling {h : List (Stmt κ)} {r : Registry κ ℓ} (hi : Imported lower h r)
    (hb : ∀ d ∈ h, d.cls.builds = .ok ()) {l : ℓ} {g : κ} {cs : List (SolverClass κ)}
    (hm : (l, (g, cs)) ∈ r.groups.store) : ∃ c ∈ accepted h, c.group = some g := by
  induction hi generalizing l g cs with
  | start => cases hm
  | @define h r r' c abstract res hi hrun ih =>
    replace ih := @ih fun d hd => hb d (List.mem_append_left _ hd)
    have keep : (∃ c' ∈ accepted h, c'.group = some g) →
        ∃ c' ∈ accepted (h ++ [⟨c, abstract, res⟩]), c'.group = some g := by
      rintro ⟨c', hc', hg⟩
      exact ⟨c', by rw [accepted_append]; exact List.mem_append_left _ hc', hg⟩
    cases abstract with
    | true =>
      rw [defineSolver_abstract] at hrun
      cases hrun
      exact keep (ih hm)
    | false =>
      rcases defineSolver_cases (lower := lower) c r with ⟨e, hr, he⟩ |
        ⟨he, n, hn, h2, pre, suf, hxs, hf, ⟨x, rest, hs, hmem, hr⟩ | ⟨hs, ⟨hg, hr⟩ | ⟨g', hg, hr⟩⟩⟩
      · rw [hr] at hrun
        cases hrun
        exact keep (ih hm)
      · rw [hr] at hrun
        cases hrun
        exact keep (ih hm)
      · rw [hr] at hrun
        cases hrun
        exact keep (ih hm)
      · have hok : c.builds = .ok () := hb ⟨c, false, res⟩ (by simp)
        rw [hr, hok] at hrun
        cases hrun
        have hn' : ((withGroup lower (withNames lower r c pre) c g').groups.store.map Prod.fst).Nodup :=
          nodup_withGroup (inv_of_imported hi).ng
        rw [← ODict.get?_eq_some hn', get?_withGroup] at hm
        have hnew : ∃ c' ∈ accepted (h ++ [⟨c, false, .ok ()⟩]), c'.group = some g' :=
          ⟨c, by rw [accepted_append, accepted_ok]; simp, hg⟩
        by_cases h' : l = lower g'
        · rw [if_pos h'] at hm
          have hgr : (withNames lower r c pre).groups = r.groups := rfl
          rw [hgr] at hm
          cases hget : r.groups.store.get? (lower g') with
          | none =>
            rw [hget] at hm
            simp only [Option.some.injEq, Prod.mk.injEq] at hm
            rw [← hm.1]
            exact hnew
          | some kv =>
            rw [hget] at hm
            simp only [Option.some.injEq, Prod.mk.injEq] at hm
            have hold := (ODict.get?_eq_some (inv_of_imported hi).ng).1 hget
            obtain ⟨g₁, cs₁⟩ := kv
            obtain ⟨rfl, -⟩ := hm
            exact keep (ih hold)
        · rw [if_neg h'] at hm
          exact keep (ih ((ODict.get?_eq_some (inv_of_imported hi).ng).1 hm))

/-- **C60** (groups). `get_groups()` is sorted, names each group once, however its members spell it,
with the spelling of one of its members, and covers every solver. -/
theorem C60_groups {le : κ → κ → Bool} (htr : ∀ a b c, le a b = true → le b c = true → le a c = true)
    (htot : ∀ a b, (le a b || le b a) = true) {h : List (Stmt κ)} {r : Registry κ ℓ}
    (hi : Imported lower h r) (hb : ∀ d ∈ h, d.cls.builds = .ok ()) :
    (r.getGroups le).Pairwise (fun a b => le a b = true) ∧
    ((r.getGroups le).map lower).Nodup ∧
    (∀ g ∈ r.getGroups le, ∃ c ∈ accepted h, c.group = some g) ∧
    ∀ c ∈ accepted h, ∃ g ∈ r.getGroups le, InGroup lower g c := by
  have hinv := inv_of_imported hi
  have hperm : (r.getGroups le).Perm r.groups.iter := List.mergeSort_perm _ _
  have hkeys : r.groups.iter.map lower = r.groups.store.map Prod.fst := by
    rw [CIDict.iter, List.map_map]
    apply List.map_congr_left
    rintro ⟨l, g, cs⟩ he
    exact (hinv.gkey l g cs he).symm
  refine ⟨List.pairwise_mergeSort htr htot _, ?_, ?_, ?_⟩
  · rw [(hperm.map lower).nodup_iff, hkeys]
    exact hinv.ng
  · intro g hg
    rw [hperm.mem_iff, CIDict.iter, List.mem_map] at hg
    obtain ⟨⟨l, g', cs⟩, hm, rfl⟩ := hg
    exact group_spelling hi hb hm
  · intro c hc
    obtain ⟨g, -, hg, -⟩ := C54_once hi hb hc
    have hmem : lower g ∈ r.groups.store.map Prod.fst :=
      ((members_of_imported hi hb).2 _).2 ⟨c, hc, by rw [hg]; rfl⟩
    rw [← hkeys, List.mem_map] at hmem
    obtain ⟨g', hg', he⟩ := hmem
    exact ⟨g', hperm.mem_iff.2 hg', g, hg, he.symm⟩

theorem package_ok : ∀ d ∈ Demo.okHistory Demo.packageSolvers, d.outcome = .ok () := by
  intro d hd
  obtain ⟨c, hc, rfl⟩ := List.mem_map.1 hd
  rfl

/-- On the package: 27 lines with the alias, 26 without, and 5 groups. -/
example : (∃ l, Demo.packageRegistry.listSolvers Demo.low true = .ok l ∧ l.length = 27 ∧
      .alias "Euler" "ForwardEuler" ∈ l) ∧
    (∃ l, Demo.packageRegistry.listSolvers Demo.low false = .ok l ∧ l.length = 26) ∧
    (Demo.packageRegistry.getGroups fun a b => decide (a.toList ≤ b.toList)).length = 5 := by
  obtain ⟨h1, h2⟩ := C60_list Demo.imported_package package_ok
  rw [Demo.accepted_okHistory] at h1 h2
  refine ⟨⟨_, h1, by decide +kernel, by decide +kernel⟩, ⟨_, h2, by decide +kernel⟩, ?_⟩
  rw [getGroups, List.length_mergeSort]
  decide +kernel

/-! ## C61: `dir(nbkode)` -/

/-- What C61 asks of an answer of `dir(nbkode)`: sorted, and nothing but the helper functions and the
names of the solvers defined so far, each once. -/
def Spec.DirOf (le : κ → κ → Bool) (fixed : List κ) (h : List (Stmt κ)) (out : List κ) : Prop :=
  out.Pairwise (fun a b => le a b = true) ∧ out.Perm (fixed ++ (accepted h).map (·.name))

/-- **C61** (partial: the first call). The first `dir(nbkode)` is right. Missing: later calls
(`C61_refuted`). -/
theorem C61_first_partial {le : κ → κ → Bool}
    (htr : ∀ a b c, le a b = true → le b c = true → le a c = true)
    (htot : ∀ a b, (le a b || le b a) = true) (fixed : List κ) {h : List (Stmt κ)}
    {r : Registry κ ℓ} (hi : Imported lower h r) (hok : ∀ d ∈ h, d.outcome = .ok ()) :
    ∃ out, (pkgDir lower le fixed).run ⟨r, none⟩ = some (.ok out, ⟨r, some out⟩) ∧
      Spec.DirOf le fixed h out := by
  have h2 := (C60_list hi hok).2
  refine ⟨_, ?_, List.pairwise_mergeSort htr htot (fixed ++ (accepted h).map (·.name)),
    List.mergeSort_perm _ _⟩
  simp only [pkgDir, Py.run_bind, Py.run_get, Py.andThen_ok, h2, Py.run_ofExcept, Py.run_set,
    Py.run_pure, List.map_map]
  rfl

/-- Once `dir(nbkode)` has answered, it gives the same answer for ever, whatever is defined. -/
theorem C61_frozen (le : κ → κ → Bool) {fixed : List κ} (hf : fixed ≠ []) {r : Registry κ ℓ}
    {out : List κ} (h1 : (pkgDir lower le fixed).run ⟨r, none⟩ = some (.ok out, ⟨r, some out⟩))
    (r' : Registry κ ℓ) :
    (pkgDir lower le fixed).run ⟨r', some out⟩ = some (.ok out, ⟨r', some out⟩) := by
  have hne : out ≠ [] := by
    rintro rfl
    simp only [pkgDir, Py.run_bind, Py.run_get, Py.andThen_ok, Py.run_ofExcept, Py.run_set,
      Py.run_pure] at h1
    cases hl : r.listSolvers lower false with
    | error e =>
      rw [hl] at h1
      simp at h1
    | ok ls =>
      rw [hl] at h1
      simp only [Py.andThen_ok, Option.some.injEq, Prod.mk.injEq, Except.ok.injEq] at h1
      have := congrArg List.length h1.1
      rw [List.length_mergeSort, List.length_append] at this
      simp only [List.length_nil, Nat.add_eq_zero_iff, List.length_eq_zero_iff] at this
      exact hf this.1
  cases out with
  | nil => exact absurd rfl hne
  | cons n ns => rfl

/-- The order of names used in the examples: by code point, as `sorted` does. -/
def Demo.strLe (a b : String) : Bool := decide (a.toList ≤ b.toList)

/-- The helper functions listed by `dir(nbkode)` (`nbkode/__init__.py:55`). -/
def Demo.helpers : List String := ["get_groups", "get_solvers", "get_solver", "test"]

theorem fineEuler_defined : ∃ r', (defineSolver Demo.low Demo.fineEuler false).run
    Demo.packageRegistry = some (.ok (), r') := by
  obtain ⟨res, r', hr, hiff⟩ := C54_checked (lower := Demo.low) Demo.fineEuler Demo.packageRegistry
  have h1 : (Demo.fineEuler).erkExplicit ≠ some false := by decide +kernel
  have h2 : (Demo.fineEuler).lenHistory = some 2 := by decide +kernel
  have h3 : ((names Demo.fineEuler).map Demo.low).Nodup := by decide +kernel
  have h4 : ∀ k ∈ names Demo.fineEuler,
      Demo.packageRegistry.getSolver Demo.low k = .error .valueError := by decide +kernel
  have h5 : (Demo.fineEuler).group = some "Euler" := by decide +kernel
  have h6 : (Demo.fineEuler).builds = .ok () := by decide +kernel
  have : res = .ok () := hiff.2 ⟨h1, ⟨2, h2, by decide⟩, h3, h4, ⟨"Euler", h5⟩, h6⟩
  subst this
  exact ⟨r', hr⟩

/-- **C61 is false**: `dir(nbkode)`, a successful `class FineEuler(...)`, `dir(nbkode)`: the second
answer lacks the new solver. -/
theorem C61_refuted : ∃ out h r', Imported Demo.low h r' ∧ Demo.fineEuler ∈ accepted h ∧
    (pkgDir Demo.low Demo.strLe Demo.helpers).run ⟨Demo.packageRegistry, none⟩
      = some (.ok out, ⟨Demo.packageRegistry, some out⟩) ∧
    (pkgDir Demo.low Demo.strLe Demo.helpers).run ⟨r', some out⟩ = some (.ok out, ⟨r', some out⟩) ∧
    ¬ Spec.DirOf Demo.strLe Demo.helpers h out := by
  obtain ⟨out, h1, h2⟩ := C61_first_partial (le := Demo.strLe)
    (fun a b c hab hbc => by
      simp only [Demo.strLe, decide_eq_true_eq] at *
      exact List.le_trans hab hbc)
    (fun a b => by
      simp only [Demo.strLe, Bool.or_eq_true, decide_eq_true_eq]
      exact List.le_total _ _)
    Demo.helpers Demo.imported_package package_ok
  obtain ⟨r', hr⟩ := fineEuler_defined
  refine ⟨out, _, r', Demo.imported_package.define hr, ?_, h1,
    C61_frozen _ (by decide) h1 r', ?_⟩
  · rw [accepted_append, accepted_ok]
    simp
  · rintro ⟨-, h3⟩
    have e1 := h2.2.length_eq
    have e2 := h3.length_eq
    rw [accepted_append, accepted_ok] at e2
    simp only [List.length_append, List.length_map, List.length_singleton] at e1 e2
    omega

-- C61: the first `dir(nbkode)` after the import, and the same one after another class statement.
example : ∃ out, (pkgDir Demo.low Demo.strLe Demo.helpers).run ⟨Demo.packageRegistry, none⟩
      = some (.ok out, ⟨Demo.packageRegistry, some out⟩) ∧ Spec.DirOf Demo.strLe Demo.helpers (Demo.okHistory Demo.packageSolvers) out ∧
    ∀ r', (pkgDir Demo.low Demo.strLe Demo.helpers).run ⟨r', some out⟩ = some (.ok out, ⟨r', some out⟩) := by
  obtain ⟨out, h1, h2⟩ := C61_first_partial (le := Demo.strLe)
    (fun a b c hab hbc => by
      simp only [Demo.strLe, decide_eq_true_eq] at *
      exact List.le_trans hab hbc)
    (fun a b => by
      simp only [Demo.strLe, Bool.or_eq_true, decide_eq_true_eq]
      exact List.le_total _ _)
    Demo.helpers Demo.imported_package package_ok
  exact ⟨out, h1, h2, C61_frozen _ (by decide) h1⟩

/-! ## C62: `nbkode.<name>` -/

/-- **C62**. For a name that is not an attribute of the module itself, `nbkode.<name>` gives the solver
of that name without a warning; under an alias, or with the case changed, it gives the same solver and
warns; any name no class statement used raises `AttributeError`. -/
theorem C62_getattr {h : List (Stmt κ)} {r : Registry κ ℓ} (hi : Imported lower h r) :
    (∀ c ∈ accepted h, r.pkgGetattr lower c.name = .ok (c, false)) ∧
    (∀ c ∈ accepted h, ∀ k ∈ names c, ∀ x, lower x = lower k → x ≠ c.name →
      r.pkgGetattr lower x = .ok (c, true)) ∧
    (∀ x, ¬ Claimed lower h x → r.pkgGetattr lower x = .error .attributeError) ∧
    (∀ x, r.pkgGetattr lower x = .error .attributeError ↔
      r.getSolver lower x = .error .valueError) ∧
    ∀ x c w, r.pkgGetattr lower x = .ok (c, w) →
      r.getSolver lower x = .ok c ∧ (w = true ↔ x ≠ c.name) := by
  obtain ⟨-, h2, -, h4, h5⟩ := C55_get_solver hi
  refine ⟨?_, ?_, ?_, ?_, ?_⟩
  · intro c hc
    rw [pkgGetattr, h2 c hc c.name (List.mem_cons_self ..) _ rfl]
    simp
  · intro c hc k hk x hx hne
    rw [pkgGetattr, h2 c hc k hk x hx]
    simp [Ne.symm hne]
  · intro x hx
    rw [pkgGetattr, h5 x hx]
  · intro x
    rw [pkgGetattr]
    rcases h4 x with ⟨c, hc⟩ | hc <;> simp [hc]
  · intro x c w hx
    rw [pkgGetattr] at hx
    rcases h4 x with ⟨c', hc⟩ | hc
    · rw [hc] at hx
      simp only [Except.ok.injEq, Prod.mk.injEq] at hx
      obtain ⟨rfl, rfl⟩ := hx
      exact ⟨hc, by rw [decide_eq_true_eq]; exact ne_comm⟩
    · rw [hc] at hx
      cases hx

/-- On the package: `nbkode.ForwardEuler`, `nbkode.Euler` (with a warning), `nbkode.Nope`. -/
example : Demo.packageRegistry.pkgGetattr Demo.low "ForwardEuler"
      = .ok (packageClasses[10].toClass 10, false) ∧
    Demo.packageRegistry.pkgGetattr Demo.low "Euler" = .ok (packageClasses[10].toClass 10, true) ∧
    Demo.packageRegistry.pkgGetattr Demo.low "Nope" = .error .attributeError := by
  obtain ⟨h1, h2, h3, h4, h5⟩ := C62_getattr Demo.imported_package
  rw [Demo.accepted_okHistory] at h1 h2
  refine ⟨?_, ?_, by decide +kernel⟩
  · exact h1 _ (Demo.mem_packageSolvers 10 (by decide))
  · exact h2 _ (Demo.mem_packageSolvers 10 (by decide)) "Euler" (by decide +kernel) _ rfl
      (by decide +kernel)

end Nbkode
