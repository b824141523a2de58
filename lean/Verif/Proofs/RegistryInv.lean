import Verif.Proofs.Registry
import Mathlib.Data.List.Count
import Mathlib.Algebra.BigOperators.Group.List.Basic

/-! # What every history of class statements maintains -/

set_option autoImplicit false
set_option linter.unusedSectionVars false

namespace Nbkode
open Spec

namespace Registry
variable {κ ℓ : Type} [DecidableEq ℓ] {lower : κ → ℓ}

theorem accepted_append (h : List (Stmt κ)) (d : Stmt κ) :
    accepted (h ++ [d]) = accepted h ++ accepted [d] := by
  simp only [accepted, List.filterMap_append]

theorem accepted_abstract (c : SolverClass κ) (res : Except Err Unit) :
    accepted [⟨c, true, res⟩] = [] := rfl

theorem accepted_error (c : SolverClass κ) (b : Bool) (e : Err) :
    accepted [⟨c, b, .error e⟩] = [] := by cases b <;> rfl

theorem accepted_ok (c : SolverClass κ) : accepted [⟨c, false, .ok ()⟩] = [c] := rfl

theorem mem_accepted {h : List (Stmt κ)} {c : SolverClass κ} :
    c ∈ accepted h ↔ ∃ d ∈ h, d.cls = c ∧ d.abstract = false ∧ d.outcome = .ok () := by
  rw [accepted, List.mem_filterMap]
  constructor
  · rintro ⟨⟨c', b, o⟩, hd, he⟩
    cases b <;> rcases o with e | ⟨⟩ <;> simp at he
    exact ⟨_, hd, he, rfl, rfl⟩
  · rintro ⟨⟨c', b, o⟩, hd, h1, h2, h3⟩
    simp only at h1 h2 h3
    subst h1 h2 h3
    exact ⟨_, hd, rfl⟩

/-- The invariant. -/
structure Inv (lower : κ → ℓ) (h : List (Stmt κ)) (r : Registry κ ℓ) : Prop where
  ns : (r.solvers.store.map Prod.fst).Nodup
  ng : (r.groups.store.map Prod.fst).Nodup
  own : ∀ l k c, (l, (k, c)) ∈ r.solvers.store →
    l = lower k ∧ k ∈ names c ∧ ∃ d ∈ h, d.abstract = false ∧ d.cls = c
  kept : ∀ c ∈ accepted h, ∀ k ∈ names c, (lower k, (k, c)) ∈ r.solvers.store
  gkey : ∀ l g cs, (l, (g, cs)) ∈ r.groups.store → l = lower g

theorem nodup_withNames {r : Registry κ ℓ} {c : SolverClass κ} {xs : List κ}
    (hn : (r.solvers.store.map Prod.fst).Nodup) (hf : Free lower r xs) :
    ((withNames lower r c xs).solvers.store.map Prod.fst).Nodup := by
  show ((r.solvers.store ++ xs.map fun x => (lower x, (x, c))).map Prod.fst).Nodup
  rw [List.map_append, List.map_map]
  refine List.Nodup.append hn hf.1 ?_
  intro l h1 h2
  obtain ⟨x, hx, rfl⟩ := List.mem_map.1 h2
  exact hf.2 x hx h1

theorem mem_withNames {r : Registry κ ℓ} {c : SolverClass κ} {xs : List κ} {e : ℓ × κ × SolverClass κ} :
    e ∈ (withNames lower r c xs).solvers.store ↔
      e ∈ r.solvers.store ∨ ∃ x ∈ xs, e = (lower x, (x, c)) := by
  show e ∈ r.solvers.store ++ xs.map (fun x => (lower x, (x, c))) ↔ _
  rw [List.mem_append, List.mem_map]
  simp only [eq_comm]

theorem map_fst_set {ν : Type} {s : ODict ℓ ν} {l : ℓ} {v : ν} (h : l ∈ s.map Prod.fst) :
    (s.set l v).map Prod.fst = s.map Prod.fst := by
  induction s with
  | nil => simp at h
  | cons e s ih =>
    obtain ⟨l', v'⟩ := e
    by_cases h' : l' = l
    · simp [ODict.set, h']
    · simp only [List.map_cons, List.mem_cons] at h
      have : l ∈ s.map Prod.fst := h.resolve_left fun h'' => h' h''.symm
      simp only [ODict.set, if_neg h', List.map_cons]
      rw [ih this]

theorem withGroup_fst (r : Registry κ ℓ) (c : SolverClass κ) (g : κ) :
    (withGroup lower r c g).groups.store.map Prod.fst =
      if lower g ∈ r.groups.store.map Prod.fst then r.groups.store.map Prod.fst
      else r.groups.store.map Prod.fst ++ [lower g] := by
  simp only [withGroup]
  cases hg : r.groups.store.get? (lower g) with
  | none =>
    rw [if_neg (ODict.get?_eq_none.1 hg)]
    simp
  | some kv =>
    have hm : lower g ∈ r.groups.store.map Prod.fst := by
      by_contra h
      rw [ODict.get?_eq_none.2 h] at hg
      cases hg
    rw [if_pos hm]
    exact map_fst_set hm

theorem nodup_withGroup {r : Registry κ ℓ} {c : SolverClass κ} {g : κ}
    (hn : (r.groups.store.map Prod.fst).Nodup) :
    ((withGroup lower r c g).groups.store.map Prod.fst).Nodup := by
  rw [withGroup_fst]
  split
  · exact hn
  · rename_i h
    refine List.Nodup.append hn (List.nodup_singleton _) ?_
    intro l h1 h2
    rw [List.mem_singleton] at h2
    exact h (h2 ▸ h1)

/-- The members of a group, empty if there is no such group. -/
def members (r : Registry κ ℓ) (l : ℓ) : List (SolverClass κ) :=
  match r.groups.store.get? l with
  | some kv => kv.2
  | none => []

theorem get?_set {ν : Type} (s : ODict ℓ ν) (l l' : ℓ) (v : ν) :
    (s.set l v).get? l' = if l' = l then some v else s.get? l' := by
  induction s with
  | nil =>
    simp only [ODict.set, ODict.get?]
    simp only [eq_comm (a := l')]
  | cons e s ih =>
    obtain ⟨l₀, v₀⟩ := e
    by_cases h : l₀ = l
    · subst h
      by_cases h' : l' = l₀
      · simp [ODict.set, ODict.get?, h']
      · have h'' : ¬ l₀ = l' := fun h'' => h' h''.symm
        simp only [ODict.set, if_true, ODict.get?, if_neg h', if_neg h'']
    · by_cases h' : l₀ = l'
      · subst h'
        simp [ODict.set, ODict.get?, h]
      · simp only [ODict.set, if_neg h, ODict.get?, if_neg h']
        exact ih

theorem get?_append_single {ν : Type} (s : ODict ℓ ν) (l l' : ℓ) (v : ν)
    (h : l ∉ s.map Prod.fst) :
    ODict.get? (s ++ [(l, v)]) l' = if l' = l then some v else s.get? l' := by
  rw [← ODict.set_of_notMem h, get?_set]

theorem get?_withGroup (r : Registry κ ℓ) (c : SolverClass κ) (g : κ) (l : ℓ) :
    (withGroup lower r c g).groups.store.get? l =
      if l = lower g then
        some (match r.groups.store.get? (lower g) with
          | some kv => (kv.1, kv.2 ++ [c])
          | none => (g, [c]))
      else r.groups.store.get? l := by
  simp only [withGroup]
  cases hg : r.groups.store.get? (lower g) with
  | none => exact get?_append_single _ _ _ _ (ODict.get?_eq_none.1 hg)
  | some kv => exact get?_set _ _ _ _

theorem members_withGroup (r : Registry κ ℓ) (c : SolverClass κ) (g : κ) (l : ℓ) :
    members (withGroup lower r c g) l =
      if l = lower g then members r l ++ [c] else members r l := by
  unfold members
  rw [get?_withGroup]
  by_cases h : l = lower g
  · subst h
    simp only [if_true]
    cases r.groups.store.get? (lower g) <;> rfl
  · simp only [if_neg h]

theorem Inv.names {h : List (Stmt κ)} {r : Registry κ ℓ} (hi : Inv lower h r) {c : SolverClass κ}
    {xs : List κ} (hx : ∀ x ∈ xs, x ∈ Spec.names c) (hf : Free lower r xs) (res : Except Err Unit)
    (hk : ∀ k ∈ Spec.names c, res = .ok () → k ∈ xs) :
    Inv lower (h ++ [⟨c, false, res⟩]) (withNames lower r c xs) where
  ns := nodup_withNames hi.ns hf
  ng := hi.ng
  own := by
    intro l k c' hm
    rcases mem_withNames.1 hm with hm | ⟨x, hx', he⟩
    · obtain ⟨h1, h2, d, hd, h3⟩ := hi.own l k c' hm
      exact ⟨h1, h2, d, List.mem_append_left _ hd, h3⟩
    · simp only [Prod.mk.injEq] at he
      obtain ⟨rfl, rfl, rfl⟩ := he
      exact ⟨rfl, hx _ hx', ⟨_, false, res⟩, by simp, rfl, rfl⟩
  kept := by
    intro c' hc' k hk'
    rw [accepted_append, List.mem_append] at hc'
    rcases hc' with hc' | hc'
    · exact mem_withNames.2 (Or.inl (hi.kept c' hc' k hk'))
    · rcases res with e | ⟨⟩
      · rw [accepted_error] at hc'
        cases hc'
      · rw [accepted_ok, List.mem_singleton] at hc'
        subst hc'
        exact mem_withNames.2 (Or.inr ⟨k, hk k hk' rfl, rfl⟩)
  gkey := hi.gkey

theorem Inv.withGroup {h : List (Stmt κ)} {r : Registry κ ℓ} (hi : Inv lower h r)
    (c : SolverClass κ) (g : κ) : Inv lower h (withGroup lower r c g) where
  ns := hi.ns
  ng := nodup_withGroup hi.ng
  own := hi.own
  kept := hi.kept
  gkey := by
    intro l g' cs hm
    have hn : ((Registry.withGroup lower r c g).groups.store.map Prod.fst).Nodup :=
      nodup_withGroup hi.ng
    rw [← ODict.get?_eq_some hn, get?_withGroup] at hm
    by_cases h' : l = lower g
    · subst h'
      rw [if_pos rfl] at hm
      cases hg : r.groups.store.get? (lower g) with
      | none =>
        rw [hg] at hm
        simp only [Option.some.injEq, Prod.mk.injEq] at hm
        rw [← hm.1]
      | some kv =>
        rw [hg] at hm
        simp only [Option.some.injEq, Prod.mk.injEq] at hm
        rw [← hm.1]
        exact hi.gkey _ _ _ ((ODict.get?_eq_some hi.ng).1 hg)
    · rw [if_neg h', ODict.get?_eq_some hi.ng] at hm
      exact hi.gkey _ _ _ hm

theorem Inv.same {h : List (Stmt κ)} {r : Registry κ ℓ} (hi : Inv lower h r) (d : Stmt κ)
    (hd : accepted [d] = []) : Inv lower (h ++ [d]) r where
  ns := hi.ns
  ng := hi.ng
  own := by
    intro l k c' hm
    obtain ⟨h1, h2, d', hd', h3⟩ := hi.own l k c' hm
    exact ⟨h1, h2, d', List.mem_append_left _ hd', h3⟩
  kept := by
    intro c' hc'
    rw [accepted_append, hd, List.append_nil] at hc'
    exact hi.kept c' hc'
  gkey := hi.gkey

theorem inv_of_imported {h : List (Stmt κ)} {r : Registry κ ℓ} (hi : Imported lower h r) :
    Inv lower h r := by
  induction hi with
  | start => exact ⟨List.nodup_nil, List.nodup_nil, by simp [Registry.empty, CIDict.empty],
      by simp [accepted], by simp [Registry.empty, CIDict.empty]⟩
  | @define h r r' c abstract res hi hrun ih =>
    cases abstract with
    | true =>
      rw [defineSolver_abstract] at hrun
      cases hrun
      exact ih.same _ rfl
    | false =>
      rcases defineSolver_cases (lower := lower) c r with ⟨e, hr, -⟩ |
        ⟨-, n, -, -, pre, suf, hxs, hf, ⟨x, rest, hs, -, hr⟩ | ⟨hs, ⟨hg, hr⟩ | ⟨g, hg, hr⟩⟩⟩
      · rw [hr] at hrun
        cases hrun
        exact ih.same _ (accepted_error _ _ _)
      · rw [hr] at hrun
        cases hrun
        refine ih.names ?_ hf _ ?_
        · intro y hy; rw [hxs]; exact List.mem_append_left _ hy
        · intro k hk hc; cases hc
      · rw [hr] at hrun
        cases hrun
        subst hs
        rw [List.append_nil] at hxs
        exact ih.names (fun y hy => hxs ▸ hy) hf _ (fun k hk _ => hxs ▸ hk)
      · rw [hr] at hrun
        cases hrun
        subst hs
        rw [List.append_nil] at hxs
        exact (ih.names (fun y hy => hxs ▸ hy) hf _ (fun k hk _ => hxs ▸ hk)).withGroup c g

/-- When the step builders of all classes work, the groups hold exactly the accepted classes, in
order. -/
theorem members_of_imported {h : List (Stmt κ)} {r : Registry κ ℓ} (hi : Imported lower h r)
    (hb : ∀ d ∈ h, d.cls.builds = .ok ()) :
    (∀ l, members r l = (accepted h).filter fun c => decide (c.group.map lower = some l)) ∧
    (∀ l, l ∈ r.groups.store.map Prod.fst ↔ ∃ c ∈ accepted h, c.group.map lower = some l) := by
  induction hi with
  | start =>
    refine ⟨fun l => rfl, ?_⟩
    intro l
    simp [Registry.empty, CIDict.empty, accepted]
  | @define h r r' c abstract res hi hrun ih =>
    specialize ih fun d hd => hb d (List.mem_append_left _ hd)
    have same : accepted [⟨c, abstract, res⟩] = [] → r'.groups = r.groups →
        ((∀ l, members r' l = (accepted (h ++ [⟨c, abstract, res⟩])).filter
          fun c => decide (c.group.map lower = some l)) ∧
        (∀ l, l ∈ r'.groups.store.map Prod.fst ↔
          ∃ c' ∈ accepted (h ++ [⟨c, abstract, res⟩]), c'.group.map lower = some l)) := by
      intro h1 h2
      rw [accepted_append, h1, List.append_nil, h2]
      refine ⟨?_, ih.2⟩
      intro l
      rw [← ih.1 l]
      unfold members
      rw [h2]
    cases abstract with
    | true =>
      rw [defineSolver_abstract] at hrun
      cases hrun
      exact same rfl rfl
    | false =>
      rcases defineSolver_cases (lower := lower) c r with ⟨e, hr, -⟩ |
        ⟨-, n, -, -, pre, suf, hxs, hf, ⟨x, rest, hs, -, hr⟩ | ⟨hs, ⟨hg, hr⟩ | ⟨g, hg, hr⟩⟩⟩
      · rw [hr] at hrun
        cases hrun
        exact same (accepted_error _ _ _) rfl
      · rw [hr] at hrun
        cases hrun
        exact same (accepted_error _ _ _) rfl
      · rw [hr] at hrun
        cases hrun
        exact same (accepted_error _ _ _) rfl
      · rw [hr] at hrun
        cases hrun
        rw [hb ⟨c, false, c.builds⟩ (by simp), accepted_append, accepted_ok]
        constructor
        · intro l
          rw [members_withGroup, List.filter_append]
          have : members (withNames lower r c pre) l = members r l := rfl
          rw [this, ih.1 l]
          by_cases hl : l = lower g
          · subst hl
            simp [hg]
          · rw [if_neg hl, List.filter_cons_of_neg, List.filter_nil, List.append_nil]
            simpa [hg] using fun h' : lower g = l => hl h'.symm
        · intro l
          rw [withGroup_fst]
          have h1 : (withNames lower r c pre).groups = r.groups := rfl
          rw [h1]
          have h2 := ih.2
          constructor
          · intro hl
            have hl' : l ∈ r.groups.store.map Prod.fst ∨ l = lower g := by
              split at hl
              · exact Or.inl hl
              · simpa using hl
            rcases hl' with hl' | rfl
            · obtain ⟨c', hc', hg'⟩ := (h2 l).1 hl'
              exact ⟨c', List.mem_append_left _ hc', hg'⟩
            · exact ⟨c, by simp, by simp [hg]⟩
          · rintro ⟨c', hc', hg'⟩
            have hl' : l ∈ r.groups.store.map Prod.fst ∨ l = lower g := by
              rcases List.mem_append.1 hc' with hc' | hc'
              · exact Or.inl ((h2 l).2 ⟨c', hc', hg'⟩)
              · rw [List.mem_singleton] at hc'
                subst hc'
                rw [hg] at hg'
                exact Or.inr (Option.some.inj hg').symm
            split
            · rename_i hmem
              rcases hl' with hl' | rfl
              · exact hl'
              · exact hmem
            · simpa using hl'

/-- No class is accepted twice. -/
theorem accepted_nodup {h : List (Stmt κ)} {r : Registry κ ℓ} (hi : Imported lower h r) :
    (accepted h).Nodup := by
  induction hi with
  | start => exact List.nodup_nil
  | @define h r r' c abstract res hi hrun ih =>
    rw [accepted_append]
    rcases ha : accepted [⟨c, abstract, res⟩] with _ | ⟨c', cs⟩
    · rwa [List.append_nil]
    · have hab : abstract = false ∧ res = .ok () := by
        cases abstract with
        | true => cases ha
        | false =>
          rcases res with e | ⟨⟩
          · rw [accepted_error] at ha; cases ha
          · exact ⟨rfl, rfl⟩
      obtain ⟨rfl, rfl⟩ := hab
      rw [accepted_ok] at ha
      cases ha
      refine List.Nodup.append ih (List.nodup_singleton _) ?_
      intro c' h1 h2
      rw [List.mem_singleton] at h2
      subst h2
      have hinv := inv_of_imported hi
      have hk := hinv.kept c' h1 c'.name (List.mem_cons_self ..)
      rcases defineSolver_cases (lower := lower) c' r with ⟨e, hr, -⟩ |
        ⟨-, n, -, -, pre, suf, hxs, hf, ⟨x, rest, hs, -, hr⟩ | ⟨hs, -⟩⟩
      · rw [hr] at hrun; cases hrun
      · rw [hr] at hrun; cases hrun
      · subst hs
        rw [List.append_nil] at hxs
        refine hf.2 c'.name (hxs ▸ List.mem_cons_self ..) ?_
        exact List.mem_map.2 ⟨_, hk, rfl⟩

/-- When every class statement succeeded, the table of names is the list of all names. -/
theorem store_of_imported {h : List (Stmt κ)} {r : Registry κ ℓ} (hi : Imported lower h r)
    (hok : ∀ d ∈ h, d.outcome = .ok ()) :
    r.solvers.store = (accepted h).flatMap fun c => (names c).map fun k => (lower k, (k, c)) := by
  induction hi with
  | start => rfl
  | @define h r r' c abstract res hi hrun ih =>
    specialize ih fun d hd => hok d (List.mem_append_left _ hd)
    have hres : res = .ok () := hok ⟨c, abstract, res⟩ (by simp)
    subst hres
    rw [accepted_append]
    cases abstract with
    | true =>
      rw [defineSolver_abstract] at hrun
      cases hrun
      rw [accepted_abstract, List.append_nil]
      exact ih
    | false =>
      rw [accepted_ok, List.flatMap_append, ← ih]
      rcases defineSolver_cases (lower := lower) c r with ⟨e, hr, -⟩ |
        ⟨-, n, -, -, pre, suf, hxs, hf, ⟨x, rest, hs, -, hr⟩ | ⟨hs, ⟨hg, hr⟩ | ⟨g, hg, hr⟩⟩⟩
      · rw [hr] at hrun; cases hrun
      · rw [hr] at hrun; cases hrun
      · rw [hr] at hrun; cases hrun
      · rw [hr] at hrun
        simp only [Option.some.injEq, Prod.mk.injEq] at hrun
        obtain ⟨-, rfl⟩ := hrun
        subst hs
        rw [List.append_nil] at hxs
        simp [withGroup, withNames, hxs]

/-! ## `get_solvers` -/

theorem attrIsNot_bool (b want : Bool) : attrIsNot (.bool b) want = .ok (b != want) := rfl

open Classical in
theorem check_eq {c : SolverClass κ} {f : Filters} (hc : Classified c) :
    check c f = .ok (decide (Wanted f c)) := by
  obtain ⟨⟨bi, hi⟩, ⟨bf, hf⟩⟩ := hc
  obtain ⟨fi, ff, fr, fm⟩ := f
  unfold check Wanted
  rw [hi, hf]
  cases fi with
  | none => cases ff with
    | none => cases fr with
      | none => cases fm with
        | none => simp; rfl
        | some m => cases h : c.isMultistep <;> cases m <;> simp <;> rfl
      | some k =>
        cases fm with
        | none => cases h : c.isRungeKutta <;> cases k <;> simp <;> rfl
        | some m =>
          cases h : c.isRungeKutta <;> cases k <;> cases h' : c.isMultistep <;> cases m <;>
            simp <;> rfl
    | some x => cases fr with
      | none => cases fm with
        | none => cases bf <;> cases x <;> simp [attrIsNot] <;> rfl
        | some m =>
          cases bf <;> cases x <;> cases h : c.isMultistep <;> cases m <;> simp [attrIsNot] <;> rfl
      | some k =>
        cases fm with
        | none =>
          cases bf <;> cases x <;> cases h : c.isRungeKutta <;> cases k <;> simp [attrIsNot] <;> rfl
        | some m =>
          cases bf <;> cases x <;> cases h : c.isRungeKutta <;> cases k <;>
            cases h' : c.isMultistep <;> cases m <;> simp [attrIsNot] <;> rfl
  | some w => cases ff with
    | none => cases fr with
      | none => cases fm with
        | none => cases bi <;> cases w <;> simp [attrIsNot] <;> rfl
        | some m =>
          cases bi <;> cases w <;> cases h : c.isMultistep <;> cases m <;> simp [attrIsNot] <;> rfl
      | some k =>
        cases fm with
        | none =>
          cases bi <;> cases w <;> cases h : c.isRungeKutta <;> cases k <;> simp [attrIsNot] <;> rfl
        | some m =>
          cases bi <;> cases w <;> cases h : c.isRungeKutta <;> cases k <;>
            cases h' : c.isMultistep <;> cases m <;> simp [attrIsNot] <;> rfl
    | some x => cases fr with
      | none => cases fm with
        | none => cases bi <;> cases w <;> cases bf <;> cases x <;> simp [attrIsNot] <;> rfl
        | some m =>
          cases bi <;> cases w <;> cases bf <;> cases x <;> cases h : c.isMultistep <;> cases m <;>
            simp [attrIsNot] <;> rfl
      | some k =>
        cases fm with
        | none =>
          cases bi <;> cases w <;> cases bf <;> cases x <;> cases h : c.isRungeKutta <;> cases k <;>
            simp [attrIsNot] <;> rfl
        | some m =>
          cases bi <;> cases w <;> cases bf <;> cases x <;> cases h : c.isRungeKutta <;> cases k <;>
            cases h' : c.isMultistep <;> cases m <;> simp [attrIsNot] <;> rfl

open Classical in
theorem filterCheck_eq {f : Filters} {cs : List (SolverClass κ)} (hc : ∀ c ∈ cs, Classified c) :
    filterCheck f cs = .ok (cs.filter fun c => decide (Wanted f c)) := by
  induction cs with
  | nil => rfl
  | cons c cs ih =>
    rw [filterCheck, check_eq (hc c (List.mem_cons_self ..)),
      ih fun c' hc' => hc c' (List.mem_cons_of_mem _ hc')]
    by_cases h : Wanted f c
    · simp [h]; rfl
    · simp [h]; rfl

theorem getItem_members {r : Registry κ ℓ} {g : κ} (h : lower g ∈ r.groups.store.map Prod.fst) :
    r.groups.getItem lower g = .ok (members r (lower g)) := by
  rw [CIDict.getItem]
  unfold members
  cases hg : r.groups.store.get? (lower g) with
  | none => exact absurd h (ODict.get?_eq_none.1 hg)
  | some kv => rfl

theorem getItem_unknown {r : Registry κ ℓ} {g : κ} (h : lower g ∉ r.groups.store.map Prod.fst) :
    r.groups.getItem lower g = .error .keyError := by
  rw [CIDict.getItem, ODict.get?_eq_none.2 h]

open Classical in
theorem collect_eq {r : Registry κ ℓ} {f : Filters} {gs : List κ}
    (hg : ∀ g ∈ gs, lower g ∈ r.groups.store.map Prod.fst)
    (hc : ∀ g ∈ gs, ∀ c ∈ members r (lower g), Classified c) :
    collect lower r f gs
      = .ok ((gs.flatMap fun g => members r (lower g)).filter fun c => decide (Wanted f c)) := by
  induction gs with
  | nil => rfl
  | cons g gs ih =>
    rw [collect, getItem_members (hg g (List.mem_cons_self ..)),
      ih (fun g' h' => hg g' (List.mem_cons_of_mem _ h'))
        (fun g' h' => hc g' (List.mem_cons_of_mem _ h'))]
    show (do
      let here ← filterCheck f (members r (lower g))
      let rest ← Except.ok _
      return here ++ rest : Except Err (List (SolverClass κ))) = _
    rw [filterCheck_eq (hc g (List.mem_cons_self ..)), List.flatMap_cons, List.filter_append]
    rfl

theorem collect_unknown {r : Registry κ ℓ} {f : Filters} {gs : List κ}
    (hu : ∃ g ∈ gs, lower g ∉ r.groups.store.map Prod.fst)
    (hc : ∀ g ∈ gs, ∀ c ∈ members r (lower g), Classified c) :
    collect lower r f gs = .error .keyError := by
  induction gs with
  | nil => obtain ⟨g, hg, -⟩ := hu; cases hg
  | cons g gs ih =>
    by_cases h : lower g ∈ r.groups.store.map Prod.fst
    · rw [collect, getItem_members h]
      show (do
        let here ← filterCheck f (members r (lower g))
        let rest ← collect lower r f gs
        return here ++ rest : Except Err (List (SolverClass κ))) = _
      rw [filterCheck_eq (hc g (List.mem_cons_self ..)), ih ?_
        (fun g' h' => hc g' (List.mem_cons_of_mem _ h'))]
      · rfl
      · obtain ⟨g', hg', hu'⟩ := hu
        rcases List.mem_cons.1 hg' with rfl | hg'
        · exact absurd h hu'
        · exact ⟨g', hg', hu'⟩
    · rw [collect, getItem_unknown h]
      rfl

theorem getItem_ok_iff {r : Registry κ ℓ} (hn : (r.solvers.store.map Prod.fst).Nodup) {x : κ}
    {c : SolverClass κ} :
    r.getSolver lower x = .ok c ↔ ∃ k, (lower x, (k, c)) ∈ r.solvers.store := by
  rw [getSolver, CIDict.getItem]
  cases hg : r.solvers.store.get? (lower x) with
  | none =>
    simp only [reduceCtorEq, false_iff, not_exists]
    intro k hk
    exact ODict.get?_eq_none.1 hg (List.mem_map.2 ⟨_, hk, rfl⟩)
  | some kv =>
    obtain ⟨k, c'⟩ := kv
    have hm := (ODict.get?_eq_some hn).1 hg
    simp only [Except.ok.injEq]
    constructor
    · rintro rfl
      exact ⟨k, hm⟩
    · rintro ⟨k', hk'⟩
      have := (ODict.get?_eq_some hn).2 hk'
      rw [hg] at this
      simp only [Option.some.injEq, Prod.mk.injEq] at this
      exact this.2

theorem getSolver_cases (r : Registry κ ℓ) (x : κ) :
    (∃ c, r.getSolver lower x = .ok c) ∨ r.getSolver lower x = .error .valueError := by
  rw [getSolver]
  cases r.solvers.getItem lower x with
  | ok c => exact Or.inl ⟨c, rfl⟩
  | error e => exact Or.inr rfl

/-- Distributing a list over groups keeps every element once. -/
theorem perm_flatMap_filter {A : Type} (key : A → Option ℓ) (xs : List A) (ls : List ℓ)
    (hn : ls.Nodup) (hc : ∀ a ∈ xs, ∃ l ∈ ls, key a = some l) :
    (ls.flatMap fun l => xs.filter fun a => decide (key a = some l)).Perm xs := by
  classical
  rw [List.perm_iff_count]
  intro a
  rw [List.count_flatMap]
  by_cases ha : a ∈ xs
  · obtain ⟨l, hl, hk⟩ := hc a ha
    have : ls.map (List.count a ∘ fun l => xs.filter fun a => decide (key a = some l))
        = ls.map fun l' => if l' = l then xs.count a else 0 := by
      apply List.map_congr_left
      intro l' _
      simp only [Function.comp]
      by_cases h : l' = l
      · subst h
        rw [if_pos rfl, List.count_filter]
        simpa using hk
      · rw [if_neg h, List.count_eq_zero]
        simp only [List.mem_filter, decide_eq_true_eq, not_and]
        intro _ h'
        rw [hk] at h'
        exact h (Option.some.inj h').symm
    rw [this]
    have hsum : ∀ ls : List ℓ, ls.Nodup → l ∈ ls →
        (ls.map fun l' => if l' = l then xs.count a else 0).sum = xs.count a := by
      intro ls hn hl
      induction ls with
      | nil => cases hl
      | cons l₀ ls ih =>
        rw [List.nodup_cons] at hn
        rw [List.map_cons, List.sum_cons]
        by_cases h : l₀ = l
        · subst h
          rw [if_pos rfl]
          have : (ls.map fun l' => if l' = l₀ then xs.count a else 0)
              = ls.map fun _ => 0 := by
            apply List.map_congr_left
            intro l' hl'
            rw [if_neg]
            rintro rfl
            exact hn.1 hl'
          rw [this]
          simp
        · rw [if_neg h, zero_add]
          rcases List.mem_cons.1 hl with rfl | hl
          · exact absurd rfl h
          · exact ih hn.2 hl
    exact hsum ls hn hl
  · rw [List.count_eq_zero.2 ha]
    apply List.sum_eq_zero
    intro n hn'
    obtain ⟨l, -, rfl⟩ := List.mem_map.1 hn'
    simp only [Function.comp]
    rw [List.count_eq_zero]
    exact fun h => ha (List.mem_of_mem_filter h)

end Registry
end Nbkode
