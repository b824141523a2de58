import Verif.Spec.Arguments

/-!
# Lemmas on reading the arguments of a constructor
-/

set_option autoImplicit false
set_option linter.unusedSectionVars false

namespace Nbkode

section keys

variable {α : Type} {n : Nat} {P : Type}

theorem kwGet_some {kw : Kwargs α n P} (hd : Distinct kw) {k : String} {v : Arg α n P} :
    kwGet kw k = some v ↔ (k, v) ∈ kw := by
  induction kw with
  | nil => simp [kwGet]
  | cons a l ih =>
    obtain ⟨k', v'⟩ := a
    have hd' : k' ∉ l.map Prod.fst ∧ (l.map Prod.fst).Nodup := by simpa [Distinct] using hd
    by_cases hk : k' = k
    · subst hk
      have h1 : kwGet ((k', v') :: l) k' = some v' := by simp [kwGet]
      rw [h1]
      constructor
      · intro h; cases h; exact List.mem_cons_self ..
      · intro h
        rcases List.mem_cons.mp h with h | h
        · cases h; rfl
        · exact absurd (List.mem_map_of_mem (f := Prod.fst) h) hd'.1
    · have h1 : kwGet ((k', v') :: l) k = kwGet l k := by
        simp [kwGet, List.find?_cons, hk]
      rw [h1, ih hd'.2]
      constructor
      · exact List.mem_cons_of_mem _
      · intro h
        rcases List.mem_cons.mp h with h | h
        · cases h; exact absurd rfl hk
        · exact h

theorem kwGet_none {kw : Kwargs α n P} {k : String} : kwGet kw k = none ↔ Omitted kw k := by
  simp only [kwGet, Option.map_eq_none_iff, List.find?_eq_none, Omitted]
  constructor
  · intro h v hv; exact h _ hv (by simp)
  · rintro h ⟨k', v⟩ ha hk
    have : k' = k := by simpa using hk
    subst this
    exact h v ha

theorem mem_drop {kw : Kwargs α n P} {ks : List String} {k : String} {v : Arg α n P} :
    (k, v) ∈ kwDrop kw ks ↔ (k, v) ∈ kw ∧ k ∉ ks := by
  simp [kwDrop, List.mem_filter]

theorem distinct_drop {kw : Kwargs α n P} (hd : Distinct kw) (ks : List String) : Distinct (kwDrop kw ks) :=
  List.Nodup.sublist (List.Sublist.map _ List.filter_sublist) hd

theorem omitted_drop {kw : Kwargs α n P} {ks : List String} {k : String} (hk : k ∉ ks) :
    Omitted (kwDrop kw ks) k ↔ Omitted kw k := by
  simp [Omitted, mem_drop, hk]

theorem optIs_drop {kw : Kwargs α n P} {ks : List String} {k : String} (hk : k ∉ ks) (x : Option α) :
    OptIs (kwDrop kw ks) k x ↔ OptIs kw k x := by
  cases x <;> simp [OptIs, mem_drop, omitted_drop hk, hk]

theorem boundIs_drop {kw : Kwargs α n P} {ks : List String} {k : String} (hk : k ∉ ks) (x : Bound α) :
    BoundIs (kwDrop kw ks) k x ↔ BoundIs kw k x := by
  cases x <;> simp [BoundIs, mem_drop, omitted_drop hk, hk]

theorem paramsIs_drop {pos : Option (Arg α n P)} {kw : Kwargs α n P} {ks : List String} (hk : "params" ∉ ks)
    (x : Option P) : ParamsIs pos (kwDrop kw ks) x ↔ ParamsIs pos kw x := by
  cases x <;> simp [ParamsIs, mem_drop, omitted_drop hk, hk]

theorem onlyKeys_drop {kw : Kwargs α n P} {ks a : List String} :
    OnlyKeys (kwDrop kw ks) a ↔ OnlyKeys kw (a ++ ks) := by
  constructor
  · intro h k v hv
    by_cases hk : k ∈ ks
    · exact List.mem_append_right _ hk
    · exact List.mem_append_left _ (h k v (mem_drop.mpr ⟨hv, hk⟩))
  · intro h k v hv
    obtain ⟨h1, h2⟩ := mem_drop.mp hv
    rcases List.mem_append.mp (h k v h1) with h | h
    · exact h
    · exact absurd h h2

theorem kwNum_ok {kw : Kwargs α n P} (hd : Distinct kw) {k : String} {d x : α} :
    kwNum kw k d = .ok x ↔ NumIs kw k d x := by
  unfold kwNum NumIs
  rw [← kwGet_none, ← kwGet_some hd]
  cases h : kwGet kw k with
  | none => simp [eq_comm]
  | some v => cases v <;> simp [Arg.toNum]

theorem kwOpt_ok {kw : Kwargs α n P} (hd : Distinct kw) {k : String} {x : Option α} :
    kwOpt kw k = .ok x ↔ OptIs kw k x := by
  cases x <;> simp only [kwOpt, OptIs, ← kwGet_none, ← kwGet_some hd] <;>
  cases h : kwGet kw k with
  | none => simp
  | some v => cases v <;> simp [Arg.toNum, Except.map]

theorem kwBound_ok {kw : Kwargs α n P} (hd : Distinct kw) {k : String} {x : Bound α} :
    kwBound kw k = .ok x ↔ BoundIs kw k x := by
  cases x <;> simp only [kwBound, BoundIs, ← kwGet_none, ← kwGet_some hd] <;>
  cases h : kwGet kw k with
  | none => simp
  | some v => cases v <;> simp [Arg.toBound]

theorem kwNum_err {kw : Kwargs α n P} {k : String} {d : α} {e : Err} (h : kwNum kw k d = .error e) : e = .typeError := by
  unfold kwNum at h
  split at h
  · cases h
  · rename_i v _; cases v <;> simp [Arg.toNum] at h <;> exact h.symm

theorem kwOpt_err {kw : Kwargs α n P} {k : String} {e : Err} (h : kwOpt kw k = .error e) : e = .typeError := by
  unfold kwOpt at h
  split at h
  · cases h
  · cases h
  · rename_i v _ _; cases v <;> simp [Arg.toNum, Except.map] at h <;> exact h.symm

theorem kwBound_err {kw : Kwargs α n P} {k : String} {e : Err} (h : kwBound kw k = .error e) : e = .typeError := by
  unfold kwBound at h
  split at h
  · cases h
  · rename_i v _; cases v <;> simp [Arg.toBound] at h <;> exact h.symm

theorem any_keys {kw : Kwargs α n P} (ks : List String) :
    (kw.any fun a => !ks.contains a.1) = false ↔ OnlyKeys kw ks := by
  simp only [List.any_eq_false, OnlyKeys]
  constructor
  · intro h k v hv; simpa using h (k, v) hv
  · rintro h ⟨k, v⟩ hv; simpa using h k v hv

theorem bindSolver_ok {pos : Option (Arg α n P)} {kw : Kwargs α n P} (hd : Distinct kw) {a : BaseArgs α P} :
    bindSolver pos kw = .ok a ↔ CommonArgs pos kw [] a.params a.h a.tBound := by
  have hgo : ∀ q, (Arg.toParams (pos <|> kwGet kw "params") = .ok q ∧
      ¬ (pos.isSome && (kwGet kw "params").isSome) = true) ↔ ParamsIs pos kw q := by
    intro q
    cases q <;> simp only [ParamsIs, ← kwGet_none, ← kwGet_some hd] <;>
    cases hg : kwGet kw "params" with
    | none => cases pos with
      | none => simp [Arg.toParams]
      | some v => cases v <;> simp [Arg.toParams]
    | some v => cases pos with
      | none => cases v <;> simp [Arg.toParams]
      | some v => simp
  unfold bindSolver
  constructor
  · intro h
    split at h
    · cases h
    rename_i h1
    split at h
    · cases h
    rename_i h2
    simp only [bind, Except.bind, pure, Except.pure] at h
    split at h
    · cases h
    rename_i hp
    split at h
    · cases h
    rename_i hh
    split at h
    · cases h
    rename_i hb
    cases h
    exact ⟨by simpa [commonKeys] using (any_keys _).mp (by simpa using h1),
      (hgo _).mp ⟨hp, h2⟩, (kwOpt_ok hd).mp hh, (kwBound_ok hd).mp hb⟩
  · intro h
    obtain ⟨h1, h2⟩ := (hgo _).mpr h.params
    rw [if_neg (by rw [(any_keys _).mpr (by simpa [commonKeys] using h.keys)]; simp), if_neg h2]
    simp only [bind, Except.bind, pure, Except.pure, h1, (kwOpt_ok hd).mpr h.h, (kwBound_ok hd).mpr h.tBound]

theorem bindSolver_err {pos : Option (Arg α n P)} {kw : Kwargs α n P} {e : Err} (h : bindSolver pos kw = .error e) :
    e = .typeError := by
  unfold bindSolver at h
  split at h
  · cases h; rfl
  split at h
  · cases h; rfl
  simp only [bind, Except.bind, pure, Except.pure] at h
  split at h
  · rename_i e' hq
    cases h
    generalize (pos <|> kwGet kw "params") = q at hq
    cases q with
    | none => cases hq
    | some v => cases v <;> simp [Arg.toParams] at hq <;> exact hq.symm
  split at h
  · rename_i hq; cases h; exact kwOpt_err hq
  split at h
  · rename_i hq; cases h; exact kwBound_err hq
  cases h

end keys

section options

variable {α : Type} [Div α] [One α] [NatCast α] {n : Nat} {P : Type}

theorem bindOptions_ok {kw : Kwargs α n P} (hd : Distinct kw) {o : VarOptions α} :
    bindOptions kw = .ok o ↔ OptionsAre kw o := by
  constructor
  · intro h
    unfold bindOptions at h
    simp only [bind, Except.bind, pure, Except.pure] at h
    split at h
    · cases h
    split at h
    · cases h
    split at h
    · cases h
    split at h
    · cases h
    split at h
    · cases h
    split at h
    · cases h
    split at h
    · cases h
    rename_i x1 h1 _ x2 h2 _ x3 h3 _ x4 h4 _ x5 h5 _ x6 h6 _ x7 h7
    cases h
    exact ⟨(kwNum_ok hd).mp h1, (kwNum_ok hd).mp h2, (kwNum_ok hd).mp h3, (kwBound_ok hd).mp h4,
      (kwNum_ok hd).mp h5, (kwNum_ok hd).mp h6, (kwNum_ok hd).mp h7⟩
  · intro h
    have h1 := (kwNum_ok hd).mpr h.atol
    have h2 := (kwNum_ok hd).mpr h.rtol
    have h3 := (kwNum_ok hd).mpr h.minStep
    have h4 := (kwBound_ok hd).mpr h.maxStep
    have h5 := (kwNum_ok hd).mpr h.minFactor
    have h6 := (kwNum_ok hd).mpr h.maxFactor
    have h7 := (kwNum_ok hd).mpr h.safetyFactor
    unfold bindOptions
    simp only [bind, Except.bind, pure, Except.pure, VarOptions.default]
    simp only [Nat.reducePow] at h1 h2 h3
    rw [h1, h2, h3, h4, h5, h6, h7]

theorem bindOptions_err {kw : Kwargs α n P} {e : Err} (h : bindOptions kw = .error e) : e = .typeError := by
  unfold bindOptions at h
  simp only [bind, Except.bind, pure, Except.pure] at h
  split at h
  · rename_i e' h1; cases h; exact kwNum_err h1
  split at h
  · rename_i e' h1; cases h; exact kwNum_err h1
  split at h
  · rename_i e' h1; cases h; exact kwNum_err h1
  split at h
  · rename_i e' h1; cases h; exact kwBound_err h1
  split at h
  · rename_i e' h1; cases h; exact kwNum_err h1
  split at h
  · rename_i e' h1; cases h; exact kwNum_err h1
  split at h
  · rename_i e' h1; cases h; exact kwNum_err h1
  cases h

theorem bindVariable_ok {pos : Option (Arg α n P)} {kw : Kwargs α n P} (hd : Distinct kw) {o : VarOptions α}
    {first : Option α} {a : BaseArgs α P} :
    bindVariable pos kw = .ok (o, first, a) ↔ VariableArgs pos kw o first a.params a.h a.tBound := by
  have hd1 := distinct_drop hd variableStepOptions
  have hd2 := distinct_drop hd1 ["first_step"]
  have hkeys : OnlyKeys (kwDrop (kwDrop kw variableStepOptions) ["first_step"]) (commonKeys ++ []) ↔
      OnlyKeys kw (commonKeys ++ variableOwn) := by
    rw [onlyKeys_drop, onlyKeys_drop]
    simp [variableOwn, variableStepOptions]
  have hb : CommonArgs pos (kwDrop (kwDrop kw variableStepOptions) ["first_step"]) [] a.params a.h a.tBound ↔
      CommonArgs pos kw variableOwn a.params a.h a.tBound := by
    constructor
    · rintro ⟨h1, h2, h3, h4⟩
      exact ⟨hkeys.mp h1, (paramsIs_drop (by decide) _).mp ((paramsIs_drop (by decide) _).mp h2),
        (optIs_drop (by decide) _).mp ((optIs_drop (by decide) _).mp h3),
        (boundIs_drop (by decide) _).mp ((boundIs_drop (by decide) _).mp h4)⟩
    · rintro ⟨h1, h2, h3, h4⟩
      exact ⟨hkeys.mpr h1, (paramsIs_drop (by decide) _).mpr ((paramsIs_drop (by decide) _).mpr h2),
        (optIs_drop (by decide) _).mpr ((optIs_drop (by decide) _).mpr h3),
        (boundIs_drop (by decide) _).mpr ((boundIs_drop (by decide) _).mpr h4)⟩
  constructor
  · intro h
    unfold bindVariable at h
    simp only [bind, Except.bind, pure, Except.pure] at h
    split at h
    · cases h
    split at h
    · cases h
    split at h
    · cases h
    rename_i h1 _ _ h2 _ _ h3
    cases h
    exact ⟨hb.mp ((bindSolver_ok hd2).mp h3), (bindOptions_ok hd).mp h1,
      (optIs_drop (by decide) _).mp ((kwOpt_ok hd1).mp h2)⟩
  · intro h
    have h1 := (bindOptions_ok hd).mpr h.options
    have h2 := (kwOpt_ok hd1).mpr ((optIs_drop (by decide) _).mpr h.first)
    have h3 := (bindSolver_ok hd2).mpr (hb.mpr h.toCommonArgs)
    unfold bindVariable
    simp only [bind, Except.bind, pure, Except.pure, h1, h2, h3]

theorem bindVariable_err {pos : Option (Arg α n P)} {kw : Kwargs α n P} {e : Err} (h : bindVariable pos kw = .error e) :
    e = .typeError := by
  unfold bindVariable at h
  simp only [bind, Except.bind, pure, Except.pure] at h
  split at h
  · rename_i e' h1; cases h; exact bindOptions_err h1
  split at h
  · rename_i e' h1; cases h; exact kwOpt_err h1
  split at h
  · rename_i e' h1; cases h; exact bindSolver_err h1
  cases h

end options

end Nbkode
