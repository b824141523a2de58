import Verif.Proofs.Arguments
import Verif.Props.RealLib

/-!
# C80: the arguments of a constructor are the ones that are used
-/

set_option autoImplicit false
set_option linter.unusedSectionVars false

namespace Nbkode

variable {α : Type}
variable [Add α] [Sub α] [Mul α] [Div α] [Neg α] [Zero α] [One α] [NatCast α] [BEq α]
variable [LT α] [DecidableLT α] [LE α] [DecidableLE α]
variable {n : Nat} {P : Type}

section fixed

variable {s : Nat} (T : Tableau α s) (g : Buffer α n 0) (K : ErkAux α n s) (user : UserRhs α n P) (t0 : α) (y0 : Vec α n)

/-- **C80**, fixed-step Runge-Kutta classes: a call that says `params = p`, `h`, `t_bound = b` makes a solver of
`y' = rhs(t, y, p)` with that step size and bound, and fails only if evaluating `rhs` does. -/
theorem C80_fixed {pos : Option (Arg α n P)} {kw : Kwargs α n P} (hd : Distinct kw) {p : Option P} {h : Option α}
    {b : Bound α} (ha : CommonArgs pos kw [] p h b) :
    erkNew T g K user t0 y0 pos kw =
      (erkInit g K (user p) t0 y0 h).map fun st => (⟨erk T, user p, b⟩, st) := by
  have h1 := (bindSolver_ok hd (a := ⟨p, h, b⟩)).mpr ha
  unfold erkNew
  simp only [bind, Except.bind, pure, Except.pure, h1]
  cases erkInit g K (user p) t0 y0 h <;> rfl

/-- **C80**, fixed-step Runge-Kutta classes: any other call - an unknown keyword, `params` twice, a value that is no number - is
a `TypeError`, whatever `rhs` does. -/
theorem C80_fixed_refuses {pos : Option (Arg α n P)} {kw : Kwargs α n P} (hd : Distinct kw)
    (ha : ∀ p h b, ¬ CommonArgs pos kw [] p h b) : erkNew T g K user t0 y0 pos kw = .error .typeError := by
  unfold erkNew
  simp only [bind, Except.bind, pure, Except.pure]
  cases h1 : bindSolver pos kw with
  | error e => rw [bindSolver_err h1]
  | ok a => exact absurd ((bindSolver_ok hd).mp h1) (ha _ _ _)

end fixed

section variable_

variable {s d : Nat} (lib : Lib α) (c : FsalCoef α s d) (select : α → α → Rhs α n → α → Vec α n → Vec α n → Except Err α)
variable (g : Buffer α n 0) (K : Fin (s + 2) → Vec α n) (itp : RkItp α n d) (user : UserRhs α n P) (t0 : α) (y0 : Vec α n)

/-- **C80**, RungeKutta23/45: a call that says options `o`, `first_step`, `params = p`, `h`, `t_bound = b` makes a solver with
exactly these; the automatic first step is chosen with the `rtol` and `atol` of `o`. -/
theorem C80_variable {pos : Option (Arg α n P)} {kw : Kwargs α n P} (hd : Distinct kw) {o : VarOptions α}
    {first h : Option α} {p : Option P} {b : Bound α} (ha : VariableArgs pos kw o first p h b) :
    fsalNew lib c select g K itp user t0 y0 pos kw =
      (fsalInit c.P o (select o.rtol o.atol) g K itp (user p) t0 y0 h first).map fun st =>
        (⟨fsal lib o c, user p, b⟩, st) := by
  have h1 := (bindVariable_ok hd (a := ⟨p, h, b⟩)).mpr ha
  unfold fsalNew
  simp only [bind, Except.bind, pure, Except.pure, h1]
  cases fsalInit c.P o (select o.rtol o.atol) g K itp (user p) t0 y0 h first <;> rfl

/-- **C80**, RungeKutta23/45: any other call is a `TypeError`, whatever `rhs` does. -/
theorem C80_variable_refuses {pos : Option (Arg α n P)} {kw : Kwargs α n P} (hd : Distinct kw)
    (ha : ∀ o first p h b, ¬ VariableArgs pos kw o first p h b) :
    fsalNew lib c select g K itp user t0 y0 pos kw = .error .typeError := by
  unfold fsalNew
  simp only [bind, Except.bind, pure, Except.pure]
  cases h1 : bindVariable pos kw with
  | error e => rw [bindVariable_err h1]
  | ok a =>
    obtain ⟨o, first, a⟩ := a
    exact absurd ((bindVariable_ok hd).mp h1) (ha _ _ _ _ _)

end variable_

section dop

variable (lib : Lib α) (c : DopCoef α) (select : α → α → Rhs α n → α → Vec α n → Vec α n → Except Err α)
variable (g : Buffer α n 0) (K : Fin 13 → Vec α n) (itp : DopItp α n) (user : UserRhs α n P) (t0 : α) (y0 : Vec α n)

/-- **C80**, DOP853. -/
theorem C80_dop {pos : Option (Arg α n P)} {kw : Kwargs α n P} (hd : Distinct kw) {o : VarOptions α}
    {first h : Option α} {p : Option P} {b : Bound α} (ha : VariableArgs pos kw o first p h b) :
    dopNew lib c select g K itp user t0 y0 pos kw =
      (dopInit c.toDopDense o (select o.rtol o.atol) g K itp (user p) t0 y0 h first).map fun st =>
        (⟨dop853 lib o c, user p, b⟩, st) := by
  have h1 := (bindVariable_ok hd (a := ⟨p, h, b⟩)).mpr ha
  unfold dopNew
  simp only [bind, Except.bind, pure, Except.pure, h1]
  cases dopInit c.toDopDense o (select o.rtol o.atol) g K itp (user p) t0 y0 h first <;> rfl

/-- **C80**, DOP853: any other call is a `TypeError`. -/
theorem C80_dop_refuses {pos : Option (Arg α n P)} {kw : Kwargs α n P} (hd : Distinct kw)
    (ha : ∀ o first p h b, ¬ VariableArgs pos kw o first p h b) :
    dopNew lib c select g K itp user t0 y0 pos kw = .error .typeError := by
  unfold dopNew
  simp only [bind, Except.bind, pure, Except.pure]
  cases h1 : bindVariable pos kw with
  | error e => rw [bindVariable_err h1]
  | ok a =>
    obtain ⟨o, first, a⟩ := a
    exact absurd ((bindVariable_ok hd).mp h1) (ha _ _ _ _ _)

end dop

section multistep

variable {p : Nat} (M : Method α n (histExtra p) Unit) (nbkode : String → Option (Starter α n))
variable (g : Buffer α n (histExtra p)) (bo : BisectOpts α) (argsort : List α → List Nat) (user : UserRhs α n P)
variable (t0 : α) (y0 : Vec α n)

theorem common_starter {pos : Option (Arg α n P)} {kw : Kwargs α n P} {q : Option P} {h : Option α} {b : Bound α} :
    CommonArgs pos (kwDrop kw ["first_stepper_cls"]) [] q h b ↔ CommonArgs pos kw ["first_stepper_cls"] q h b := by
  constructor
  · rintro ⟨h1, h2, h3, h4⟩
    exact ⟨by simpa [commonKeys] using onlyKeys_drop.mp h1, (paramsIs_drop (by decide) _).mp h2,
      (optIs_drop (by decide) _).mp h3, (boundIs_drop (by decide) _).mp h4⟩
  · rintro ⟨h1, h2, h3, h4⟩
    exact ⟨by simpa using (onlyKeys_drop (a := commonKeys)).mpr h1, (paramsIs_drop (by decide) _).mpr h2,
      (optIs_drop (by decide) _).mpr h3, (boundIs_drop (by decide) _).mpr h4⟩

theorem resolve_ok {kw : Kwargs α n P} (hd : Distinct kw) {s : Starter α n} :
    resolveStarter nbkode (kwGet kw "first_stepper_cls") = .ok s ↔ StarterIs nbkode kw s := by
  have hby : ∀ x, packageAttr nbkode x = .ok s ↔ nbkode x = some s := by
    intro x; unfold packageAttr; cases nbkode x <;> simp
  unfold resolveStarter StarterIs
  simp only [← kwGet_none, ← kwGet_some hd]
  cases hg : kwGet kw "first_stepper_cls" with
  | none => simp [hby]
  | some v =>
    cases v with
    | none => simp [eq_comm]
    | num x => simp
    | inf => simp
    | params x => simp
    | cls x => simp
    | name x =>
      by_cases hx : x = "auto"
      · subst hx
        simp only [beq_self_eq_true, if_true, hby]
        simp only [reduceCtorEq, false_or, true_and, false_and, or_false, Option.some.injEq, Arg.name.injEq]
        constructor
        · exact Or.inl
        · rintro (h | ⟨c, h1, h2, _⟩)
          · exact h
          · exact absurd h2.symm h1
      · have hx' : (x == "auto") = false := by simpa using hx
        simp only [hx', hby]
        simp only [reduceCtorEq, false_or, false_and, Option.some.injEq, Arg.name.injEq, hx, if_false, Bool.false_eq_true]
        constructor
        · intro h; exact ⟨x, hx, rfl, h⟩
        · rintro ⟨c, _, h2, h3⟩; subst h2; exact h3

/-- **C80**, multistep classes: a call that says `params = q`, `h`, `t_bound = b` and the starter `s` makes a solver of
`y' = rhs(t, y, q)` started by `s`; the starter is given the same right-hand side, parameters included. -/
theorem C80_multistep {pos : Option (Arg α n P)} {kw : Kwargs α n P} (hd : Distinct kw) {q : Option P} {h : Option α}
    {b : Bound α} {s : Starter α n} (ha : CommonArgs pos kw ["first_stepper_cls"] q h b)
    (hs : StarterIs nbkode kw s) :
    multistepNew M nbkode g bo argsort user t0 y0 pos kw =
      (multistepInit g bo argsort s (user q) t0 y0 h).map fun r => r.map fun st => (⟨M, user q, b⟩, st) := by
  have h1 := (bindSolver_ok (distinct_drop hd _) (a := ⟨q, h, b⟩)).mpr (common_starter.mpr ha)
  have h2 := (resolve_ok nbkode hd).mpr hs
  unfold multistepNew
  rw [h1, h2]
  dsimp only
  unfold multistepInit
  cases solverInit g () (user q) t0 y0 h with
  | error e => rfl
  | ok st =>
    dsimp only
    by_cases hp : p = 0
    · simp [hp]
    · simp [hp]

/-- **C80**, multistep classes: a call with an unknown keyword - the options of the variable-step solvers among them - or
`params` twice or a value that is no number is a `TypeError`, whatever `rhs` does. -/
theorem C80_multistep_refuses {pos : Option (Arg α n P)} {kw : Kwargs α n P} (hd : Distinct kw)
    (ha : ∀ q h b, ¬ CommonArgs pos kw ["first_stepper_cls"] q h b) :
    multistepNew M nbkode g bo argsort user t0 y0 pos kw = some (.error .typeError) := by
  unfold multistepNew
  cases h1 : bindSolver pos (kwDrop kw ["first_stepper_cls"]) with
  | error e => rw [bindSolver_err h1]
  | ok a => exact absurd (common_starter.mp ((bindSolver_ok (distinct_drop hd _)).mp h1)) (ha _ _ _)

/-- **C80**, multistep classes of order above one: a starter that is neither `None`, a class, nor the name of a class of the
package is an `AttributeError`, unless `rhs` fails at the initial point. -/
theorem C80_multistep_starter (hp : p ≠ 0) {pos : Option (Arg α n P)} {kw : Kwargs α n P} (hd : Distinct kw) {q : Option P}
    {h : Option α} {b : Bound α} (ha : CommonArgs pos kw ["first_stepper_cls"] q h b)
    (hs : ∀ s, ¬ StarterIs nbkode kw s) {f : Vec α n} (hf : user q t0 y0 = .ok f) :
    multistepNew M nbkode g bo argsort user t0 y0 pos kw = some (.error .attributeError) := by
  have h1 := (bindSolver_ok (distinct_drop hd _) (a := ⟨q, h, b⟩)).mpr (common_starter.mpr ha)
  unfold multistepNew
  rw [h1]
  simp only [solverInit, hf, hp, if_false]
  have herr : ∀ e, resolveStarter nbkode (kwGet kw "first_stepper_cls") = .error e → e = .attributeError := by
    intro e he
    unfold resolveStarter at he
    split at he
    · unfold packageAttr at he; split at he <;> cases he; rfl
    · cases he
    · unfold packageAttr at he; split at he <;> cases he; rfl
    · cases he
    · cases he; rfl
  cases h2 : resolveStarter nbkode (kwGet kw "first_stepper_cls") with
  | error e => simp only [bind, Except.bind, pure, Except.pure]; rw [herr e h2]
  | ok s => exact absurd ((resolve_ok nbkode hd).mp h2) (hs s)

end multistep

/-! ### The order of the keywords -/

section order

theorem kwGet_perm {kw kw' : Kwargs α n P} (hd : Distinct kw) (hp : kw.Perm kw') (k : String) :
    kwGet kw k = kwGet kw' k := by
  have hd' : Distinct kw' := (hp.map Prod.fst).nodup_iff.mp hd
  cases h : kwGet kw k with
  | some v => exact ((kwGet_some hd').mpr (hp.mem_iff.mp ((kwGet_some hd).mp h))).symm
  | none =>
    refine (kwGet_none.mpr fun v hv => ?_).symm
    exact kwGet_none.mp h v (hp.mem_iff.mpr hv)

theorem bindSolver_perm {pos : Option (Arg α n P)} {kw kw' : Kwargs α n P} (hd : Distinct kw) (hp : kw.Perm kw') :
    bindSolver pos kw = bindSolver pos kw' := by
  have ha : ∀ f : String × Arg α n P → Bool, kw.any f = kw'.any f := by
    intro f
    rw [Bool.eq_iff_iff, List.any_eq_true, List.any_eq_true]
    exact ⟨fun ⟨x, h1, h2⟩ => ⟨x, hp.mem_iff.mp h1, h2⟩, fun ⟨x, h1, h2⟩ => ⟨x, hp.mem_iff.mpr h1, h2⟩⟩
  unfold bindSolver
  simp only [kwOpt, kwBound, kwGet_perm hd hp, ha]

theorem bindVariable_perm {pos : Option (Arg α n P)} {kw kw' : Kwargs α n P} (hd : Distinct kw) (hp : kw.Perm kw') :
    bindVariable pos kw = bindVariable pos kw' := by
  have h1 : (kwDrop kw variableStepOptions).Perm (kwDrop kw' variableStepOptions) := hp.filter _
  have h2 : (kwDrop (kwDrop kw variableStepOptions) ["first_step"]).Perm
      (kwDrop (kwDrop kw' variableStepOptions) ["first_step"]) := h1.filter _
  have hd1 := distinct_drop hd variableStepOptions
  have h3 := bindSolver_perm (pos := pos) (distinct_drop hd1 ["first_step"]) h2
  unfold bindVariable
  rw [h3]
  simp only [bindOptions, kwNum, kwOpt, kwBound, kwGet_perm hd hp, kwGet_perm hd1 h1]

/-- **C80**: the order of the keyword arguments does not matter. -/
theorem C80_order_fixed {s : Nat} (T : Tableau α s) (g : Buffer α n 0) (K : ErkAux α n s) (user : UserRhs α n P) (t0 : α)
    (y0 : Vec α n) (pos : Option (Arg α n P)) {kw kw' : Kwargs α n P} (hd : Distinct kw) (hp : kw.Perm kw') :
    erkNew T g K user t0 y0 pos kw = erkNew T g K user t0 y0 pos kw' := by
  unfold erkNew; rw [bindSolver_perm hd hp]

/-- **C80**: the order of the keyword arguments does not matter, RungeKutta23/45. -/
theorem C80_order_variable {s d : Nat} (lib : Lib α) (c : FsalCoef α s d)
    (select : α → α → Rhs α n → α → Vec α n → Vec α n → Except Err α)
    (g : Buffer α n 0) (K : Fin (s + 2) → Vec α n) (itp : RkItp α n d) (user : UserRhs α n P) (t0 : α) (y0 : Vec α n)
    (pos : Option (Arg α n P)) {kw kw' : Kwargs α n P} (hd : Distinct kw) (hp : kw.Perm kw') :
    fsalNew lib c select g K itp user t0 y0 pos kw = fsalNew lib c select g K itp user t0 y0 pos kw' := by
  unfold fsalNew; rw [bindVariable_perm hd hp]

/-- **C80**: the order of the keyword arguments does not matter, DOP853. -/
theorem C80_order_dop (lib : Lib α) (c : DopCoef α)
    (select : α → α → Rhs α n → α → Vec α n → Vec α n → Except Err α)
    (g : Buffer α n 0) (K : Fin 13 → Vec α n) (itp : DopItp α n) (user : UserRhs α n P) (t0 : α) (y0 : Vec α n)
    (pos : Option (Arg α n P)) {kw kw' : Kwargs α n P} (hd : Distinct kw) (hp : kw.Perm kw') :
    dopNew lib c select g K itp user t0 y0 pos kw = dopNew lib c select g K itp user t0 y0 pos kw' := by
  unfold dopNew; rw [bindVariable_perm hd hp]

/-- **C80**: the order of the keyword arguments does not matter, multistep classes. -/
theorem C80_order_multistep {p : Nat} (M : Method α n (histExtra p) Unit) (nbkode : String → Option (Starter α n))
    (g : Buffer α n (histExtra p)) (bo : BisectOpts α) (argsort : List α → List Nat) (user : UserRhs α n P)
    (t0 : α) (y0 : Vec α n) (pos : Option (Arg α n P)) {kw kw' : Kwargs α n P} (hd : Distinct kw) (hp : kw.Perm kw') :
    multistepNew M nbkode g bo argsort user t0 y0 pos kw = multistepNew M nbkode g bo argsort user t0 y0 pos kw' := by
  have h1 : (kwDrop kw ["first_stepper_cls"]).Perm (kwDrop kw' ["first_stepper_cls"]) := hp.filter _
  unfold multistepNew
  rw [bindSolver_perm (distinct_drop hd _) h1, kwGet_perm hd hp]

end order

/-! ### Non-vacuity -/

namespace Demo

/-- `rhs(t, y, k) = k y` (and a `TypeError` without `k`). -/
noncomputable def scaled : UserRhs ℝ 1 ℝ
  | some k => fun _ y => .ok fun i => k * y i
  | none => fun _ _ => .error .typeError

/-- `rtol=0.01, params=5, t_bound=3`. -/
noncomputable def someKw : Kwargs ℝ 1 ℝ := [("rtol", .num (1 / 100)), ("params", .params 5), ("t_bound", .num 3)]

/-- `RungeKutta45(rhs, 0, y0, rtol=0.01, params=5, t_bound=3)` meets the hypotheses of `C80_variable`, and the same call in another order
those of `C80_order_variable`. -/
example (lib : Lib ℝ) (sel : ℝ → ℝ → Rhs ℝ 1 → ℝ → Vec ℝ 1 → Vec ℝ 1 → Except Err ℝ) (g : Buffer ℝ 1 0)
    (K : Fin 7 → Vec ℝ 1) (itp : RkItp ℝ 1 4) (y0 : Vec ℝ 1) :
    let o : VarOptions ℝ := { VarOptions.default with rtol := 1 / 100 }
    fsalNew lib RungeKutta45 sel g K itp scaled 0 y0 none someKw =
      (fsalInit RungeKutta45.P o (sel (1 / 100) o.atol) g K itp (fun _ y => .ok fun i => 5 * y i) 0 y0 none none).map
        (fun st => (⟨fsal lib o RungeKutta45, fun _ y => .ok fun i => 5 * y i, .fin 3⟩, st)) ∧
    fsalNew lib RungeKutta45 sel g K itp scaled 0 y0 none someKw =
      fsalNew lib RungeKutta45 sel g K itp scaled 0 y0 none someKw.reverse := by
  have hd : Distinct someKw := by simp [Distinct, someKw]
  refine ⟨C80_variable lib RungeKutta45 sel g K itp scaled 0 y0 (p := some 5) hd ?_,
    C80_order_variable lib RungeKutta45 sel g K itp scaled 0 y0 none hd (List.reverse_perm _).symm⟩
  refine ⟨⟨?_, ?_, ?_, ?_⟩, ⟨?_, ?_, ?_, ?_, ?_, ?_, ?_⟩, ?_⟩
  · intro k v hv
    simp only [someKw, List.mem_cons, Prod.mk.injEq, List.not_mem_nil, or_false] at hv
    rcases hv with ⟨rfl, _⟩ | ⟨rfl, _⟩ | ⟨rfl, _⟩ <;> decide
  all_goals simp [ParamsIs, OptIs, BoundIs, NumIs, Omitted, someKw, VarOptions.default]

theorem no_atol {T : List String} (hT : "atol" ∉ commonKeys ++ T) {p : Option ℝ} {h : Option ℝ} {b : Bound ℝ} :
    ¬ CommonArgs (n := 1) none [("h", .num 1), ("atol", .num 1)] T p h b := fun ha =>
  hT (ha.keys "atol" (.num 1) (by simp))

/-- `RungeKutta4(rhs, 0, y0, h=1, atol=1)` is refused (`C80_fixed_refuses`), and so is `AdamsMoulton3(rhs, 0, y0, h=1, atol=1)`
(`C80_multistep_refuses`). -/
example (g : Buffer ℝ 1 0) (K : ErkAux ℝ 1 3) (y0 : Vec ℝ 1) (lib : Lib ℝ) (zo : ZeroOpts ℝ)
    (nb : String → Option (Starter ℝ 1)) (g' : Buffer ℝ 1 (histExtra 1)) (bo : BisectOpts ℝ)
    (argsort : List ℝ → List Nat) :
    erkNew RungeKutta4 g K scaled 0 y0 none [("h", .num 1), ("atol", .num 1)] = .error .typeError ∧
    multistepNew (p := 1) (implicitMultistep lib zo AdamsMoulton3) nb g' bo argsort scaled 0 y0 none
      [("h", .num 1), ("atol", .num 1)] = some (.error .typeError) := by
  have hd : Distinct ([("h", .num 1), ("atol", .num 1)] : Kwargs ℝ 1 ℝ) := by simp [Distinct]
  exact ⟨C80_fixed_refuses _ _ _ _ _ _ hd fun _ _ _ => no_atol (by decide),
    C80_multistep_refuses _ _ _ _ _ _ _ _ hd fun _ _ _ => no_atol (by decide)⟩

/-- `RungeKutta4(rhs, 0, y0, 5, h=1/2)` (`C80_fixed`); `RungeKutta23(rhs, 0, y0, 5, params=5)` and the same for DOP853 are refused
(`C80_variable_refuses`, `C80_dop_refuses`). -/
example (g : Buffer ℝ 1 0) (K : ErkAux ℝ 1 3) (y0 : Vec ℝ 1) (lib : Lib ℝ) (c : DopCoef ℝ)
    (sel : ℝ → ℝ → Rhs ℝ 1 → ℝ → Vec ℝ 1 → Vec ℝ 1 → Except Err ℝ) (K' : Fin 4 → Vec ℝ 1) (itp : RkItp ℝ 1 3)
    (K'' : Fin 13 → Vec ℝ 1) (itp' : DopItp ℝ 1) :
    erkNew RungeKutta4 g K scaled 0 y0 (some (.params 5)) [("h", .num (1 / 2))] =
      (erkInit g K (scaled (some 5)) 0 y0 (some (1 / 2))).map
        (fun st => (⟨erk RungeKutta4, scaled (some 5), .inf⟩, st)) ∧
    fsalNew lib RungeKutta23 sel g K' itp scaled 0 y0 (some (.params 5)) [("params", .params 5)] = .error .typeError ∧
    dopNew lib c sel g K'' itp' scaled 0 y0 (some (.params 5)) [("params", .params 5)] = .error .typeError := by
  have hd : Distinct ([("params", .params 5)] : Kwargs ℝ 1 ℝ) := by simp [Distinct]
  have hno : ∀ o first p h b, ¬ VariableArgs (some (.params 5)) ([("params", .params 5)] : Kwargs ℝ 1 ℝ) o first p h b := by
    intro o first p h b ha
    have := ha.params
    cases p <;> simp [ParamsIs, Omitted] at this
  refine ⟨C80_fixed _ _ _ _ _ _ (by simp [Distinct]) ⟨?_, ?_, ?_, ?_⟩,
    C80_variable_refuses _ _ _ _ _ _ _ _ _ hd hno, C80_dop_refuses _ _ _ _ _ _ _ _ _ hd hno⟩
  · intro k v hv
    simp only [List.mem_cons, Prod.mk.injEq, List.not_mem_nil, or_false] at hv
    rw [hv.1]; decide
  all_goals simp [ParamsIs, OptIs, BoundIs, Omitted]

/-- `AdamsMoulton3(rhs, 0, y0, 5, first_stepper_cls="RungeKutta4")` (`C80_multistep`), and with a name the package does not have
(`C80_multistep_starter`). -/
example (y0 : Vec ℝ 1) (lib : Lib ℝ) (zo : ZeroOpts ℝ) (s : Starter ℝ 1) (g : Buffer ℝ 1 (histExtra 1))
    (bo : BisectOpts ℝ) (argsort : List ℝ → List Nat) :
    let nb : String → Option (Starter ℝ 1) := fun c => if c = "RungeKutta4" then some s else none
    multistepNew (p := 1) (implicitMultistep lib zo AdamsMoulton3) nb g bo argsort scaled 0 y0 (some (.params 5))
      [("first_stepper_cls", .name "RungeKutta4")] =
      (multistepInit g bo argsort s (scaled (some 5)) 0 y0 none).map
        (fun r => r.map fun st => (⟨implicitMultistep lib zo AdamsMoulton3, scaled (some 5), .inf⟩, st)) ∧
    multistepNew (p := 1) (implicitMultistep lib zo AdamsMoulton3) nb g bo argsort scaled 0 y0 (some (.params 5))
      [("first_stepper_cls", .name "RungeKutta5")] = some (.error .attributeError) := by
  intro nb
  have hk : ∀ x, OnlyKeys ([("first_stepper_cls", .name x)] : Kwargs ℝ 1 ℝ) (commonKeys ++ ["first_stepper_cls"]) := by
    intro x k v hv
    simp only [List.mem_cons, Prod.mk.injEq, List.not_mem_nil, or_false] at hv
    rw [hv.1]; decide
  have ha : ∀ x, CommonArgs (some (.params 5)) ([("first_stepper_cls", .name x)] : Kwargs ℝ 1 ℝ) ["first_stepper_cls"] (some 5)
      none .inf := fun x => ⟨hk x, by simp [ParamsIs, Omitted], by simp [OptIs, Omitted], by simp [BoundIs, Omitted]⟩
  refine ⟨C80_multistep _ nb _ _ _ _ _ _ (by simp [Distinct]) (ha _) ?_,
    C80_multistep_starter _ nb _ _ _ _ _ _ (by decide) (by simp [Distinct]) (ha _) ?_ (f := fun i => 5 * y0 i) rfl⟩
  · exact Or.inr (Or.inr (Or.inr ⟨"RungeKutta4", by decide, by simp, by simp [nb]⟩))
  · rintro s' (⟨h | h, -⟩ | ⟨h, -⟩ | h | ⟨c, -, h, h'⟩)
    · exact h _ (List.mem_cons_self ..)
    · simp at h
    · simp at h
    · simp at h
    · simp at h; subst h; simp [nb] at h'

end Demo

end Nbkode
