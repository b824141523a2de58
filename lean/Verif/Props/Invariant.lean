import Verif.Proofs.Invariant
import Verif.Props.Uninitialised

/-!
# C76: invariant affine subspaces

If the derivative lies in a linear space `W` at every state of `y0 + W`, then every state a user of an explicit method sees lies
in `y0 + W`: returned by `step`, `run`, `run_events` or `interpolate`, recorded for an event, or found in the history.
-/

set_option autoImplicit false
set_option linter.unusedSectionVars false

namespace Nbkode
open Py Spec Solver

section field
variable {α : Type} [Field α] [LinearOrder α] [IsStrictOrderedRing α] [BEq α] [LawfulBEq α]
variable {n k : Nat}

/-- C76: fixed-step explicit Runge-Kutta methods. -/
theorem C76_erk {s : Nat} (T : Tableau α s) (rhs : Rhs α n) (W : Submodule α (Vec α n)) (y0 : Vec α n)
    (hf : ∀ t y f, y - y0 ∈ W → rhs t y = .ok f → f ∈ W) (b : Bound α) (bo : BisectOpts α) (argsort : List α → List Nat)
    (hA : ∀ l, IsArgsort l (argsort l)) (cs : List (Call α n)) (g : Buffer α n 0) (K : ErkAux α n s) (t0 : α)
    (h : Option α) (v : Seen α n 0) (hv : observe ⟨erk T, rhs, b⟩ bo argsort cs (some (erkInit g K rhs t0 y0 h)) = some (.ok v)) :
    v.Within fun y => y - y0 ∈ W :=
  within_of_same (same_erk (inside_lawful W y0) bo (inside_argsort argsort) hA (inside_rhs hf) (inside_bound b) rfl inside_start T
    (inside_calls cs) g g K K rfl) v hv

/-- C76: `RungeKutta23` and `RungeKutta45`. -/
theorem C76_fsal {s d : Nat} (lib : Lib α) (o : VarOptions α) (ho : SaneOptions o) (cf : FsalCoef α s d) (rhs : Rhs α n)
    (W : Submodule α (Vec α n)) (y0 : Vec α n) (hf : ∀ t y f, y - y0 ∈ W → rhs t y = .ok f → f ∈ W) (b : Bound α)
    (bo : BisectOpts α) (argsort : List α → List Nat) (hA : ∀ l, IsArgsort l (argsort l)) (cs : List (Call α n))
    (sel : Rhs α n → α → Vec α n → Vec α n → Except Err α) (g : Buffer α n 0) (K : Fin (s + 2) → Vec α n) (I : RkItp α n d)
    (t0 : α) (h first : Option α) (hfirst : ∀ h, first = some h → 0 < h)
    (hsel : first = none → ∀ f a, sel rhs t0 y0 f = .ok a → 0 < a) (v : Seen α n 0)
    (hv : observe ⟨fsal lib o cf, rhs, b⟩ bo argsort cs (some (fsalInit cf.P o sel g K I rhs t0 y0 h first)) = some (.ok v)) :
    v.Within fun y => y - y0 ∈ W :=
  within_of_same (same_fsal (inside_lawful W y0) bo (inside_argsort argsort) hA (inside_rhs hf) (inside_bound b) rfl inside_start ho ho
    (inside_control lib o) rfl Iff.rfl rfl (inside_first hfirst hsel) cf (inside_calls cs) g g K K I I) v hv

/-- C76: `DOP853`. -/
theorem C76_dop853 (lib : Lib α) (o : VarOptions α) (ho : SaneOptions o) (cf : DopCoef α) (rhs : Rhs α n)
    (W : Submodule α (Vec α n)) (y0 : Vec α n) (hf : ∀ t y f, y - y0 ∈ W → rhs t y = .ok f → f ∈ W) (b : Bound α)
    (bo : BisectOpts α) (argsort : List α → List Nat) (hA : ∀ l, IsArgsort l (argsort l)) (cs : List (Call α n))
    (sel : Rhs α n → α → Vec α n → Vec α n → Except Err α) (g : Buffer α n 0) (K : Fin 13 → Vec α n) (I : DopItp α n)
    (t0 : α) (h first : Option α) (hfirst : ∀ h, first = some h → 0 < h)
    (hsel : first = none → ∀ f a, sel rhs t0 y0 f = .ok a → 0 < a) (v : Seen α n 0)
    (hv : observe ⟨dop853 lib o cf, rhs, b⟩ bo argsort cs (some (dopInit cf.toDopDense o sel g K I rhs t0 y0 h first)) = some (.ok v)) :
    v.Within fun y => y - y0 ∈ W :=
  within_of_same (same_dop (inside_lawful W y0) bo (inside_argsort argsort) hA (inside_rhs hf) (inside_bound b) rfl inside_start ho ho
    (inside_control lib o) rfl Iff.rfl rfl (inside_first hfirst hsel) cf (inside_calls cs) g g K K I I) v hv

theorem inside_starter {lib : Lib α} {rhs : Rhs α n} {W : Submodule α (Vec α n)} {y0 : Vec α n}
    (hf : ∀ t y f, y - y0 ∈ W → rhs t y = .ok f → f ∈ W) {t0 : α} {str str' : Starter α n}
    (h : SameStarter lib rhs t0 y0 str str') (p : Nat) (w : α) : StarterRel (Vars.inside W y0) rhs rhs p t0 t0 y0 y0 w w str str' := by
  rcases h with _ | ⟨T, g, g', K, K'⟩ | ⟨o, cf, sel, g, g', K, K', I, I', ho, hsel⟩
  · exact .none
  · exact starterRel_erk (inside_lawful W y0) (inside_rhs hf) rfl inside_start T _ _ _ _ rfl
  · exact starterRel_fsal (inside_lawful W y0) (inside_rhs hf) rfl inside_start ho ho (inside_control lib o) rfl Iff.rfl
      (h := Option.none) (h' := Option.none) (first := Option.none) (first' := Option.none) rfl
      (inside_first (fun _ h => by cases h) fun _ => hsel) cf _ _ _ _ _ _ (List.forall₂_same.2 fun t _ => rfl)

/-- C76: explicit multistep methods with a starter that is an explicit Runge-Kutta method (such as the default `RungeKutta45`), or
none. -/
theorem C76_explicit_multistep {p : Nat} (lib : Lib α) (cf : MultistepCoef α p) (hcf : ∑ j, cf.A j = -1) (rhs : Rhs α n)
    (W : Submodule α (Vec α n)) (y0 : Vec α n) (hf : ∀ t y f, y - y0 ∈ W → rhs t y = .ok f → f ∈ W) (b : Bound α) (bo : BisectOpts α)
    (argsort : List α → List Nat) (hA : ∀ l, IsArgsort l (argsort l)) (cs : List (Call α n)) (g : Buffer α n (histExtra p)) (t0 : α)
    (h : Option α) (str : Starter α n) (hs : SameStarter lib rhs t0 y0 str str) (v : Seen α n (histExtra p))
    (hv : observe ⟨explicitMultistep cf, rhs, b⟩ bo argsort cs (multistepInit g bo argsort str rhs t0 y0 h) = some (.ok v)) :
    v.Within fun y => y - y0 ∈ W :=
  within_of_same (same_explicit (inside_lawful W y0) bo (inside_argsort argsort) hA (inside_rhs hf) (inside_bound b) rfl inside_start
    cf hcf (inside_calls cs) g g rfl (inside_starter hf hs p _)) v hv

end field

/-! ### Cases -/

namespace Demo

/-- Displacements that do not change the total. -/
def sumZero : Submodule ℚ (Vec ℚ 3) where
  carrier := {d | d 0 + d 1 + d 2 = 0}
  zero_mem' := by simp
  add_mem' := by
    intro a b ha hb
    simp only [Set.mem_setOf_eq, Pi.add_apply] at *
    linarith
  smul_mem' := by
    intro c a ha
    simp only [Set.mem_setOf_eq, Pi.smul_apply, smul_eq_mul] at *
    rw [← mul_add, ← mul_add, ha, mul_zero]

/-- An epidemic: susceptible, infected, recovered. -/
def epidemic : Rhs ℚ 3 := pureRhs fun _ y => ![-(y 0 * y 1), y 0 * y 1 - y 1, y 1]

theorem epidemic_sumZero (y0 : Vec ℚ 3) : ∀ t y f, y - y0 ∈ sumZero → epidemic t y = .ok f → f ∈ sumZero := by
  intro t y f _ h
  cases h
  show -(y 0 * y 1) + (y 0 * y 1 - y 1) + y 1 = 0
  ring

/-- C76: all states seen have the total of the initial state, whichever method is used. -/
example {lib : Lib ℚ} (o : VarOptions ℚ) (ho : SaneOptions o) (bo : BisectOpts ℚ) (argsort : List ℚ → List Nat)
    (hA : ∀ l, IsArgsort l (argsort l)) (cs : List (Call ℚ 3)) (g : Buffer ℚ 3 0) (ga : Buffer ℚ 3 (histExtra 1)) (K4 : ErkAux ℚ 3 3)
    (K : Fin 7 → Vec ℚ 3) (Kd : Fin 13 → Vec ℚ 3) (I : RkItp ℚ 3 4) (Id : DopItp ℚ 3) (v : Seen ℚ 3 0) (w : Seen ℚ 3 (histExtra 1))
    (y0 : Vec ℚ 3)
    (hv : observe ⟨erk RungeKutta4, epidemic, .fin 10⟩ bo argsort cs (some (erkInit g K4 epidemic 0 y0 none)) = some (.ok v) ∨
      observe ⟨fsal lib o RungeKutta45, epidemic, .fin 10⟩ bo argsort cs
        (some (fsalInit (RungeKutta45 : FsalCoef ℚ 5 4).P o (fun _ _ _ _ => .ok 1) g K I epidemic 0 y0 none none)) = some (.ok v) ∨
      observe ⟨dop853 lib o DOP853, epidemic, .fin 10⟩ bo argsort cs
        (some (dopInit (DOP853 : DopCoef ℚ).toDopDense o (fun _ _ _ _ => .ok 1) g Kd Id epidemic 0 y0 none (some (1/2)))) = some (.ok v))
    (hw : observe ⟨explicitMultistep AdamsBashforth2, epidemic, .inf⟩ bo argsort cs
      (multistepInit ga bo argsort (.fixed (erk RungeKutta4) fun rhs t y h => erkInit g K4 rhs t y h) epidemic 0 y0 (some (1/10))) = some (.ok w)) :
    (v.Within fun y => y 0 + y 1 + y 2 = y0 0 + y0 1 + y0 2) ∧ w.Within fun y => y 0 + y 1 + y 2 = y0 0 + y0 1 + y0 2 := by
  have key : ∀ y : Vec ℚ 3, y - y0 ∈ sumZero ↔ y 0 + y 1 + y 2 = y0 0 + y0 1 + y0 2 := by
    intro y
    show (y 0 - y0 0) + (y 1 - y0 1) + (y 2 - y0 2) = 0 ↔ _
    constructor <;> intro h <;> linarith
  simp only [← key]
  constructor
  · rcases hv with hv | hv | hv
    · exact C76_erk _ epidemic sumZero y0 (epidemic_sumZero y0) _ bo argsort hA cs g K4 0 none v hv
    · exact C76_fsal lib o ho _ epidemic sumZero y0 (epidemic_sumZero y0) _ bo argsort hA cs _ g K I 0 none none (fun _ h => by cases h)
        (fun _ _ _ h => by cases h; norm_num) v hv
    · exact C76_dop853 lib o ho _ epidemic sumZero y0 (epidemic_sumZero y0) _ bo argsort hA cs _ g Kd Id 0 none (some (1/2))
        (fun _ h => by cases h; norm_num) (fun h => by cases h) v hv
  · exact C76_explicit_multistep lib AdamsBashforth2 (by norm_num [AdamsBashforth2, Fin.sum_univ_two, adamsA]; decide +kernel) epidemic sumZero y0 (epidemic_sumZero y0)
      .inf bo argsort hA cs ga 0 _ _ (.erk RungeKutta4 g g K4 K4) w hw

/-- Two equal species that start alike. -/
def alike : Submodule ℚ (Vec ℚ 2) where
  carrier := {d | d 0 = d 1}
  zero_mem' := rfl
  add_mem' := by
    intro a b ha hb
    simp only [Set.mem_setOf_eq, Pi.add_apply] at *
    rw [ha, hb]
  smul_mem' := by
    intro c a ha
    simp only [Set.mem_setOf_eq, Pi.smul_apply] at *
    rw [ha]

/-- C76: the hypothesis on the derivative is about the states of `y0 + W` only. -/
example (y0 : Vec ℚ 2) (h0 : y0 0 = y0 1) : ∀ t y f, y - y0 ∈ alike →
    (pureRhs fun _ y => ![y 0 * (1 - y 0 - 2 * y 1), y 1 * (1 - y 1 - 2 * y 0)] : Rhs ℚ 2) t y = .ok f → f ∈ alike := by
  intro t y f hy h
  cases h
  replace hy : y 0 - y0 0 = y 1 - y0 1 := hy
  have : y 0 = y 1 := by linarith
  show y 0 * (1 - y 0 - 2 * y 1) = y 1 * (1 - y 1 - 2 * y 0)
  rw [this]

end Demo
end Nbkode
