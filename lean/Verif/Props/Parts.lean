import Verif.Spec.Parts
import Verif.Props.ClockDemo

/-!
# C100: parts of a system

If some components of a system do not look at the others, then a solver for the whole system answers for them what a solver for these
components alone answers. This holds for the explicit fixed-step methods. It does not for the variable-step methods, whose step sizes
depend on all components; they do treat several copies of a system like the system.
-/

set_option autoImplicit false
set_option linter.unusedSectionVars false

namespace Nbkode
open Py Spec Solver

section field
variable {α : Type} [Field α] [LinearOrder α] [IsStrictOrderedRing α] [BEq α] [LawfulBEq α]
variable {n m k s p : Nat} {X : Type} (ι : Fin m → Fin n)

theorem pick_time (t : α) : (pick α ι).time t = t := by simp [Change.time, pick]

theorem pick_lin (z : Vec α n) : (pick α ι).lin z = fun i => z (ι i) := by
  funext i
  simp [Change.lin, pick]

theorem pick_state (z : Vec α n) : (pick α ι).state z = fun i => z (ι i) := by
  funext i
  simp only [Change.state, pick_lin]
  simp [pick]

theorem pick_slope (z : Vec α n) : (pick α ι).slope z = fun i => z (ι i) := by
  funext i
  simp only [Change.slope, pick_lin]
  simp [pick]

theorem pick_bound (b : Bound α) : (pick α ι).bound b = b := by
  cases b <;> simp [Change.bound, pick_time]

theorem pick_transforms {whole : Rhs α n} {part : Rhs α m} (h : OnItsOwn ι whole part) : (pick α ι).Transforms whole part := by
  intro t z
  rw [pick_time, pick_state, h t z]
  congr 1
  funext f
  exact (pick_slope ι f).symm

/-- The error norm of a system that contains every component equally often. -/
theorem pick_control {c : Nat} (hc : c ≠ 0) (hι : EachPicked ι c) (lib : Lib α) (o : VarOptions α) : SameControl (pick α ι).vars lib o o where
  minFactor := rfl
  maxFactor := rfl
  safetyFactor := rfl
  norm := by
    rintro y _ z _ d _ rfl rfl rfl
    have key : ∀ g : Fin n → α, ∑ i, g (ι i) = c * ∑ j, g j := by
      intro g
      rw [← Finset.sum_fiberwise (s := Finset.univ) (g := ι), Finset.mul_sum]
      refine Finset.sum_congr rfl fun j _ => ?_
      rw [Finset.sum_congr rfl (g := fun _ => g j) (fun i hi => by rw [(Finset.mem_filter.1 hi).2]), Finset.sum_const, hι j, nsmul_eq_mul]
    have hm : (m : α) = c * n := by
      have := key fun _ => 1
      simpa using this
    unfold scaledErrorNorm
    dsimp only
    congr 1
    rw [foldl_eq_sum, foldl_eq_sum, zero_add, zero_add]
    simp only [pick_state, pick_lin]
    rw [key fun j => d j / (o.atol + o.rtol * pyMax (pyAbs (y j)) (pyAbs (z j))) * (d j / (o.atol + o.rtol * pyMax (pyAbs (y j)) (pyAbs (z j)))), hm,
      mul_div_mul_left _ _ (Nat.cast_ne_zero.2 hc)]

variable (whole : Rhs α n) (part : Rhs α m) (hf : OnItsOwn ι whole part) (b : Bound α) (bo : BisectOpts α) (argsort : List α → List Nat)
  (hA : ∀ l, IsArgsort l (argsort l)) (ha : ComparisonSort argsort) (cs : List (Call α n)) (cs' : List (Call α m))
  (hc : List.Forall₂ (pick α ι).SameCall cs cs') (t0 : α) (z0 : Vec α n) (h : α)

include hf hA ha hc

/-- C100: explicit Runge-Kutta methods with a fixed step. -/
theorem C100_erk (T : Tableau α s) (g : Buffer α n 0) (g' : Buffer α m 0) (K : ErkAux α n s) (K' : ErkAux α m s) :
    observe ⟨erk T, part, b⟩ bo argsort cs' (some (erkInit g' K' part t0 (fun i => z0 (ι i)) (some h))) =
      (observe ⟨erk T, whole, b⟩ bo argsort cs (some (erkInit g K whole t0 z0 (some h)))).map (Except.map (pick α ι).seen) := by
  have h1 := C74_erk T (pick α ι) one_pos whole part (pick_transforms ι hf) b bo argsort hA ha cs cs' hc g g' K K' t0 z0 h
  rwa [pick_bound, pick_time, pick_state, show (pick α ι).lam = 1 from rfl, one_mul] at h1

/-- C100: explicit multistep methods, without a starter and started with steps of such a Runge-Kutta method. -/
theorem C100_explicit_multistep (c : MultistepCoef α p) (hcA : ∑ j, c.A j = -1) (T : Tableau α s) (g : Buffer α n (histExtra p))
    (g' : Buffer α m (histExtra p)) (gs : Buffer α n 0) (gs' : Buffer α m 0) (K : ErkAux α n s) (K' : ErkAux α m s) :
    observe ⟨explicitMultistep c, part, b⟩ bo argsort cs' (multistepInit g' bo argsort .none part t0 (fun i => z0 (ι i)) (some h)) =
      (observe ⟨explicitMultistep c, whole, b⟩ bo argsort cs (multistepInit g bo argsort .none whole t0 z0 (some h))).map
        (Except.map (pick α ι).seen) ∧
    observe ⟨explicitMultistep c, part, b⟩ bo argsort cs'
        (multistepInit g' bo argsort (erkStarter T gs' K') part t0 (fun i => z0 (ι i)) (some h)) =
      (observe ⟨explicitMultistep c, whole, b⟩ bo argsort cs (multistepInit g bo argsort (erkStarter T gs K) whole t0 z0 (some h))).map
        (Except.map (pick α ι).seen) := by
  have h1 := C74_explicit_multistep c hcA (pick α ι) one_pos whole part (pick_transforms ι hf) b bo argsort hA ha cs cs' hc g g' T gs gs' K K'
    t0 z0 h
  rwa [pick_bound, pick_time, pick_state, show (pick α ι).lam = 1 from rfl, one_mul] at h1

/-- C100: with a variable-step method with a given first step, several copies of a system are integrated like the system: here `whole` is
the system and every component of it appears `c` times in `part`. -/
theorem C100_fsal_copies {d c : Nat} (hc0 : c ≠ 0) (hι : EachPicked ι c) (lib : Lib α) (o : VarOptions α) (ho : SaneOptions o) (cf : FsalCoef α s d)
    (sel : Rhs α n → α → Vec α n → Vec α n → Except Err α) (sel' : Rhs α m → α → Vec α m → Vec α m → Except Err α) (g : Buffer α n 0)
    (g' : Buffer α m 0) (K : Fin (s + 2) → Vec α n) (K' : Fin (s + 2) → Vec α m) (I : RkItp α n d) (I' : RkItp α m d) (hh : 0 < h) :
    observe ⟨fsal lib o cf, part, b⟩ bo argsort cs'
        (some (fsalInit cf.P o sel' g' K' I' part t0 (fun i => z0 (ι i)) none (some h))) =
      (observe ⟨fsal lib o cf, whole, b⟩ bo argsort cs (some (fsalInit cf.P o sel g K I whole t0 z0 none (some h)))).map
        (Except.map (pick α ι).seen) := by
  rw [fsalInit_h _ _ _ g' K' _ _ _ _ _ (some 1), fsalInit_h _ _ _ g K _ _ _ _ _ (some 1)]
  have h1 := (pick α ι).seen_of_same (same_fsal (o := o) (o' := o) ((pick α ι).lawful one_pos) bo ((pick α ι).argsort_rel one_pos ha) hA
    ((pick α ι).rhsRel (pick_transforms ι hf)) ((pick α ι).boundRel b) (t := t0) (y := z0) rfl rfl ho ho (pick_control ι hc0 hι lib o) rfl Iff.rfl
    (sel := sel) (sel' := sel') (h := some 1) (h' := some 1) (mul_one _).symm
    (first := some h) (first' := some h) ⟨⟨(one_mul _).symm, hh⟩, fun h => by cases h⟩ cf ((pick α ι).calls hc) g g' K K' I I')
  rwa [pick_bound, pick_time, pick_state] at h1

/-- C100: the same for `DOP853`. -/
theorem C100_dop853_copies {c : Nat} (hc0 : c ≠ 0) (hι : EachPicked ι c) (lib : Lib α) (o : VarOptions α) (ho : SaneOptions o) (cf : DopCoef α)
    (sel : Rhs α n → α → Vec α n → Vec α n → Except Err α) (sel' : Rhs α m → α → Vec α m → Vec α m → Except Err α) (g : Buffer α n 0)
    (g' : Buffer α m 0) (K : Fin 13 → Vec α n) (K' : Fin 13 → Vec α m) (I : DopItp α n) (I' : DopItp α m) (hh : 0 < h) :
    observe ⟨dop853 lib o cf, part, b⟩ bo argsort cs'
        (some (dopInit cf.toDopDense o sel' g' K' I' part t0 (fun i => z0 (ι i)) none (some h))) =
      (observe ⟨dop853 lib o cf, whole, b⟩ bo argsort cs (some (dopInit cf.toDopDense o sel g K I whole t0 z0 none (some h)))).map
        (Except.map (pick α ι).seen) := by
  rw [dopInit_h _ _ _ g' K' _ _ _ _ _ (some 1), dopInit_h _ _ _ g K _ _ _ _ _ (some 1)]
  have h1 := (pick α ι).seen_of_same (same_dop (o := o) (o' := o) ((pick α ι).lawful one_pos) bo ((pick α ι).argsort_rel one_pos ha) hA
    ((pick α ι).rhsRel (pick_transforms ι hf)) ((pick α ι).boundRel b) (t := t0) (y := z0) rfl rfl ho ho (pick_control ι hc0 hι lib o) rfl Iff.rfl
    (sel := sel) (sel' := sel') (h := some 1) (h' := some 1) (mul_one _).symm
    (first := some h) (first' := some h) ⟨⟨(one_mul _).symm, hh⟩, fun h => by cases h⟩ cf ((pick α ι).calls hc) g g' K K' I I')
  rwa [pick_bound, pick_time, pick_state] at h1

end field
end Nbkode
