import Verif.Spec.Superposition
import Verif.Props.Parts
import Verif.Props.Controller
import Mathlib.Data.Fin.Tuple.Basic

/-!
# C113: superposition

The solutions of linear problems can be added and multiplied by numbers, and so can the answers of the explicit fixed-step
methods. Proof: `(y, z)` is integrated as one system, of which `y`, `z` and `a y + c z` are images in the sense of C74.
-/

set_option autoImplicit false
set_option linter.unusedSectionVars false

namespace Nbkode
open Py Spec Solver

section field
variable {α : Type} [Field α] [LinearOrder α] [IsStrictOrderedRing α] [BEq α] [LawfulBEq α]
variable {n k s p : Nat}

/-- `a y + c z` as a change of variables of `(y, z)`. -/
def mix (n : Nat) (a c : α) : Change α (n + n) n :=
  ⟨1, 0, fun i j => (if j = Fin.castAdd n i then a else 0) + (if j = Fin.natAdd n i then c else 0), 0⟩

theorem mix_time (a c t : α) : (mix n a c).time t = t := by simp [Change.time, mix]

theorem mix_lin (a c : α) (z : Vec α (n + n)) :
    (mix n a c).lin z = combine a c (fun i => z (Fin.castAdd n i)) (fun i => z (Fin.natAdd n i)) := by
  funext i
  simp [Change.lin, mix, combine, add_mul, Finset.sum_add_distrib]

theorem mix_state (a c : α) (z : Vec α (n + n)) :
    (mix n a c).state z = combine a c (fun i => z (Fin.castAdd n i)) (fun i => z (Fin.natAdd n i)) := by
  funext i
  simp only [Change.state, mix_lin]
  simp [mix]

theorem mix_slope (a c : α) (z : Vec α (n + n)) :
    (mix n a c).slope z = combine a c (fun i => z (Fin.castAdd n i)) (fun i => z (Fin.natAdd n i)) := by
  funext i
  simp only [Change.slope, mix_lin]
  simp [mix]

theorem mix_bound (a c : α) (b : Bound α) : (mix n a c).bound b = b := by
  cases b <;> simp [Change.bound, mix_time]

theorem plain_same {m : Nat} (C : Change α n m) (ht : ∀ t, C.time t = t) (cs : List (PlainCall α)) :
    List.Forall₂ C.SameCall (cs.map (PlainCall.call n)) (cs.map (PlainCall.call m)) := by
  have hb : ∀ u : Option (Bound α), u.map C.bound = u := by
    rintro (_ | _ | _) <;> simp [Change.bound, ht]
  have hl : ∀ l : List α, l.map C.time = l := fun l => by
    rw [show C.time = id from funext ht, List.map_id]
  induction cs with
  | nil => exact .nil
  | cons c cs ih =>
    refine .cons ?_ ih
    cases c with
    | step q u =>
      have := Change.SameCall.step (C := C) q u
      rwa [hb] at this
    | skip q u =>
      have := Change.SameCall.skip (C := C) q u
      rwa [hb] at this
    | interpolate t =>
      have := Change.SameCall.interpolate (C := C) t
      rwa [ht] at this
    | run l =>
      have := Change.SameCall.run (C := C) l
      rwa [hl] at this

theorem zipWith_map_map {A B C D : Type} (f : B → C → D) (g : A → B) (h : A → C) (l : List A) :
    List.zipWith f (l.map g) (l.map h) = l.map fun x => f (g x) (h x) := by
  induction l with
  | nil => rfl
  | cons x l ih => simp only [List.map_cons, List.zipWith_cons_cons, ih]

/-- The first and the second half of the components. -/
abbrev half1 (α : Type) [Field α] (n : Nat) : Change α (n + n) n := pick α (Fin.castAdd n)
abbrev half2 (α : Type) [Field α] (n : Nat) : Change α (n + n) n := pick α (Fin.natAdd n)

theorem mix_points (a c : α) (l : List (α × Vec α (n + n))) :
    combinePoints a c ((half1 α n).points l) ((half2 α n).points l) = (mix n a c).points l := by
  unfold combinePoints Change.points
  rw [zipWith_map_map]
  refine List.map_congr_left fun p _ => ?_
  simp only [pick_time, pick_state, mix_time, mix_state]

theorem mix_ref (a c : α) (r : Ref α (n + n) k) : combineRef a c ((half1 α n).ref r) ((half2 α n).ref r) = (mix n a c).ref r := by
  cases r with
  | own y => simp only [Change.ref, combineRef, pick_state, mix_state]
  | row i => rfl

theorem mix_answer (a c : α) (x : Answer α (n + n) k) :
    combineAnswer a c ((half1 α n).answer x) ((half2 α n).answer x) = (mix n a c).answer x := by
  rcases x with (l | ⟨t, r⟩ | _) | _ | r | l | o
  · simp only [Change.answer, combineAnswer, mix_points]
  · simp only [Change.answer, combineAnswer, mix_ref, pick_time, mix_time]
  · rfl
  · rfl
  · simp only [Change.answer, combineAnswer, mix_ref]
  · simp only [Change.answer, combineAnswer, mix_points]
  · simp only [Change.answer, combineAnswer, mix_points, zipWith_map_map, mix_ref,
      show (half1 α n).time = id from funext (pick_time _), show (mix n a c).time = id from funext (mix_time a c)]

theorem mix_seen (a c : α) (v : Seen α (n + n) k) :
    combineSeen a c ((half1 α n).seen v) ((half2 α n).seen v) = (mix n a c).seen v := by
  unfold combineSeen Change.seen
  simp only [zipWith_map_map]
  congr 1
  · refine List.map_congr_left fun r _ => ?_
    cases r with
    | error e => rfl
    | ok x => exact congrArg Except.ok (mix_answer a c x)
  · simp only [Change.history, pick_time, pick_state, pick_slope, mix_time, mix_state, mix_slope]

theorem mix_observed (a c : α) (V : Option (Except Err (Seen α (n + n) k))) :
    combineObserved a c (V.map (Except.map (half1 α n).seen)) (V.map (Except.map (half2 α n).seen)) =
      V.map (Except.map (mix n a c).seen) := by
  rcases V with _ | e | v
  · rfl
  · rfl
  · show some (Except.ok _) = some (Except.ok _)
    rw [mix_seen]

/-- Both problems as one. -/
def together (f g : α → Vec α n → Vec α n) : Rhs α (n + n) :=
  pureRhs fun t z => Fin.append (f t fun i => z (Fin.castAdd n i)) (g t fun i => z (Fin.natAdd n i))

theorem own1 (f g : α → Vec α n → Vec α n) : OnItsOwn (Fin.castAdd n) (together f g) (pureRhs f) := by
  intro t z
  show Except.ok _ = Except.ok _
  congr 1
  funext i
  simp

theorem own2 (f g : α → Vec α n → Vec α n) : OnItsOwn (Fin.natAdd n) (together f g) (pureRhs g) := by
  intro t z
  show Except.ok _ = Except.ok _
  congr 1
  funext i
  simp only [Fin.append_right]

variable (a c : α) (f g w : α → Vec α n → Vec α n)
  (hw : ∀ t y z, w t (combine a c y z) = combine a c (f t y) (g t z)) (b : Bound α) (bo : BisectOpts α)
  (argsort : List α → List Nat) (hA : ∀ l, IsArgsort l (argsort l)) (ha : ComparisonSort argsort) (cs : List (PlainCall α))
  (t0 : α) (y0 z0 : Vec α n) (h : α)

include hw in
theorem mix_transforms : (mix n a c).Transforms (together f g) (pureRhs w) := by
  intro t z
  rw [mix_time, mix_state]
  show Except.ok _ = Except.ok _
  rw [hw, mix_slope]
  congr 2
  · funext i; simp only [Fin.append_left]
  · funext i; simp only [Fin.append_right]

include hw hA ha

/-- C113: explicit Runge-Kutta methods with a fixed step. If `w(t, a y + c z) = a f(t, y) + c g(t, z)`, then what is seen of a solver
for `w` started at `a y0 + c z0` is `a` times what is seen of a solver for `f` started at `y0` plus `c` times what is seen of one for `g`
started at `z0`. -/
theorem C113_erk (T : Tableau α s) (gf gg gw : Buffer α n 0) (Kf Kg Kw : ErkAux α n s) :
    observe ⟨erk T, pureRhs w, b⟩ bo argsort (cs.map (PlainCall.call n))
        (some (erkInit gw Kw (pureRhs w) t0 (combine a c y0 z0) (some h))) =
      combineObserved a c
        (observe ⟨erk T, pureRhs f, b⟩ bo argsort (cs.map (PlainCall.call n)) (some (erkInit gf Kf (pureRhs f) t0 y0 (some h))))
        (observe ⟨erk T, pureRhs g, b⟩ bo argsort (cs.map (PlainCall.call n)) (some (erkInit gg Kg (pureRhs g) t0 z0 (some h)))) := by
  have h1 := C100_erk (Fin.castAdd n) (together f g) (pureRhs f) (own1 f g) b bo argsort hA ha (cs.map (PlainCall.call (n + n)))
    (cs.map (PlainCall.call n)) (plain_same _ (pick_time _) cs) t0 (Fin.append y0 z0) h T ⟨0, 0, 0⟩ gf 0 Kf
  have h2 := C100_erk (Fin.natAdd n) (together f g) (pureRhs g) (own2 f g) b bo argsort hA ha (cs.map (PlainCall.call (n + n)))
    (cs.map (PlainCall.call n)) (plain_same _ (pick_time _) cs) t0 (Fin.append y0 z0) h T ⟨0, 0, 0⟩ gg 0 Kg
  have h3 := C74_erk T (mix n a c) one_pos (together f g) (pureRhs w) (mix_transforms a c f g w hw) b bo argsort hA ha
    (cs.map (PlainCall.call (n + n))) (cs.map (PlainCall.call n)) (plain_same _ (mix_time a c) cs) ⟨0, 0, 0⟩ gw 0 Kw t0
    (Fin.append y0 z0) h
  rw [mix_bound, mix_time, mix_state, show (mix n a c).lam = 1 from rfl, one_mul] at h3
  simp only [Fin.append_left, Fin.append_right] at h1 h2 h3
  rw [h1, h2, mix_observed]
  exact h3

/-- C113: explicit multistep methods, without a starter and started with steps of such a Runge-Kutta method. -/
theorem C113_explicit_multistep (cf : MultistepCoef α p) (hcf : ∑ j, cf.A j = -1) (T : Tableau α s) (gf gg gw : Buffer α n (histExtra p))
    (sf sg sw : Buffer α n 0) (Kf Kg Kw : ErkAux α n s) :
    observe ⟨explicitMultistep cf, pureRhs w, b⟩ bo argsort (cs.map (PlainCall.call n))
        (multistepInit gw bo argsort .none (pureRhs w) t0 (combine a c y0 z0) (some h)) =
      combineObserved a c
        (observe ⟨explicitMultistep cf, pureRhs f, b⟩ bo argsort (cs.map (PlainCall.call n))
          (multistepInit gf bo argsort .none (pureRhs f) t0 y0 (some h)))
        (observe ⟨explicitMultistep cf, pureRhs g, b⟩ bo argsort (cs.map (PlainCall.call n))
          (multistepInit gg bo argsort .none (pureRhs g) t0 z0 (some h))) ∧
    observe ⟨explicitMultistep cf, pureRhs w, b⟩ bo argsort (cs.map (PlainCall.call n))
        (multistepInit gw bo argsort (erkStarter T sw Kw) (pureRhs w) t0 (combine a c y0 z0) (some h)) =
      combineObserved a c
        (observe ⟨explicitMultistep cf, pureRhs f, b⟩ bo argsort (cs.map (PlainCall.call n))
          (multistepInit gf bo argsort (erkStarter T sf Kf) (pureRhs f) t0 y0 (some h)))
        (observe ⟨explicitMultistep cf, pureRhs g, b⟩ bo argsort (cs.map (PlainCall.call n))
          (multistepInit gg bo argsort (erkStarter T sg Kg) (pureRhs g) t0 z0 (some h))) := by
  have h1 := C100_explicit_multistep (Fin.castAdd n) (together f g) (pureRhs f) (own1 f g) b bo argsort hA ha
    (cs.map (PlainCall.call (n + n))) (cs.map (PlainCall.call n)) (plain_same _ (pick_time _) cs) t0 (Fin.append y0 z0) h cf hcf T
    ⟨0, 0, 0⟩ gf ⟨0, 0, 0⟩ sf 0 Kf
  have h2 := C100_explicit_multistep (Fin.natAdd n) (together f g) (pureRhs g) (own2 f g) b bo argsort hA ha
    (cs.map (PlainCall.call (n + n))) (cs.map (PlainCall.call n)) (plain_same _ (pick_time _) cs) t0 (Fin.append y0 z0) h cf hcf T
    ⟨0, 0, 0⟩ gg ⟨0, 0, 0⟩ sg 0 Kg
  have h3 := C74_explicit_multistep cf hcf (mix n a c) one_pos (together f g) (pureRhs w) (mix_transforms a c f g w hw) b bo argsort hA ha
    (cs.map (PlainCall.call (n + n))) (cs.map (PlainCall.call n)) (plain_same _ (mix_time a c) cs) ⟨0, 0, 0⟩ gw T ⟨0, 0, 0⟩ sw 0 Kw t0
    (Fin.append y0 z0) h
  rw [mix_bound, mix_time, mix_state, show (mix n a c).lam = 1 from rfl, one_mul] at h3
  simp only [Fin.append_left, Fin.append_right] at h1 h2 h3
  refine ⟨?_, ?_⟩
  · rw [h1.1, h2.1, mix_observed]
    exact h3.1
  · rw [h1.2, h2.2, mix_observed]
    exact h3.2

end field

namespace Demo

/-- A free oscillator `x' = v`, `v' = -x`, and one driven by the force `t`. -/
def swing (_ : ℚ) (y : Vec ℚ 2) : Vec ℚ 2 := ![y 1, -y 0]
def pushed (t : ℚ) (y : Vec ℚ 2) : Vec ℚ 2 := ![y 1, -y 0 + t]

theorem pushed_mix (t : ℚ) (y z : Vec ℚ 2) : pushed t (combine 1 3 y z) = combine 1 3 (pushed t y) (swing t z) := by
  funext i
  fin_cases i <;> simp [pushed, swing, combine] <;> ring

/-- C113: a solution of the driven oscillator plus three times one of the free one, with RungeKutta4 and AdamsBashforth3. -/
example (bo : BisectOpts ℚ) (argsort : List ℚ → List Nat) (hA : ∀ l, IsArgsort l (argsort l)) (ha : ComparisonSort argsort) :=
  And.intro (C113_erk 1 3 pushed swing pushed pushed_mix (.fin 10) bo argsort hA ha [.step (some 3) none, .run [1, 2], .interpolate 2] 0
      ![1, 0] ![0, 1] (1/10) RungeKutta4 ⟨0, 0, 0⟩ ⟨0, 0, 0⟩ ⟨0, 0, 0⟩ 0 0 0)
    (C113_explicit_multistep 1 3 pushed swing pushed pushed_mix (.fin 10) bo argsort hA ha [.step (some 3) none, .run [1, 2]] 0
      ![1, 0] ![0, 1] (1/10) AdamsBashforth3
      (by norm_num [AdamsBashforth3, Fin.sum_univ_three, adamsA]; decide +kernel) RungeKutta4 ⟨0, 0, 0⟩ ⟨0, 0, 0⟩ ⟨0, 0, 0⟩ ⟨0, 0, 0⟩ ⟨0, 0, 0⟩
      ⟨0, 0, 0⟩ 0 0 0)

end Demo

open Demo

/-- The variable-step methods are left out of C113 for a reason: the step size depends on the size of the error. With `atol = 1`,
`rtol = 0` and `first_step = 1`, RungeKutta23 accepts the first step on `y' = 576/65 t³` from `0`, but not on twice that problem. -/
theorem C113_differs_RungeKutta23 (sel : Rhs ℝ 1 → ℝ → Vec ℝ 1 → Vec ℝ 1 → Except Err ℝ) (gb : Buffer ℝ 1 0) :
    (∀ t y z, (fun (t : ℝ) (_ : Vec ℝ 1) (_ : Fin 1) => cubic t) t (combine 2 0 y z) =
      combine 2 0 ((fun (t : ℝ) (_ : Vec ℝ 1) (_ : Fin 1) => 1 / 2 * cubic t) t y)
        ((fun (t : ℝ) (_ : Vec ℝ 1) (_ : Fin 1) => 1 / 2 * cubic t) t z)) ∧
    fsalInit (RungeKutta23 : FsalCoef ℝ 2 3).P coarse sel gb (fun _ _ => 0) ⟨fun _ _ => 0, 0⟩ (timeRhs cubic) 0
      (combine 2 0 (fun _ => 0) (fun _ => 0)) none (some 1) = .ok (rk23Start cubic 1) ∧
    fsalInit (RungeKutta23 : FsalCoef ℝ 2 3).P coarse sel gb (fun _ _ => 0) ⟨fun _ _ => 0, 0⟩ (timeRhs fun t => 1 / 2 * cubic t) 0
      (fun _ => 0) none (some 1) = .ok (rk23Start (fun t => 1 / 2 * cubic t) 1) ∧
    (∀ st, Takes ⟨fsal realLib coarse RungeKutta23, timeRhs cubic, .inf⟩ (rk23Start cubic 1) st → st.t ≠ 1) ∧
    ∃ st, Takes ⟨fsal realLib coarse RungeKutta23, timeRhs fun t => 1 / 2 * cubic t, .inf⟩ (rk23Start (fun t => 1 / 2 * cubic t) 1) st ∧
      st.t = 1 := by
  obtain ⟨h1, -, h2, -⟩ := C98_differs_RungeKutta23 sel gb (fun _ _ _ _ => .ok 1) ⟨0, 0, 0⟩
  refine ⟨fun t y z => ?_, ?_, rk23Start_init coarse (Or.inl rfl) rfl sel gb _ 1, h2, ?_⟩
  · funext i
    simp [combine]
  · have e : (combine 2 0 (fun _ => 0) (fun _ => 0) : Vec ℝ 1) = fun _ => 0 := by
      funext i
      simp [combine]
    rw [e]
    exact h1
  · have en : rkNorm realLib coarse (RungeKutta23 : FsalCoef ℝ 2 3).E 1 (rk23K (fun t => 1 / 2 * cubic t) 0 1)
        (proposal (RungeKutta23 : FsalCoef ℝ 2 3).toTableau 1 (fun _ => 0) (rk23K (fun t => 1 / 2 * cubic t) 0 1)) (fun _ => 0) =
        .ok (3 / 5) := by
      rw [rk23_norm coarse rfl rfl]
      norm_num [abs_of_neg, cubic]
    refine ⟨_, (fsal_takes_iff realLib coarse RungeKutta23 RungeKutta23_conditions.explicit _ .inf _ _ rfl).mpr
      ⟨[⟨1, 3 / 5⟩], ⟨1, 3 / 5⟩, _, rk23K (fun t => 1 / 2 * cubic t) 0 1, .accept (rk23_stages _ _ _ _) en
        (Or.inr (by norm_num)) (Or.inr ⟨by norm_num, (Real.rpow_pos_of_pos (by norm_num) _).ne', rfl⟩), rfl, rfl⟩, ?_⟩
    exact (push_t _ _ _ _).trans (by simp [St.t, Buffer.t, rk23Start])

end Nbkode
