import Verif.Props.Stepping
import Verif.Props.History
import Mathlib.Algebra.Order.Floor.Semiring
import Mathlib.Algebra.Order.Archimedean.Basic
import Mathlib.Data.Rat.Floor
import Mathlib.Tactic.Linarith
import Mathlib.Tactic.FieldSimp

/-!
# C12: fixed-step solvers walk the grid `t0 + k*h` and terminate
-/

set_option autoImplicit false
set_option linter.unusedSectionVars false

namespace Nbkode
open Py Spec Solver

/-- From `s` on, no step ever fails: after any number of steps there is a next one (the right-hand side
never raises and, for the implicit methods, the root finder converges). -/
def Spec.Unfailing {α : Type} [Add α] [LT α] [DecidableLT α] {n k : Nat} {X : Type} (S : Solver α n k X)
    (s : St α n k X) : Prop :=
  ∀ l s', Path S .inf s l s' → ∃ s'', Takes S s' s''

/-- The first `m` grid times after `t` with spacing `h`. -/
def Spec.grid {α : Type} [Add α] [Mul α] [NatCast α] (t h : α) (m : Nat) : List α :=
  (List.range m).map fun i => t + ((i + 1 : Nat) : α) * h

section
variable {α : Type} [Field α] [LinearOrder α] [IsStrictOrderedRing α] [BEq α]
variable {n k : Nat} {X : Type}

theorem path_inf {S : Solver α n k X} {b : Bound α} {s s' : St α n k X} {l : List (St α n k X)}
    (h : Path S b s l s') : Path S .inf s l s' := by
  induction h with
  | nil => exact .nil _
  | cons _ ht _ ih => exact .cons trivial ht ih

theorem path_grid {S : Solver α n k X} (hM : IsFixed S.method) {b : Bound α} {s s' : St α n k X}
    {l : List (St α n k X)} (h : Path S b s l s') :
    l.map St.t = grid s.t s.h l.length ∧ s'.t = s.t + (l.length : α) * s.h ∧ s'.h = s.h := by
  induction h with
  | nil => simp [grid]
  | @cons s s1 s2 l hf ht hp ih =>
    have e1 := hM.shaped.body_fixed _ _ _ ht
    have e2 : s1.h = s.h := hM.shaped.body_h _ _ _ _ ht
    obtain ⟨h1, h2, h3⟩ := ih
    refine ⟨?_, ?_, by rw [h3, e2]⟩
    · rw [List.map_cons, h1, e1, e2, List.length_cons]
      unfold grid
      rw [List.range_succ_eq_map]
      simp only [List.map_cons, List.map_map, List.cons.injEq]
      refine ⟨by push_cast; ring, List.map_congr_left fun i _ => ?_⟩
      simp only [Function.comp_apply]
      push_cast
      ring
    · rw [h2, e1, e2, List.length_cons]; push_cast; ring

/-- There is a path of any length that stays below the bound. -/
theorem path_exists {S : Solver α n k X} (hM : IsFixed S.method) {s : St α n k X}
    (hu : Unfailing S s) (hh : 0 < s.h) (b : Bound α) (m : Nat)
    (hb : m = 0 ∨ NotBeyond b (s.t + (m : α) * s.h)) :
    ∃ l s', Path S b s l s' ∧ l.length = m := by
  induction m with
  | zero => exact ⟨[], s, .nil s, rfl⟩
  | succ m ih =>
    have hb' : NotBeyond b (s.t + ((m + 1 : Nat) : α) * s.h) := by
      rcases hb with hb | hb
      · omega
      · exact hb
    obtain ⟨l, s', hp, hl⟩ := ih (by
      right
      cases b with
      | inf => trivial
      | fin b =>
        simp only [NotBeyond, not_lt] at *
        push_cast at hb'
        linarith)
    obtain ⟨s'', ht⟩ := hu l s' (path_inf hp)
    obtain ⟨-, h2, h3⟩ := path_grid hM hp
    refine ⟨l ++ [s''], s'', path_append hp (.cons ?_ ht (.nil _)), by simp [hl]⟩
    unfold Fits
    rw [h2, h3, hl]
    have : s.t + (m : α) * s.h + s.h = s.t + ((m + 1 : Nat) : α) * s.h := by push_cast; ring
    rw [this]
    exact hb'

/-- **C12**, `step(n=m)`: if the grid stays below `t_bound`, the call returns the times `t + h, ..., t + m*h` and the solver is
at `t + m*h`. -/
theorem C12_step_n (S : Solver α n k X) (hM : IsFixed S.method) (s : St α n k X)
    (hu : Unfailing S s) (hh : 0 < s.h) (m : Nat)
    (hb : ∀ b, S.tBound = .fin b → m = 0 ∨ s.t + (m : α) * s.h ≤ b) :
    ∃ out s', (S.step (some (m : Int)) none).run s = some (.ok (.arrays out), s') ∧
      out.map Prod.fst = grid s.t s.h m ∧ s'.t = s.t + (m : α) * s.h ∧ s'.h = s.h := by
  obtain ⟨l, s', hp, hl⟩ := path_exists hM hu hh S.tBound m (by
    rcases hS : S.tBound with b | _
    · rcases hb b hS with h | h
      · exact Or.inl h
      · right; simpa [NotBeyond] using h
    · exact Or.inr trivial)
  obtain ⟨h1, h2, h3⟩ := path_grid hM hp
  refine ⟨l.map record, s', ?_, ?_, by rw [h2, hl], h3⟩
  · unfold step nsteps
    simp only [run_bind, run_get, andThen_ok, run_ite, inPast, Bool.false_eq_true, if_false]
    rw [if_neg (by omega), Int.toNat_natCast,
      nstepsLoop_ok.mpr ⟨l, hp, rfl, Or.inl ⟨rfl, hl⟩⟩]
    rfl
  · rw [List.map_map, ← hl, ← h1]; rfl

/-- **C12**, `step(n=m)`: whenever the call returns, the times are the grid. -/
theorem C12_step_n_times (S : Solver α n k X) (hM : IsFixed S.method) (s s' : St α n k X) (m : Nat)
    (out : List (α × Vec α n))
    (h : (S.step (some (m : Int)) none).run s = some (.ok (.arrays out), s')) :
    out.map Prod.fst = grid s.t s.h m := by
  unfold step nsteps at h
  simp only [run_bind, run_get, andThen_ok, run_ite, inPast, Bool.false_eq_true, if_false] at h
  rw [if_neg (by omega), Int.toNat_natCast, andThen_eq_ok] at h
  obtain ⟨⟨out', scon⟩, s1, h1, h2⟩ := h
  cases scon with
  | true => simp at h2
  | false =>
    simp at h2
    obtain ⟨l, hp, rfl, hl⟩ := nstepsLoop_ok.mp h1
    simp at hl
    rw [← h2.1, List.map_map, ← hl, ← (path_grid hM hp).1]; rfl

variable [FloorSemiring α]

theorem path_floor {S : Solver α n k X} (hM : IsFixed S.method) {s : St α n k X}
    (hu : Unfailing S s) (hh : 0 < s.h) {u : α} (hle : s.t ≤ u) :
    ∃ l s', Path S (.fin u) s l s' ∧ l.length = ⌊(u - s.t) / s.h⌋₊ ∧ ¬ Fits (.fin u) s' := by
  have hx : 0 ≤ (u - s.t) / s.h := div_nonneg (by linarith) hh.le
  have h1 := Nat.floor_le hx
  have h2 := Nat.lt_floor_add_one ((u - s.t) / s.h)
  rw [le_div_iff₀ hh] at h1
  rw [div_lt_iff₀ hh] at h2
  obtain ⟨l, s', hp, hl⟩ := path_exists hM hu hh (.fin u) ⌊(u - s.t) / s.h⌋₊ (by
    right
    simp only [NotBeyond, not_lt]
    linarith)
  refine ⟨l, s', hp, hl, ?_⟩
  obtain ⟨-, h3, h4⟩ := path_grid hM hp
  unfold Fits
  simp only [NotBeyond, not_lt, not_le]
  rw [h3, h4, hl]
  linarith

/-- **C12**, `step(upto_t=u)`: it terminates, makes exactly `⌊(u - t)/h⌋` steps, and returns the grid. -/
theorem C12_step_upto (S : Solver α n k X) (hM : IsFixed S.method) (s : St α n k X)
    (hu : Unfailing S s) (hh : 0 < s.h) (u : α) (hle : s.t ≤ u) (hb : ∀ b, S.tBound = .fin b → u ≤ b) :
    ∃ out s', (S.step none (some (.fin u))).run s = some (.ok (.arrays out), s') ∧
      out.map Prod.fst = grid s.t s.h ⌊(u - s.t) / s.h⌋₊ ∧
      s'.t = s.t + (⌊(u - s.t) / s.h⌋₊ : α) * s.h ∧ s'.h = s.h := by
  obtain ⟨l, s', hp, hl, hn⟩ := path_floor hM hu hh hle
  obtain ⟨h1, h2, h3⟩ := path_grid hM hp
  refine ⟨l.map record, s', ?_, ?_, by rw [h2, hl], h3⟩
  · unfold step checkTime
    have e1 : inPast (some (.fin u)) s = false := by simp [inPast, Bound.lt, hle]
    have e2 : (Bound.fin u).gt S.tBound = false := by
      rcases hS : S.tBound with b | _
      · simpa [Bound.gt] using hb b hS
      · rfl
    simp only [run_bind, run_get, andThen_ok, run_ite, e1, e2, Bool.false_eq_true, if_false, run_pure]
    rw [stepsLoop_ok.mpr ⟨l, hp, rfl, hn⟩]
    rfl
  · rw [List.map_map, ← hl, ← h1]; rfl

/-- **C12**, `skip(upto_t=u)`. -/
theorem C12_skip_upto (S : Solver α n k X) (hM : IsFixed S.method) (s : St α n k X)
    (hu : Unfailing S s) (hh : 0 < s.h) (u : α) (hle : s.t ≤ u) (hb : ∀ b, S.tBound = .fin b → u ≤ b) :
    ∃ s', (S.skip none (some (.fin u))).run s = some (.ok (), s') ∧
      s'.t = s.t + (⌊(u - s.t) / s.h⌋₊ : α) * s.h ∧ s'.h = s.h := by
  obtain ⟨out, s', h1, -, h2, h3⟩ := C12_step_upto S hM s hu hh u hle hb
  refine ⟨s', ?_, h2, h3⟩
  have := C02_skip_eq_step S none (some (.fin u)) s
  simp only [Option.map_none] at this
  rw [this, h1]
  rfl

end

section unfailing
variable {α : Type}
variable [Add α] [Sub α] [Mul α] [Div α] [Neg α] [Zero α] [One α] [NatCast α] [BEq α]
variable [LT α] [DecidableLT α] [LE α] [DecidableLE α]
variable {n : Nat}

theorem stages_pure {s m : Nat} (hm : s + 1 ≤ m) (T : Tableau α s) (f : α → Vec α n → Vec α n) (t h : α)
    (y f0 : Vec α n) (K : Fin m → Vec α n) :
    ∃ K', (stages hm T (pureRhs f) t h y f0).run K = some (.ok (), K') := by
  unfold stages
  simp only [run_bind, run_modify, andThen_ok]
  generalize (Function.update K (Fin.castLE hm 0) f0) = K1
  generalize (List.finRange (s + 1)).tail = l
  induction l generalizing K1 with
  | nil => exact ⟨K1, rfl⟩
  | cons i l ih =>
    rw [stageLoop]
    simp only [run_bind, run_get, andThen_ok, run_ofExcept, run_modify, pureRhs]
    exact ih _

/-- With a right-hand side that does not raise, explicit fixed-step methods never fail. -/
theorem unfailing_explicitMultistep {p : Nat} (c : MultistepCoef α p) (f : α → Vec α n → Vec α n) (b : Bound α)
    (s : St α n (histExtra p) Unit) : Unfailing ⟨explicitMultistep c, pureRhs f, b⟩ s := by
  intro l s' _
  exact ⟨_, explicitMultistepBody_run c (pureRhs f) s'⟩

theorem unfailing_erk {q : Nat} (T : Tableau α q) (f : α → Vec α n → Vec α n) (b : Bound α)
    (s : St α n 0 (ErkAux α n q)) : Unfailing ⟨erk T, pureRhs f, b⟩ s := by
  intro l s' _
  obtain ⟨K, hK⟩ := stages_pure (le_refl _) T f s'.t s'.h s'.y s'.f s'.aux
  exact ⟨_, erkBody_run T (pureRhs f) s' hK⟩

end unfailing

/-! ### Cases -/

-- Forward Euler on `y' = y` with `h = 1/2`: `step(upto_t = 7/4)` makes three steps.
example : ∃ out s', ((Demo.euler (.fin 5)).step none (some (.fin (7/4)))).run Demo.s0 =
      some (.ok (.arrays out), s') ∧ out.map Prod.fst = [1/2, 1, 3/2] := by
  obtain ⟨out, s', h1, h2, -⟩ := C12_step_upto (Demo.euler (.fin 5)) (.explicitMultistep _) Demo.s0
    (unfailing_explicitMultistep _ _ _ _) (by norm_num [Demo.s0, Demo.st]) (7/4)
    (by norm_num [Demo.s0, Demo.st, St.t, Buffer.t])
    (by intro b hb; cases hb; norm_num)
  refine ⟨out, s', h1, ?_⟩
  rw [h2]
  have : ⌊((7/4 : ℚ) - Demo.s0.t) / Demo.s0.h⌋₊ = 3 := by
    rw [Nat.floor_eq_iff] <;> norm_num [Demo.s0, Demo.st, St.t, Buffer.t]
  rw [this]
  norm_num [grid, Demo.s0, Demo.st, St.t, Buffer.t, List.range_succ]

-- Runge-Kutta 4 in two dimensions, any number of steps without a bound.
def Demo.rk4 : Solver ℚ 2 0 (ErkAux ℚ 2 3) := ⟨erk RungeKutta4, pureRhs fun t y => ![y 1, -y 0 + t], .inf⟩

example (s : St ℚ 2 0 (ErkAux ℚ 2 3)) (hh : 0 < s.h) (m : Nat) :
    ∃ out s', (Demo.rk4.step (some (m : Int)) none).run s = some (.ok (.arrays out), s') ∧
      out.map Prod.fst = grid s.t s.h m := by
  obtain ⟨out, s', h1, h2, -⟩ := C12_step_n Demo.rk4 (.erk _) s (unfailing_erk _ _ _ _) hh m
    (by intro b hb; exact absurd hb (by simp [Demo.rk4]))
  exact ⟨out, s', h1, h2⟩

end Nbkode
