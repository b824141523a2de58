import Verif.Proofs.DefaultStart
import Verif.Props.Failures
import Verif.Props.Implicit

/-!
# Multistep solvers with the default starter: C82
-/

set_option autoImplicit false
set_option linter.unusedSectionVars false

namespace Nbkode
open Py Spec Solver

variable {n p s d : ℕ}

/-! ### From the time 0 -/

/-- **C82**, explicit methods in general: constructed at the time 0 with a variable-step Runge-Kutta starter, a method of order 1 or 2
keeps its order. -/
theorem C82_explicit (hp : p ≠ 0) {cls : Rhs ℝ n → Solver ℝ n (histExtra p) Unit} {q : ℕ} (hq1 : 1 ≤ q) (hq : q ≤ 2)
    (h : MultistepConverges cls q) (c : FsalCoef ℝ s (d + 1)) (hT : Explicit c.toTableau) (hE : EndConditions c.toTableau c.P)
    (lib : Lib ℝ) (o : VarOptions ℝ) (hl : PowLaw lib) (ho : SaneOptions o) (hex : 0 ≤ c.errorExponent)
    (sel : Rhs ℝ n → ℝ → Vec ℝ n → Vec ℝ n → Except Err ℝ) (hsel : SelectsPositive sel) (gs : Buffer ℝ n 0)
    (K : Fin (s + 2) → Vec ℝ n) (I : RkItp ℝ n (d + 1)) (g : Buffer ℝ n (histExtra p)) (bo : BisectOpts ℝ)
    (argsort : List ℝ → List Nat) (hA : ∀ l, IsArgsort l (argsort l)) :
    StartConvergesFrom 0 (fun rhs t y h => multistepInit g bo argsort (fsalStarter lib o c sel gs K I) rhs t y (some h)) cls q := by
  intro f y a b T hf ha ht hb hy
  obtain ⟨D, δ₁, hD, hδ₁, hstart⟩ := fsal_start_follows c hT hE lib o hl ho hex sel hsel gs K I hp
    (hf.of_le (by exact_mod_cast hq1)) ha ht hb hy
  obtain ⟨C, δ, hδ, hconv⟩ := h f y a b 0 T hf ha hb hy
  refine ⟨|C| * (D + 1), min (min δ δ₁) (min 1 (δ / (D + 1))), by positivity, fun h st s' l lim h0 h1 hs hl u hu hut d => ?_⟩
  have k1 : h ≤ δ := h1.trans ((min_le_left _ _).trans (min_le_left _ _))
  have k2 : h ≤ δ₁ := h1.trans ((min_le_left _ _).trans (min_le_right _ _))
  have k3 : h ≤ 1 := h1.trans ((min_le_right _ _).trans (min_le_left _ _))
  have k4 : h ≤ δ / (D + 1) := h1.trans ((min_le_right _ _).trans (min_le_right _ _))
  obtain ⟨e1, e2, e3⟩ := hstart h g bo argsort st hA h0 k2 hs
  have hE : D * h ^ 2 ≤ δ := by
    rw [le_div_iff₀ (by positivity)] at k4
    have h2 : h ^ 2 ≤ h := by rw [sq]; exact mul_le_of_le_one_right h0.le k3
    nlinarith
  have h3 := hconv _ st s' l lim (by rw [e1]; exact h0) (by rw [e1]; exact k1) hE (by rw [e1, e2]; simp) e3 hl u hu hut d
  rw [e1] at h3
  have h4 : 0 ≤ D * h ^ 2 + h ^ q := by positivity
  exact h3.trans ((mul_le_mul_of_nonneg_right (le_abs_self C) h4).trans (pow_bound (r := 1) (abs_nonneg _) hD h0 k3 hq))

/-- **C82**, implicit methods in general. -/
theorem C82_implicit (hp : p ≠ 0) {cls : ZeroOpts ℝ → Rhs ℝ n → Solver ℝ n (histExtra p) Unit} {q : ℕ} (hq1 : 1 ≤ q) (hq : q ≤ 2)
    (h : ConvergesWithin cls q) (c : FsalCoef ℝ s (d + 1)) (hT : Explicit c.toTableau) (hE : EndConditions c.toTableau c.P)
    (lib : Lib ℝ) (o : VarOptions ℝ) (hl : PowLaw lib) (ho : SaneOptions o) (hex : 0 ≤ c.errorExponent)
    (sel : Rhs ℝ n → ℝ → Vec ℝ n → Vec ℝ n → Except Err ℝ) (hsel : SelectsPositive sel) (gs : Buffer ℝ n 0)
    (K : Fin (s + 2) → Vec ℝ n) (I : RkItp ℝ n (d + 1)) (g : Buffer ℝ n (histExtra p)) (bo : BisectOpts ℝ)
    (argsort : List ℝ → List Nat) (hA : ∀ l, IsArgsort l (argsort l)) :
    StartConvergesWithinFrom 0 (fun rhs t y h => multistepInit g bo argsort (fsalStarter lib o c sel gs K I) rhs t y (some h))
      cls q := by
  intro f y a b T L hf ha ht hb hy hL
  obtain ⟨D, δ₁, hD, hδ₁, hstart⟩ := fsal_start_follows c hT hE lib o hl ho hex sel hsel gs K I hp
    (hf.of_le (by exact_mod_cast hq1)) ha ht hb hy
  obtain ⟨C, δ, hδ, hconv⟩ := h f y a b 0 T L hf ha hb hy hL
  refine ⟨|C| * (D + 1), min (min δ δ₁) 1, by positivity, fun zo hzo h st s' l lim h0 h1 hs hl u hu hut d => ?_⟩
  have htol : 0 ≤ zo.tol := hzo.2.1
  set tol := zo.tol
  have k1 : h ≤ δ := h1.trans ((min_le_left _ _).trans (min_le_left _ _))
  have k2 : h ≤ δ₁ := h1.trans ((min_le_left _ _).trans (min_le_right _ _))
  have k3 : h ≤ 1 := h1.trans (min_le_right _ _)
  obtain ⟨e1, e2, e3⟩ := hstart h g bo argsort st hA h0 k2 hs
  have h3 := hconv zo hzo _ st s' l lim (by rw [e1]; exact h0) (by rw [e1]; exact k1) (by rw [e1, e2]; simp) e3 hl u hu hut d
  rw [e1] at h3
  have h4 : 0 ≤ D * h ^ 2 + h ^ q := by positivity
  have h5 : 0 ≤ tol / h := by positivity
  have h6 : |C| * (D * h ^ 2 + h ^ q) ≤ |C| * (D + 1) * h ^ q := pow_bound (r := 1) (abs_nonneg C) hD h0 k3 hq
  refine h3.trans ((mul_le_mul_of_nonneg_right (le_abs_self C) (by linarith)).trans ?_)
  have h7 : 0 ≤ |C| * D * (tol / h) := by positivity
  calc |C| * (D * h ^ 2 + h ^ q + tol / h) = |C| * (D * h ^ 2 + h ^ q) + |C| * (tol / h) := by ring
    _ ≤ |C| * (D + 1) * h ^ q + |C| * (tol / h) := by linarith
    _ ≤ |C| * (D + 1) * (h ^ q + tol / h) := by linarith [show |C| * (D + 1) * (h ^ q + tol / h) =
        |C| * (D + 1) * h ^ q + |C| * (tol / h) + |C| * D * (tol / h) by ring]

section named
variable (bo : BisectOpts ℝ) (argsort : List ℝ → List Nat) (hA : ∀ l, IsArgsort l (argsort l)) (lib : Lib ℝ)
  (hlib : ∀ x, lib.sqrt x = Real.sqrt x) (hl : PowLaw lib) (o : VarOptions ℝ) (ho : SaneOptions o)
  (sel : Rhs ℝ n → ℝ → Vec ℝ n → Vec ℝ n → Except Err ℝ) (hsel : SelectsPositive sel) (gs : Buffer ℝ n 0)
  (K : Fin 7 → Vec ℝ n) (I : RkItp ℝ n 4) (b : Bound ℝ)

theorem exponent45 : 0 ≤ (RungeKutta45 : FsalCoef ℝ 5 4).errorExponent := by simp [RungeKutta45, q]

include hA hl ho hsel in
/-- **C82**: `AdamsBashforth2` to `5` from the time 0 with the default starter: order 1. Missing: their own orders
(`C70_AB_refuted`). -/
theorem C82_AB_partial (g2 : Buffer ℝ n (histExtra 1)) (g3 : Buffer ℝ n (histExtra 2)) (g4 : Buffer ℝ n (histExtra 3))
    (g5 : Buffer ℝ n (histExtra 4)) :
    StartConvergesFrom 0 (fun rhs t y h => multistepInit g2 bo argsort (fsalStarter lib o RungeKutta45 sel gs K I) rhs t y (some h))
      (fun rhs => ⟨explicitMultistep AdamsBashforth2, rhs, b⟩) 1 ∧
    StartConvergesFrom 0 (fun rhs t y h => multistepInit g3 bo argsort (fsalStarter lib o RungeKutta45 sel gs K I) rhs t y (some h))
      (fun rhs => ⟨explicitMultistep AdamsBashforth3, rhs, b⟩) 1 ∧
    StartConvergesFrom 0 (fun rhs t y h => multistepInit g4 bo argsort (fsalStarter lib o RungeKutta45 sel gs K I) rhs t y (some h))
      (fun rhs => ⟨explicitMultistep AdamsBashforth4, rhs, b⟩) 1 ∧
    StartConvergesFrom 0 (fun rhs t y h => multistepInit g5 bo argsort (fsalStarter lib o RungeKutta45 sel gs K I) rhs t y (some h))
      (fun rhs => ⟨explicitMultistep AdamsBashforth5, rhs, b⟩) 1 := by
  obtain ⟨c2, c3, c4, c5⟩ := C70_AB_partial (n := n) b
  have hT := (RungeKutta45_conditions (α := ℝ)).explicit
  exact ⟨C82_explicit (by norm_num) le_rfl (by norm_num) c2 _ hT RungeKutta45_ends lib o hl ho exponent45 sel hsel gs K I _ _ _ hA,
    C82_explicit (by norm_num) le_rfl (by norm_num) c3 _ hT RungeKutta45_ends lib o hl ho exponent45 sel hsel gs K I _ _ _ hA,
    C82_explicit (by norm_num) le_rfl (by norm_num) c4 _ hT RungeKutta45_ends lib o hl ho exponent45 sel hsel gs K I _ _ _ hA,
    C82_explicit (by norm_num) le_rfl (by norm_num) c5 _ hT RungeKutta45_ends lib o hl ho exponent45 sel hsel gs K I _ _ _ hA⟩

include hA hl ho hsel hlib in
/-- **C82**: `BDF2` from the time 0 with the default starter has its order 2. -/
theorem C82_BDF2 (g : Buffer ℝ n (histExtra 1)) :
    StartConvergesWithinFrom 0
      (fun rhs t y h => multistepInit g bo argsort (fsalStarter lib o RungeKutta45 sel gs K I) rhs t y (some h))
      (fun zo rhs => ⟨implicitMultistep lib zo BDF2, rhs, b⟩) 2 :=
  C82_implicit (by norm_num) (by norm_num) le_rfl (C70_BDF lib hlib b).2.1 _ (RungeKutta45_conditions (α := ℝ)).explicit RungeKutta45_ends
    lib o hl ho exponent45 sel hsel gs K I _ _ _ hA

include hA hl ho hsel hlib in
/-- **C82**: `AdamsMoulton3` and `BDF3` to `BDF6` from the time 0 with the default starter have order 2. Missing: their own orders 3 to
6, which fail (`C82_refuted`). -/
theorem C82_order_two_partial (g2 : Buffer ℝ n (histExtra 1)) (g3 : Buffer ℝ n (histExtra 2)) (g4 : Buffer ℝ n (histExtra 3))
    (g5 : Buffer ℝ n (histExtra 4)) (g6 : Buffer ℝ n (histExtra 5)) :
    StartConvergesWithinFrom 0
      (fun rhs t y h => multistepInit g2 bo argsort (fsalStarter lib o RungeKutta45 sel gs K I) rhs t y (some h))
      (fun zo rhs => ⟨implicitMultistep lib zo AdamsMoulton3, rhs, b⟩) 2 ∧
    StartConvergesWithinFrom 0
      (fun rhs t y h => multistepInit g3 bo argsort (fsalStarter lib o RungeKutta45 sel gs K I) rhs t y (some h))
      (fun zo rhs => ⟨implicitMultistep lib zo BDF3, rhs, b⟩) 2 ∧
    StartConvergesWithinFrom 0
      (fun rhs t y h => multistepInit g4 bo argsort (fsalStarter lib o RungeKutta45 sel gs K I) rhs t y (some h))
      (fun zo rhs => ⟨implicitMultistep lib zo BDF4, rhs, b⟩) 2 ∧
    StartConvergesWithinFrom 0
      (fun rhs t y h => multistepInit g5 bo argsort (fsalStarter lib o RungeKutta45 sel gs K I) rhs t y (some h))
      (fun zo rhs => ⟨implicitMultistep lib zo BDF5, rhs, b⟩) 2 ∧
    StartConvergesWithinFrom 0
      (fun rhs t y h => multistepInit g6 bo argsort (fsalStarter lib o RungeKutta45 sel gs K I) rhs t y (some h))
      (fun zo rhs => ⟨implicitMultistep lib zo BDF6, rhs, b⟩) 2 := by
  have hT := (RungeKutta45_conditions (α := ℝ)).explicit
  have key : ∀ {p : ℕ} (hp : p ≠ 0) (m : MultistepCoef ℝ p) {q : ℕ} (hq : 2 ≤ q), ZeroStable m → ExactOnPolynomials m q →
      ∀ g : Buffer ℝ n (histExtra p), StartConvergesWithinFrom 0
        (fun rhs t y h => multistepInit g bo argsort (fsalStarter lib o RungeKutta45 sel gs K I) rhs t y (some h))
        (fun zo rhs => ⟨implicitMultistep lib zo m, rhs, b⟩) 2 := fun hp m _ hq hst hx g =>
    C82_implicit hp (by norm_num) le_rfl (C70_implicit m hst (ExactOnPolynomials.mono hx hq) lib hlib b) _ hT RungeKutta45_ends lib o hl ho exponent45 sel hsel
      gs K I g bo argsort hA
  exact ⟨key (by norm_num) _ (by norm_num) (stable_adams _ rfl) C30_AM3 g2, key (by norm_num) _ (by norm_num) stable_BDF3 C31_BDF3 g3,
    key (by norm_num) _ (by norm_num) stable_BDF4 C31_BDF4 g4, key (by norm_num) _ (by norm_num) stable_BDF5 C31_BDF5 g5,
    key (by norm_num) _ (by norm_num) stable_BDF6 C31_BDF6 g6⟩

include hA hl ho hsel hlib in
/-- **C82**: `AdamsMoulton4` and `5` from the time 0 with the default starter: order 1. Missing: their own orders
(`C70_AM_refuted`). -/
theorem C82_AM_partial (g3 : Buffer ℝ n (histExtra 2)) (g4 : Buffer ℝ n (histExtra 3)) :
    StartConvergesWithinFrom 0
      (fun rhs t y h => multistepInit g3 bo argsort (fsalStarter lib o RungeKutta45 sel gs K I) rhs t y (some h))
      (fun zo rhs => ⟨implicitMultistep lib zo AdamsMoulton4, rhs, b⟩) 1 ∧
    StartConvergesWithinFrom 0
      (fun rhs t y h => multistepInit g4 bo argsort (fsalStarter lib o RungeKutta45 sel gs K I) rhs t y (some h))
      (fun zo rhs => ⟨implicitMultistep lib zo AdamsMoulton5, rhs, b⟩) 1 := by
  have hT := (RungeKutta45_conditions (α := ℝ)).explicit
  obtain ⟨c4, c5⟩ := C70_AM_partial (n := n) lib hlib b
  exact ⟨C82_implicit (by norm_num) le_rfl (by norm_num) c4 _ hT RungeKutta45_ends lib o hl ho exponent45 sel hsel gs K I _ _ _ hA,
    C82_implicit (by norm_num) le_rfl (by norm_num) c5 _ hT RungeKutta45_ends lib o hl ho exponent45 sel hsel gs K I _ _ _ hA⟩

end named

/-! ### The construction -/

theorem pushAll_pure {k : ℕ} (f : ℝ → Vec ℝ n → Vec ℝ n) (l : List (ℝ × Vec ℝ n)) (b : Buffer ℝ n k) :
    ∃ b', pushAll (pureRhs f) l b = .ok b' := by
  induction l generalizing b with
  | nil => exact ⟨b, rfl⟩
  | cons r l ih =>
    obtain ⟨t, y⟩ := r
    obtain ⟨b', hb'⟩ := ih (b.push t y (f t y))
    exact ⟨b', hb'⟩

theorem Spec.Selects.positive {sel : Rhs ℝ n → ℝ → Vec ℝ n → Vec ℝ n → Except Err ℝ} (h : Selects sel) : SelectsPositive sel := by
  intro rhs t y f x hx
  obtain ⟨x', h1, h2⟩ := h rhs t y f
  rw [hx] at h1
  rw [Except.ok.inj h1]
  exact h2

theorem fsalInit_default {s d : ℕ} (P : Fin (s + 2) → Fin d → ℝ) {sel : Rhs ℝ n → ℝ → Vec ℝ n → Vec ℝ n → Except Err ℝ} (hsel : Selects sel)
    (gs : Buffer ℝ n 0) (K : Fin (s + 2) → Vec ℝ n) (I : RkItp ℝ n d) (f : ℝ → Vec ℝ n → Vec ℝ n) (t : ℝ) (y : Vec ℝ n) :
    ∃ s1, fsalInit P .default sel gs K I (pureRhs f) t y none none = .ok s1 := by
  obtain ⟨x, hx, -⟩ := hsel (pureRhs f) (Buffer.init gs t y (f t y)).t (Buffer.init gs t y (f t y)).y (Buffer.init gs t y (f t y)).f
  have : ∃ s0, variableInit (.default : VarOptions ℝ) sel gs (⟨K, I⟩ : FsalAux ℝ n s (RkItp ℝ n d)) (pureRhs f) t y none none = .ok s0 := by
    refine ⟨⟨Buffer.init gs t y (f t y), x, ⟨K, I⟩⟩, ?_⟩
    have hat : ¬ (VarOptions.default : VarOptions ℝ).atol < 0 := by simp [VarOptions.default]
    unfold variableInit solverInit
    simp only [pureRhs, bind, Except.bind, pure, Except.pure]
    rw [if_neg (by simp [VarOptions.default]), if_neg hat]
    simp only [St.t, St.y, St.f]
    have hx' : sel (pureRhs f) (Buffer.init gs t y (f t y)).t (Buffer.init gs t y (f t y)).y (Buffer.init gs t y (f t y)).f = .ok x := hx
    rw [hx']
  obtain ⟨s0, h0⟩ := this
  unfold fsalInit
  rw [h0]
  exact ⟨_, rfl⟩

open Demo in
/-- **C82**: on a right-hand side that is continuous in `t` and Lipschitz in `y`, the construction with the default starter with default
options succeeds from every initial time up to `h`. -/
theorem C82_constructs (hp : p ≠ 0) (f : ℝ → Vec ℝ n → Vec ℝ n) (hf : ∀ y, Continuous fun t => f t y) (L : ℝ)
    (hL : ∀ t (y z : Vec ℝ n), ‖f t y - f t z‖ ≤ L * ‖y - z‖) (bo : BisectOpts ℝ) (argsort : List ℝ → List Nat)
    (hA : ∀ l, IsArgsort l (argsort l)) (sel : Rhs ℝ n → ℝ → Vec ℝ n → Vec ℝ n → Except Err ℝ) (hsel : Selects sel)
    (gs : Buffer ℝ n 0) (K : Fin 7 → Vec ℝ n) (I : RkItp ℝ n 4) (g : Buffer ℝ n (histExtra p)) (t₀ : ℝ) (y₀ : Vec ℝ n) (h : ℝ)
    (h0 : 0 < h) (ht : t₀ ≤ h) :
    ∃ st, multistepInit g bo argsort (fsalStarter realLib .default RungeKutta45 sel gs K I) (pureRhs f) t₀ y₀ (some h) =
      some (.ok st) := by
  obtain ⟨s1, hm⟩ := fsalInit_default RungeKutta45.P hsel gs K I f t₀ y₀
  have hst : fsalStarts RungeKutta45 .default (pureRhs f) t₀ y₀ s1 := ⟨sel, gs, K, I, none, none, hm⟩
  have hS := fsal_startsAt (n := n) RungeKutta45 realLib .default .inf
  have hts := hS.times _ _ _ _ hst
  have hh : 0 < s1.h := by
    obtain ⟨s2, h2, -, h3, -⟩ := fsalInit_ok hm
    obtain ⟨s3, -, -, -, -, h4⟩ := variableInit_ok h2
    rw [h3]
    exact hsel.positive _ _ _ _ _ (h4 rfl)
  have hmem : ∀ x ∈ startTimes p h, t₀ ≤ x := by
    intro x hx
    obtain ⟨i, -, rfl⟩ := List.mem_map.mp hx
    push_cast
    have : 0 ≤ (i : ℝ) * h := by positivity
    nlinarith
  obtain ⟨out, s2, hrun, -⟩ := (C69_answers_lipschitz f hf L hL bo argsort hA (startTimes p h)
    (by simp [startTimes]; omega)).2 s1 hh
    (by rw [show s1.t = t₀ from hts _, show s1.y = y₀ from hS.y _ _ _ _ hst]; exact (Except.ok.inj (hS.f _ _ _ _ hst)).symm)
    (fun i j _ => by rw [hts, hts]) (fun x hx => ⟨by rw [hts]; exact hmem x hx, trivial⟩)
  obtain ⟨b', hb'⟩ := pushAll_pure f out (Buffer.init g t₀ y₀ (f t₀ y₀))
  have e1 : (⟨Buffer.init g t₀ y₀ (f t₀ y₀), h, ()⟩ : St ℝ n (histExtra p) Unit).t = t₀ := init_ts _ _ _ _ _
  have e2 : (⟨Buffer.init g t₀ y₀ (f t₀ y₀), h, ()⟩ : St ℝ n (histExtra p) Unit).y = y₀ := init_ys _ _ _ _ _
  have hv : (startVariable ⟨fsal realLib .default RungeKutta45, pureRhs f, .inf⟩ bo argsort p h
      (Buffer.init g t₀ y₀ (f t₀ y₀))).run s1 = some (.ok b', s2) := by
    rw [startVariable, run_bind, hrun]
    simp only [andThen_ok, run_ofExcept, hb']
  have hf0 : pureRhs f t₀ y₀ = .ok (f t₀ y₀) := rfl
  refine ⟨⟨b', h, ()⟩, ?_⟩
  unfold multistepInit solverInit fsalStarter
  simp only [hf0, bind, Except.bind, pure, Except.pure, Option.getD_some, if_neg hp, e1, e2, hm, runFrom]
  rw [hv]
  rfl

/-! ### No more than order two -/

/-- The dense output of a step of size `H` from 0 on `y' = 5 t^4` has a term in `t^2`. -/
theorem quintic_dense {H : ℝ} (hH : 0 < H) {K : Fin 7 → Vec ℝ 1}
    (hK : ∀ j, K j 0 = 5 * ((withLast (RungeKutta45 : FsalCoef ℝ 5 4).toTableau).C j * H) ^ 4) :
    ∃ α β γ : ℝ, α ≠ 0 ∧ ∀ t, denseNew (RungeKutta45 : FsalCoef ℝ 5 4).P H (t / H) (fun _ => (0 : ℝ) ^ 5) K 0 =
      α * H ^ 3 * t ^ 2 + β * H ^ 2 * t ^ 3 + γ * H * t ^ 4 := by
  refine ⟨31375885 / 58760846, -(60756308 / 29380423), 148897577 / 58760846, by norm_num, fun t => ?_⟩
  obtain ⟨θ, rfl⟩ : ∃ θ, t = θ * H := ⟨t / H, by field_simp⟩
  rw [mul_div_cancel_right₀ _ hH.ne']
  simp only [denseNew, hK, denseWeight]
  simp [RungeKutta45, withLast, Fin.sum_univ_succ, q]
  ring

open Demo in
/-- On `y' = 5 t^4` the history made by the default starter is off by a multiple of `h^2`. -/
theorem quintic_loses (hp : p ≠ 0) (m : MultistepCoef ℝ p) (hκ : ∑ i : Fin (p + 1), m.A i.rev * ((p : ℝ) - i.val) ^ 2 ≠ 0)
    (bo : BisectOpts ℝ) (argsort : List ℝ → List Nat) (hA : ∀ l, IsArgsort l (argsort l))
    (sel : Rhs ℝ 1 → ℝ → Vec ℝ 1 → Vec ℝ 1 → Except Err ℝ) (hsel : Selects sel) (gs : Buffer ℝ 1 0) (K : Fin 7 → Vec ℝ 1)
    (I : RkItp ℝ 1 4) (lib : Lib ℝ) (g : Buffer ℝ 1 (histExtra p)) (b : Bound ℝ) (hb : b = .inf) :
    ¬ StartConvergesWithinFrom 0
      (fun rhs t y h => multistepInit g bo argsort (fsalStarter realLib .default RungeKutta45 sel gs K I) rhs t y (some h))
      (fun zo rhs => ⟨implicitMultistep lib zo m, rhs, b⟩) 3 := by
  subst hb
  intro hcon
  set f : ℝ → Vec ℝ 1 → Vec ℝ 1 := fun t y i => 0 * y i + 5 * t ^ 4 with hf
  obtain ⟨C, δ, hδ, hC⟩ := hcon f (fun t _ => t ^ 5) (-1) 2 1 0
    (contDiff_pi.mpr fun i => ((contDiff_const.mul ((contDiff_apply ℝ ℝ i).comp contDiff_snd)).add
      (contDiff_const.mul (contDiff_fst.pow 4)))) (by norm_num)
    (by norm_num) (by norm_num) (fun t _ => hasDerivAt_pi.mpr fun _ => by simpa [hf] using hasDerivAt_pow 5 t) (by simp [hf])
  obtain ⟨H, K', hH, hK', hist⟩ := fsal_start_history (RungeKutta45 : FsalCoef ℝ 5 4) (RungeKutta45_conditions (α := ℝ)).explicit
    RungeKutta45_ends realLib .default realLib_powLaw default_sane exponent45 sel hsel.positive gs K I f (fun _ => (0 : ℝ) ^ 5)
  have hKv : ∀ j, K' j 0 = 5 * ((withLast (RungeKutta45 : FsalCoef ℝ 5 4).toTableau).C j * H) ^ 4 := by
    intro j
    have := congrFun (Except.ok.inj (hK' j)) 0
    rw [← this]
    simp [hf]
  obtain ⟨α, β, γ, hα0, hval⟩ := quintic_dense hH hKv
  set S : ℕ → ℝ := fun e => ∑ i : Fin (p + 1), m.A i.rev * ((p : ℝ) - i.val) ^ e with hS
  set B : ℝ := m.Bn * ((p : ℝ) + 1) ^ 4 + ∑ i : Fin (p + 1), m.B i.rev * ((p : ℝ) - i.val) ^ 4 with hB
  set D : ℝ := |S 3 * β * H ^ 2| + |S 4 * γ * H| + |5 * B - ((p : ℝ) + 1) ^ 5| + |C| with hD
  have hpos : 0 < |S 2 * α * H ^ 3| := abs_pos.mpr (mul_ne_zero (mul_ne_zero hκ hα0) (pow_ne_zero _ hH.ne'))
  have hD0 : 0 ≤ D := by positivity
  have hp0 : (0 : ℝ) < p := by exact_mod_cast Nat.pos_of_ne_zero hp
  obtain ⟨h, h0, k1, k2, k3, k4⟩ : ∃ h : ℝ, 0 < h ∧ h ≤ δ ∧ h ≤ 1 / (p + 1) ∧ h ≤ H / p ∧ h < |S 2 * α * H ^ 3| / (D + 1) := by
    have hx : 0 < min (min δ (1 / ((p : ℝ) + 1))) (min (H / p) (|S 2 * α * H ^ 3| / (D + 1))) := by positivity
    refine ⟨min (min δ (1 / ((p : ℝ) + 1))) (min (H / p) (|S 2 * α * H ^ 3| / (D + 1))) / 2, half_pos hx, ?_, ?_, ?_, ?_⟩
    · exact (half_lt_self hx).le.trans ((min_le_left _ _).trans (min_le_left _ _))
    · exact (half_lt_self hx).le.trans ((min_le_left _ _).trans (min_le_right _ _))
    · exact (half_lt_self hx).le.trans ((min_le_right _ _).trans (min_le_left _ _))
    · exact (half_lt_self hx).trans_le ((min_le_right _ _).trans (min_le_right _ _))
  rw [le_div_iff₀ hp0] at k3
  rw [le_div_iff₀ (by positivity)] at k2
  rw [lt_div_iff₀ (by positivity)] at k4
  have hh1 : h ≤ 1 := by nlinarith
  obtain ⟨st, hst⟩ := C82_constructs hp f (fun y => by simp only [hf]; fun_prop) 0 (fun t y z => by simp [hf]) bo argsort hA sel hsel gs K I
    g 0 (fun _ => (0 : ℝ) ^ 5) h h0 h0.le
  obtain ⟨e1, e2, e3⟩ := hist p g bo argsort h st hp hA h0 (by linarith) hst
  set zo : ZeroOpts ℝ := { Demo.realZeros with tol := 0, rtol := 0 } with hzo
  have hro : RootOpts zo := ⟨by norm_num [hzo, Demo.realZeros], le_rfl, rfl⟩
  obtain ⟨y', f', hf', htk, hd⟩ := linear_exact lib zo (by norm_num [hzo, Demo.realZeros]) le_rfl le_rfl m 0 (fun t => 5 * t ^ 4)
    .inf st (by norm_num)
  set v : St ℝ 1 (histExtra p) Unit := ⟨st.cache.push (st.t + st.h) y' f', st.h, ()⟩ with hv'
  have hvt : v.t = (p + 1) * h := by rw [show v.t = st.t + st.h from push_t .., e2, e1]; ring
  have key := hC zo hro h st v [v] .inf h0 k1 hst (.cons (by trivial) htk (.nil _)) v List.mem_cons_self
    (by rw [hvt]; linarith) 0
  rw [hvt, show v.y = y' from push_y ..] at key
  have hd0 := congrFun hd 0
  simp only [defect, Pi.zero_apply, hf', e2, e1] at hd0
  have hsumA : ∑ i : Fin (p + 1), m.A i.rev * ago st.cache.ys i 0 =
      S 2 * α * H ^ 3 * h ^ 2 + S 3 * β * H ^ 2 * h ^ 3 + S 4 * γ * H * h ^ 4 := by
    simp only [hS, Finset.sum_mul, ← Finset.sum_add_distrib]
    refine Finset.sum_congr rfl fun i _ => ?_
    rw [(e3 i.val (by omega)).2.1, hval]
    ring
  have hsumB : ∑ i : Fin (p + 1), m.B i.rev * ago st.cache.fs i 0 =
      5 * h ^ 4 * ∑ i : Fin (p + 1), m.B i.rev * ((p : ℝ) - i.val) ^ 4 := by
    rw [Finset.mul_sum]
    refine Finset.sum_congr rfl fun i _ => ?_
    rw [(e3 i.val (by omega)).2.2]
    simp only [hf]
    ring
  rw [hsumA, hsumB] at hd0
  simp only [hzo, zero_div, add_zero] at key
  have herr : y' 0 - ((p + 1) * h) ^ 5 = -(S 2 * α * H ^ 3 * h ^ 2) + (-(S 3 * β * H ^ 2 * h ^ 3) + -(S 4 * γ * H * h ^ 4) +
      (5 * B - ((p : ℝ) + 1) ^ 5) * h ^ 5) := by
    rw [hB]
    linear_combination hd0
  rw [herr] at key
  have q3 : h ^ 4 ≤ h ^ 3 := pow_le_pow_of_le_one h0.le hh1 (by norm_num)
  have q4 : h ^ 5 ≤ h ^ 3 := pow_le_pow_of_le_one h0.le hh1 (by norm_num)
  have r1 : |-(S 3 * β * H ^ 2 * h ^ 3)| = |S 3 * β * H ^ 2| * h ^ 3 := by rw [abs_neg, abs_mul, abs_of_pos (pow_pos h0 3)]
  have r2 : |-(S 4 * γ * H * h ^ 4)| ≤ |S 4 * γ * H| * h ^ 3 := by
    rw [abs_neg, abs_mul, abs_of_pos (pow_pos h0 4)]
    exact mul_le_mul_of_nonneg_left q3 (abs_nonneg _)
  have r3 : |(5 * B - ((p : ℝ) + 1) ^ 5) * h ^ 5| ≤ |5 * B - ((p : ℝ) + 1) ^ 5| * h ^ 3 := by
    rw [abs_mul, abs_of_pos (pow_pos h0 5)]
    exact mul_le_mul_of_nonneg_left q4 (abs_nonneg _)
  have r4 : C * h ^ 3 ≤ |C| * h ^ 3 := mul_le_mul_of_nonneg_right (le_abs_self _) (by positivity)
  have r5 : |S 2 * α * H ^ 3| * h ^ 2 ≤ D * h ^ 3 := by
    have t1 : |S 2 * α * H ^ 3| * h ^ 2 = |-(S 2 * α * H ^ 3 * h ^ 2)| := by rw [abs_neg, abs_mul _ (h ^ 2), abs_of_pos (pow_pos h0 2)]
    have t2 := abs_sub_abs_le_abs_sub (-(S 2 * α * H ^ 3 * h ^ 2)) (-(-(S 3 * β * H ^ 2 * h ^ 3) + -(S 4 * γ * H * h ^ 4) +
      (5 * B - ((p : ℝ) + 1) ^ 5) * h ^ 5))
    rw [abs_neg (_ + _), sub_neg_eq_add] at t2
    have t3 := abs_add_three (-(S 3 * β * H ^ 2 * h ^ 3)) (-(S 4 * γ * H * h ^ 4)) ((5 * B - ((p : ℝ) + 1) ^ 5) * h ^ 5)
    rw [t1, hD]
    nlinarith
  have r6 : h ^ 2 * (h * (D + 1)) < h ^ 2 * |S 2 * α * H ^ 3| := mul_lt_mul_of_pos_left k4 (by positivity)
  nlinarith [pow_pos h0 3]

open Demo in
/-- **C82 refuted** for the methods of order 3 and more: `AdamsMoulton3` and `BDF3` to `BDF6`, constructed at the time 0 with the
default starter, do not have order 3. On `y' = 5 t^4`, `y = t^5`, the recorded history is that of the starter's dense output, inside a
first step whose size does not depend on `h`; it is off by a multiple of `h^2`, and the next point too. -/
theorem C82_refuted (bo : BisectOpts ℝ) (argsort : List ℝ → List Nat) (hA : ∀ l, IsArgsort l (argsort l))
    (sel : Rhs ℝ 1 → ℝ → Vec ℝ 1 → Vec ℝ 1 → Except Err ℝ) (hsel : Selects sel) (gs : Buffer ℝ 1 0) (K : Fin 7 → Vec ℝ 1)
    (I : RkItp ℝ 1 4) (lib : Lib ℝ) (g2 : Buffer ℝ 1 (histExtra 1)) (g3 : Buffer ℝ 1 (histExtra 2)) (g4 : Buffer ℝ 1 (histExtra 3))
    (g5 : Buffer ℝ 1 (histExtra 4)) (g6 : Buffer ℝ 1 (histExtra 5)) :
    ¬ StartConvergesWithinFrom 0
      (fun rhs t y h => multistepInit g2 bo argsort (fsalStarter realLib .default RungeKutta45 sel gs K I) rhs t y (some h))
      (fun zo rhs => ⟨implicitMultistep lib zo AdamsMoulton3, rhs, .inf⟩) 3 ∧
    ¬ StartConvergesWithinFrom 0
      (fun rhs t y h => multistepInit g3 bo argsort (fsalStarter realLib .default RungeKutta45 sel gs K I) rhs t y (some h))
      (fun zo rhs => ⟨implicitMultistep lib zo BDF3, rhs, .inf⟩) 3 ∧
    ¬ StartConvergesWithinFrom 0
      (fun rhs t y h => multistepInit g4 bo argsort (fsalStarter realLib .default RungeKutta45 sel gs K I) rhs t y (some h))
      (fun zo rhs => ⟨implicitMultistep lib zo BDF4, rhs, .inf⟩) 3 ∧
    ¬ StartConvergesWithinFrom 0
      (fun rhs t y h => multistepInit g5 bo argsort (fsalStarter realLib .default RungeKutta45 sel gs K I) rhs t y (some h))
      (fun zo rhs => ⟨implicitMultistep lib zo BDF5, rhs, .inf⟩) 3 ∧
    ¬ StartConvergesWithinFrom 0
      (fun rhs t y h => multistepInit g6 bo argsort (fsalStarter realLib .default RungeKutta45 sel gs K I) rhs t y (some h))
      (fun zo rhs => ⟨implicitMultistep lib zo BDF6, rhs, .inf⟩) 3 := by
  refine ⟨quintic_loses (by norm_num) _ ?_ bo argsort hA sel hsel gs K I lib g2 _ rfl,
    quintic_loses (by norm_num) _ ?_ bo argsort hA sel hsel gs K I lib g3 _ rfl,
    quintic_loses (by norm_num) _ ?_ bo argsort hA sel hsel gs K I lib g4 _ rfl,
    quintic_loses (by norm_num) _ ?_ bo argsort hA sel hsel gs K I lib g5 _ rfl,
    quintic_loses (by norm_num) _ ?_ bo argsort hA sel hsel gs K I lib g6 _ rfl⟩ <;>
  simp [Fin.sum_univ_succ, Fin.rev, q, AdamsMoulton3, adamsA, BDF3, BDF4, BDF5, BDF6] <;> norm_num

/-! ### Other initial times -/

/-- On `y' = 1` a step and its dense output are exact. -/
theorem unit_step {T : Tableau ℝ s} (hB : ∑ j, T.B j = 1) {cls : Rhs ℝ 1 → Solver ℝ 1 0 (FsalAux ℝ 1 s (RkItp ℝ 1 d))} (hS : RKSteps T cls)
    {u v : St ℝ 1 0 (FsalAux ℝ 1 s (RkItp ℝ 1 d))} (hu : u.f = fun _ => 1) (huy : u.y 0 = u.t)
    (h : Takes (cls (pureRhs fun _ y i => 0 * y i + 1)) u v) : v.f = (fun _ => 1) ∧ v.y 0 = v.t := by
  obtain ⟨x, K, hK, ht, hy, hf⟩ := hS _ u v (by rw [hu]; funext i; ring) h
  refine ⟨by rw [hf]; funext i; ring, ?_⟩
  have hKv : ∀ j, K j 0 = 1 := fun j => by rw [← Except.ok.inj (hK j)]; ring
  rw [hy, ht, rkNew]
  simp only [hKv, mul_one, hB, huy]

open Demo in
/-- On `y' = 1` the history made by the default starter holds `y` at the times recorded. -/
theorem unit_history (hp : p ≠ 0) (g : Buffer ℝ 1 (histExtra p)) (bo : BisectOpts ℝ) (argsort : List ℝ → List Nat)
    (hA : ∀ l, IsArgsort l (argsort l)) (sel : Rhs ℝ 1 → ℝ → Vec ℝ 1 → Vec ℝ 1 → Except Err ℝ) (hsel : SelectsPositive sel)
    (gs : Buffer ℝ 1 0) (K₀ : Fin 7 → Vec ℝ 1) (I : RkItp ℝ 1 4) (t₀ h : ℝ) (h0 : 0 < h) (ht : t₀ < h)
    (st : St ℝ 1 (histExtra p) Unit)
    (hs : multistepInit g bo argsort (fsalStarter realLib .default RungeKutta45 sel gs K₀ I) (pureRhs fun _ y i => 0 * y i + 1) t₀
      (fun _ => t₀) (some h) = some (.ok st)) :
    st.h = h ∧ st.t = p * h ∧ ago st.cache.ys p 0 = t₀ ∧ (∀ i < p, ago st.cache.ys i 0 = ((p : ℝ) - i) * h) ∧
      ∀ i ≤ p, ago st.cache.fs i 0 = 1 := by
  have hk : histExtra p + 1 = p := by unfold histExtra; omega
  have hT := (RungeKutta45_conditions (α := ℝ)).explicit
  have hM : WellConfigured (⟨fsal realLib .default RungeKutta45, pureRhs fun _ y i => 0 * y i + 1, .inf⟩ : Solver ℝ 1 0 _).method :=
    Or.inr ⟨realLib, _, _, .fsal _, realLib_powLaw, default_sane, exponent45⟩
  obtain ⟨ht0, hts⟩ := C34_variable_starter_times hp g bo argsort hA (fsal realLib .default RungeKutta45)
    (Or.inr ⟨realLib, _, _, .fsal _⟩) _ _ t₀ _ h st hs
  obtain ⟨f0, s1, s2, out, l, hf0, hm, hrun, hlo, hlf, rfl⟩ := multistepInit_variable hp hs
  have hst : fsalStarts RungeKutta45 .default (pureRhs fun _ y i => 0 * y i + 1) t₀ (fun _ => t₀) s1 :=
    ⟨sel, gs, K₀, I, none, none, hm⟩
  have hS := fsal_startsAt (n := 1) RungeKutta45 realLib .default .inf
  have m1 : s1.t = t₀ := hS.times _ _ _ _ hst _
  have m2 : s1.y = fun _ => t₀ := hS.y _ _ _ _ hst
  have m3 : s1.f = fun _ => 1 := by
    rw [← Except.ok.inj (hS.f _ _ _ _ hst)]; funext i; ring
  have hh : 0 < s1.h := by
    obtain ⟨s2, h2, -, h3, -⟩ := fsalInit_ok hm
    obtain ⟨s3, -, -, -, -, h4⟩ := variableInit_ok h2
    rw [h3]
    exact hsel _ _ _ _ _ (h4 rfl)
  have hB : ∑ j, (RungeKutta45 : FsalCoef ℝ 5 4).B j = 1 := by simp [RungeKutta45, Fin.sum_univ_succ, q]; norm_num
  have hsteps : RKSteps (RungeKutta45 : FsalCoef ℝ 5 4).toTableau
      (fun rhs : Rhs ℝ 1 => ⟨fsal realLib .default RungeKutta45, rhs, .inf⟩) :=
    fsalBody_steps hT realLib .default realLib_powLaw default_sane _ exponent45 _ .inf _
  have hpath : ∀ {u v l}, Path (⟨fsal realLib .default RungeKutta45, pureRhs fun _ y i => 0 * y i + 1, .inf⟩ : Solver ℝ 1 0 _) .inf u l v →
      u.f = (fun _ => 1) → u.y 0 = u.t → v.f = (fun _ => 1) ∧ v.y 0 = v.t := by
    intro u v l hp
    induction hp with
    | nil => exact fun h1 h2 => ⟨h1, h2⟩
    | cons _ htk _ ih =>
      intro h1 h2
      obtain ⟨h3, h4⟩ := unit_step hB hsteps h1 h2 htk
      exact ih h3 h4
  have hout : ∀ r ∈ out, t₀ < r.1 → r.2 0 = r.1 := by
    intro r hr hlt
    obtain ⟨s3, w, s4, hreach, hin, hval⟩ := C20_interpolant (⟨fsal realLib .default RungeKutta45, _, .inf⟩ : Solver ℝ 1 0 _) hM bo argsort
      hA s1 s1 (hS.constructed _ _ _ _ hst) (fun i j _ => by rw [hS.times _ _ _ _ hst, hS.times _ _ _ _ hst]) hh (.start s1) _ _ _ hrun r hr
    rcases reach_last hreach with rfl | ⟨l', u, hpu, hut, hfit, htk⟩
    · have := not_lt.mp (reach_not_lt hreach)
      rw [m1] at this
      exact absurd hlt (not_lt.mpr this)
    · obtain ⟨u1, u2⟩ := hpath hpu m3 (by rw [m2, m1])
      obtain ⟨uh, -⟩ := path_pos hM hpu hh
      obtain ⟨K, hK, hdense⟩ := fsal_dense RungeKutta45 hT RungeKutta45_ends realLib .default realLib_powLaw default_sane exponent45 .inf _ t₀ _
        s1 u s3 l' hst hh hpu hfit htk (by rw [u1]; funext i; ring) (C11_step_increases _ hM _ _ uh htk).1
      have hlt' := (C11_step_increases _ hM _ _ uh htk).1
      have hd := congrFun (hdense r.1 w s4 hut (not_lt.mp (reach_not_lt hreach)) hin) 0
      rw [hval] at hd
      have hKv : ∀ j, K j 0 = 1 := fun j => by rw [← Except.ok.inj (hK j)]; ring
      rw [hd, denseNew]
      simp only [hKv, mul_one, u2]
      have hw : ∀ θ : ℝ, ∑ j, denseWeight (RungeKutta45 : FsalCoef ℝ 5 4).P θ j = θ := by
        intro θ
        simp only [denseWeight]
        simp [RungeKutta45, Fin.sum_univ_succ, q]
        ring
      rw [hw, mul_div_cancel₀ _ (sub_pos.mpr hlt').ne']
      ring
  have htimes := C19_unbounded_partial ⟨fsal realLib .default RungeKutta45, _, .inf⟩ (Or.inr ⟨realLib, _, _, .fsal _⟩) rfl bo argsort hA _ _ _ _
    hrun
  have hlen : l.length = p := by
    have := congrArg List.length htimes
    rw [← hlo] at this
    simpa [startTimes] using this
  have hslot := slots_of_pushes hp g t₀ (fun _ => t₀) f0 l hlen
  simp only at hslot
  set st : St ℝ 1 (histExtra p) Unit :=
    ⟨l.foldl (fun b p => b.push p.1 p.2.1 p.2.2) (Buffer.init g t₀ (fun _ => t₀) f0), h, ()⟩ with hst'
  have htt : ∀ i < p, ago st.cache.ts i = ((p : ℝ) - i) * h := by
    intro i hi
    show st.cache.ts ⟨histExtra p + 1 - i, by omega⟩ = _
    rw [hts ⟨histExtra p + 1 - i, by omega⟩ (by show 0 < histExtra p + 1 - i; omega)]
    show ((histExtra p + 1 - i : ℕ) : ℝ) * h = _
    rw [hk, Nat.cast_sub hi.le]
  have hold := hslot (Buffer.iOld _)
  simp only [Buffer.iOld, List.getElem?_cons_zero, Option.some.injEq, Prod.mk.injEq] at hold
  have hidx : ∀ (A : Type) (b : Fin (histExtra p + 2) → A), ago b p = b ⟨0, by omega⟩ := by
    intro A b
    unfold ago
    congr 1
    ext
    simp only
    omega
  have hlast : ∀ i < p, ∃ r ∈ l, r = (ago st.cache.ts i, ago st.cache.ys i, ago st.cache.fs i) := by
    intro i hi
    have h3 := hslot ⟨histExtra p + 1 - i, by omega⟩
    obtain ⟨j, hj⟩ : ∃ j, histExtra p + 1 - i = j + 1 := ⟨p - i - 1, by omega⟩
    simp only [hj, List.getElem?_cons_succ] at h3
    have e4 : ago st.cache.ys i = st.cache.ys ⟨j + 1, by omega⟩ := by unfold ago; simp only [hj]
    have e5 : ago st.cache.fs i = st.cache.fs ⟨j + 1, by omega⟩ := by unfold ago; simp only [hj]
    have e6 : ago st.cache.ts i = st.cache.ts ⟨j + 1, by omega⟩ := by unfold ago; simp only [hj]
    rw [e4, e5, e6]
    exact ⟨_, List.mem_of_getElem? h3, rfl⟩
  have hone : ∀ i < p, ago st.cache.ys i 0 = ((p : ℝ) - i) * h ∧ ago st.cache.fs i 0 = 1 := by
    intro i hi
    obtain ⟨r, hr, rfl⟩ := hlast i hi
    have h1 := hout (ago st.cache.ts i, ago st.cache.ys i) (by rw [← hlo]; exact List.mem_map.mpr ⟨_, hr, rfl⟩)
    simp only [htt i hi] at h1
    refine ⟨h1 ?_, ?_⟩
    · have : (1 : ℝ) ≤ (p : ℝ) - i := by
        have : i + 1 ≤ p := hi
        have : ((i + 1 : ℕ) : ℝ) ≤ p := by exact_mod_cast this
        push_cast at this
        linarith
      nlinarith
    · exact (congrFun (Except.ok.inj (hlf _ hr)) 0).symm.trans (by ring)
  refine ⟨rfl, ?_, ?_, fun i hi => (hone i hi).1, fun i hi => ?_⟩
  · have := htt 0 (Nat.pos_of_ne_zero hp)
    rw [Nat.cast_zero, sub_zero] at this
    exact this
  · rw [hidx]; exact (congrFun hold.2.1 0).symm
  · rcases hi.lt_or_eq with hi | rfl
    · exact (hone i hi).2
    · rw [hidx]
      refine (congrFun hold.2.2 0).symm.trans ?_
      rw [← Except.ok.inj hf0]; ring

open Demo in
/-- **C82 refuted** before the time 0: `BDF2` to `BDF6`, constructed at any `t₀ < 0` with the default starter, do not converge at all.
The starter is run at `h, 2h, ...`, not at `t₀ + h, t₀ + 2h, ...`. On `y' = 1`, `y = t`, the first new point is off by a multiple of
`t₀`, however small `h` is. -/
theorem C82_before_refuted (hp : p ≠ 0) (m : MultistepCoef ℝ p) (hm : m.A 0 ≠ 0) (t₀ : ℝ) (ht : t₀ < 0) (q : ℕ) (hq : 1 ≤ q)
    (bo : BisectOpts ℝ) (argsort : List ℝ → List Nat) (hA : ∀ l, IsArgsort l (argsort l))
    (sel : Rhs ℝ 1 → ℝ → Vec ℝ 1 → Vec ℝ 1 → Except Err ℝ) (hsel : Selects sel) (gs : Buffer ℝ 1 0) (K : Fin 7 → Vec ℝ 1)
    (I : RkItp ℝ 1 4) (lib : Lib ℝ) (g : Buffer ℝ 1 (histExtra p)) :
    ¬ StartConvergesWithinFrom t₀
      (fun rhs t y h => multistepInit g bo argsort (fsalStarter realLib .default RungeKutta45 sel gs K I) rhs t y (some h))
      (fun zo rhs => ⟨implicitMultistep lib zo m, rhs, .inf⟩) q := by
  intro hcon
  obtain ⟨C, δ, hδ, hC⟩ := hcon (fun _ y i => 0 * y i + 1) (fun t _ => t) (t₀ - 1) 2 1 0
    (contDiff_pi.mpr fun i => ((contDiff_const.mul ((contDiff_apply ℝ ℝ i).comp contDiff_snd)).add contDiff_const)) (by linarith)
    (by linarith) (by norm_num) (fun t _ => hasDerivAt_pi.mpr fun _ => by simpa using hasDerivAt_id' t) (by simp)
  set S : ℝ := ∑ i : Fin p, m.A i.castSucc.rev * ((p : ℝ) - i.val) with hS
  set B : ℝ := m.Bn + ∑ i : Fin (p + 1), m.B i.rev with hB
  set D : ℝ := |B - S - (p + 1)| + |C| with hD
  have hD0 : 0 ≤ D := by positivity
  have hpos : 0 < |m.A 0 * t₀| := abs_pos.mpr (mul_ne_zero hm ht.ne)
  obtain ⟨h, h0, k1, k2, k3, k4⟩ : ∃ h : ℝ, 0 < h ∧ h ≤ δ ∧ h ≤ 1 / (p + 1) ∧ h ≤ 1 ∧ h < |m.A 0 * t₀| / (D + 1) := by
    have hx : 0 < min (min δ (1 / ((p : ℝ) + 1))) (min 1 (|m.A 0 * t₀| / (D + 1))) := by positivity
    refine ⟨min (min δ (1 / ((p : ℝ) + 1))) (min 1 (|m.A 0 * t₀| / (D + 1))) / 2, half_pos hx, ?_, ?_, ?_, ?_⟩
    · exact (half_lt_self hx).le.trans ((min_le_left _ _).trans (min_le_left _ _))
    · exact (half_lt_self hx).le.trans ((min_le_left _ _).trans (min_le_right _ _))
    · exact (half_lt_self hx).le.trans ((min_le_right _ _).trans (min_le_left _ _))
    · exact (half_lt_self hx).trans_le ((min_le_right _ _).trans (min_le_right _ _))
  rw [le_div_iff₀ (by positivity)] at k2
  rw [lt_div_iff₀ (by positivity)] at k4
  obtain ⟨st, hst⟩ := C82_constructs hp (fun _ y i => 0 * y i + 1) (fun y => by fun_prop) 0 (fun t y z => by simp) bo argsort hA sel hsel gs
    K I g t₀ (fun _ => t₀) h h0 (by linarith)
  obtain ⟨e1, e2, e3, e4, e5⟩ := unit_history hp g bo argsort hA sel hsel.positive gs K I t₀ h h0 (by linarith) st hst
  set zo : ZeroOpts ℝ := { Demo.realZeros with tol := 0, rtol := 0 } with hzo
  have hro : RootOpts zo := ⟨by norm_num [hzo, Demo.realZeros], le_rfl, rfl⟩
  obtain ⟨y', f', hf', htk, hd⟩ := linear_exact lib zo (by norm_num [hzo, Demo.realZeros]) le_rfl le_rfl m 0 (fun _ => 1)
    .inf st (by norm_num)
  set v : St ℝ 1 (histExtra p) Unit := ⟨st.cache.push (st.t + st.h) y' f', st.h, ()⟩ with hv'
  have hvt : v.t = (p + 1) * h := by rw [show v.t = st.t + st.h from push_t .., e2, e1]; ring
  have key := hC zo hro h st v [v] .inf h0 k1 hst (.cons (by trivial) htk (.nil _)) v List.mem_cons_self
    (by rw [hvt]; linarith) 0
  rw [hvt, show v.y = y' from push_y ..] at key
  have hd0 := congrFun hd 0
  simp only [defect, Pi.zero_apply, hf', e1] at hd0
  have hsumA : ∑ i : Fin (p + 1), m.A i.rev * ago st.cache.ys i 0 = S * h + m.A 0 * t₀ := by
    rw [Fin.sum_univ_castSucc, hS, Finset.sum_mul]
    congr 1
    · refine Finset.sum_congr rfl fun i _ => ?_
      rw [Fin.val_castSucc, e4 i.val i.isLt]; ring
    · rw [Fin.val_last, e3, Fin.rev_last]
  have hsumB : ∑ i : Fin (p + 1), m.B i.rev * ago st.cache.fs i 0 = ∑ i : Fin (p + 1), m.B i.rev :=
    Finset.sum_congr rfl fun i _ => by rw [e5 i.val (by omega), mul_one]
  rw [hsumA, hsumB] at hd0
  simp only [hzo, zero_div, add_zero] at key
  have herr : y' 0 - (p + 1) * h = -(m.A 0 * t₀) + (B - S - (p + 1)) * h := by rw [hB]; linear_combination hd0
  rw [herr] at key
  have r1 : C * h ^ q ≤ |C| * h := by
    have : h ^ q ≤ h := by
      calc h ^ q ≤ h ^ 1 := pow_le_pow_of_le_one h0.le k3 hq
        _ = h := pow_one _
    exact (mul_le_mul_of_nonneg_right (le_abs_self _) (by positivity)).trans (mul_le_mul_of_nonneg_left this (abs_nonneg _))
  have t2 := abs_sub_abs_le_abs_sub (-(m.A 0 * t₀)) (-((B - S - (p + 1)) * h))
  rw [abs_neg, abs_neg, sub_neg_eq_add, abs_mul (B - S - (p + 1)), abs_of_pos h0] at t2
  have : |m.A 0 * t₀| ≤ D * h := by rw [hD]; nlinarith
  nlinarith

/-- The hypothesis on the method holds for `BDF2` to `BDF6`. -/
example : (BDF2 : MultistepCoef ℝ 1).A 0 ≠ 0 ∧ (BDF3 : MultistepCoef ℝ 2).A 0 ≠ 0 ∧ (BDF4 : MultistepCoef ℝ 3).A 0 ≠ 0 ∧
    (BDF5 : MultistepCoef ℝ 4).A 0 ≠ 0 ∧ (BDF6 : MultistepCoef ℝ 5).A 0 ≠ 0 := by
  norm_num [BDF2, BDF3, BDF4, BDF5, BDF6, q]

open Demo in
/-- **C82**, after the time 0: with `h` less than `t₀` the construction with the default starter raises `ValueError`. -/
theorem C82_late (hp : p ≠ 0) (f : ℝ → Vec ℝ n → Vec ℝ n) (bo : BisectOpts ℝ) (argsort : List ℝ → List Nat)
    (hA : ∀ l, IsArgsort l (argsort l)) (sel : Rhs ℝ n → ℝ → Vec ℝ n → Vec ℝ n → Except Err ℝ) (hsel : Selects sel) (gs : Buffer ℝ n 0)
    (K : Fin 7 → Vec ℝ n) (I : RkItp ℝ n 4) (g : Buffer ℝ n (histExtra p)) (t₀ : ℝ) (y₀ : Vec ℝ n) (h : ℝ) (ht : h < t₀) :
    multistepInit g bo argsort (fsalStarter realLib .default RungeKutta45 sel gs K I) (pureRhs f) t₀ y₀ (some h) =
      some (.error .valueError) := by
  obtain ⟨s1, hm⟩ := fsalInit_default RungeKutta45.P hsel gs K I f t₀ y₀
  exact C34_variable_starter_late hp g bo argsort hA _ _ (pureRhs f) t₀ y₀ h ht (f t₀ y₀) rfl s1 hm (fsalInit_times hm _)

/-! ### Cases -/

open Demo in
/-- C82: `BDF2` with the default starter on `y' = -y` from `y(0) = 1`: the construction succeeds for every small `h`, with the history
`(0, h)`, and so does the first step, within `C (h^2 + tol / h)` of `exp(-2h)`. -/
example (bo : BisectOpts ℝ) (argsort : List ℝ → List Nat) (hA : ∀ l, IsArgsort l (argsort l)) (gs : Buffer ℝ 1 0) (K : Fin 7 → Vec ℝ 1)
    (I : RkItp ℝ 1 4) (g : Buffer ℝ 1 (histExtra 1)) : ∃ C δ, 0 < δ ∧ ∀ zo, RootOpts zo → ∀ h : ℝ, 0 < h → h ≤ δ → ∃ st v,
      multistepInit g bo argsort (fsalStarter realLib .default RungeKutta45 (fun _ _ _ _ => .ok (1 / 10)) gs K I)
        (pureRhs fun _ y i => -1 * y i + 0) 0 (fun _ => Real.exp (-0)) (some h) = some (.ok st) ∧ st.t = h ∧
      Path ⟨implicitMultistep realLib zo BDF2, pureRhs fun _ y i => -1 * y i + 0, .inf⟩ .inf st [v] v ∧
      |v.y 0 - Real.exp (-(2 * h))| ≤ C * (h ^ 2 + zo.tol / h) := by
  have hsel : Selects (n := 1) (fun _ _ _ _ => .ok (1 / 10)) := fun _ _ _ _ => ⟨1 / 10, rfl, by norm_num⟩
  have hlip : ∀ (u v : Vec ℝ 1) (d : Fin 1), |(-1 * u d + 0) - (-1 * v d + 0)| ≤ 1 * ‖(u - v : Fin 1 → ℝ)‖ := by
    intro u v d
    have h1 := norm_le_pi_norm (u - v : Fin 1 → ℝ) d
    have e : -1 * u d + 0 - (-1 * v d + 0) = -(u d - v d) := by ring
    rw [e, abs_neg, one_mul]
    exact h1
  obtain ⟨C, δ, hδ, hC⟩ := C82_BDF2 (n := 1) bo argsort hA realLib (fun _ => rfl) realLib_powLaw .default default_sane
    (fun _ _ _ _ => .ok (1 / 10)) hsel.positive gs K I .inf g
    (fun _ v i => -1 * v i + 0) (fun t _ => Real.exp (-t)) (-2) 2 1 1
    (contDiff_pi.mpr fun i => (contDiff_const.mul ((contDiff_apply ℝ ℝ i).comp contDiff_snd)).add contDiff_const)
    (by norm_num) (by norm_num) (by norm_num) (fun t _ => exp_solves t) (fun _ u v => hlip u v)
  refine ⟨C, min δ (1 / 2), by positivity, fun zo hzo h h0 h1 => ?_⟩
  obtain ⟨st, hst⟩ := C82_constructs (p := 1) (by norm_num) (fun _ v i => -1 * v i + 0) (fun y => by fun_prop) 1
    (fun t y z => (pi_norm_le_iff_of_nonneg (by positivity)).mpr fun d => by rw [Real.norm_eq_abs]; exact hlip y z d) bo argsort hA
    (fun _ _ _ _ => .ok (1 / 10)) hsel gs K I g 0 (fun _ => Real.exp (-0)) h h0 h0.le
  have e1 := C34_variable_starter_partial (p := 1) (by norm_num) g bo argsort hA _ (Or.inr ⟨realLib, .default, _, .fsal RungeKutta45⟩) _
    _ _ h st hst (Buffer.iLast _)
  have e2 : st.t = h := by rw [show st.t = _ from e1]; simp [Buffer.iLast, histExtra]
  have e3 : st.h = h := by obtain ⟨_, _, _, _, _, _, _, _, _, _, rfl⟩ := multistepInit_variable (by norm_num) hst; rfl
  obtain ⟨y', f', hf', htk, -⟩ := linear_exact realLib zo hzo.1 hzo.2.1 hzo.2.2.ge BDF2 (-1) (fun _ => 0) .inf st
    (by rw [e3]; simp only [BDF2, q]; norm_num; positivity)
  refine ⟨st, _, hst, e2, .cons (by trivial) htk (.nil _), ?_⟩
  have hvt : (⟨st.cache.push (st.t + st.h) y' f', st.h, ()⟩ : St ℝ 1 (histExtra 1) Unit).t = 2 * h := by
    rw [show (⟨st.cache.push (st.t + st.h) y' f', st.h, ()⟩ : St ℝ 1 (histExtra 1) Unit).t = st.t + st.h from push_t .., e2, e3]; ring
  have := hC zo hzo h st _ _ .inf h0 (h1.trans (min_le_left _ _)) hst (.cons (by trivial) htk (.nil _)) _ List.mem_cons_self
    (by rw [hvt]; linarith [min_le_right δ (1 / 2)]) 0
  rw [hvt] at this
  exact this

open Demo in
/-- C82: the hypotheses of the refutations can be met, and the construction at `t₀ = 1` with `h = 1/10` raises. -/
example (gs : Buffer ℝ 1 0) (K : Fin 7 → Vec ℝ 1) (I : RkItp ℝ 1 4) (g : Buffer ℝ 1 (histExtra 1)) (bo : BisectOpts ℝ) :
    ∃ (argsort : List ℝ → List Nat) (sel : Rhs ℝ 1 → ℝ → Vec ℝ 1 → Vec ℝ 1 → Except Err ℝ),
      (∀ l, IsArgsort l (argsort l)) ∧ Selects sel ∧
      multistepInit g bo argsort (fsalStarter realLib .default RungeKutta45 sel gs K I) (pureRhs fun _ y => y) 1 (fun _ => 1)
        (some (1 / 10)) = some (.error .valueError) := by
  obtain ⟨argsort, hA⟩ := exists_argsort (α := ℝ)
  have hsel : Selects (n := 1) (fun _ _ _ _ => .ok (1 / 10)) := fun _ _ _ _ => ⟨1 / 10, rfl, by norm_num⟩
  exact ⟨argsort, _, hA, hsel, C82_late (by norm_num) _ bo argsort hA _ hsel gs K I g _ _ _ (by norm_num)⟩

end Nbkode
