import Verif.Props.Equilibria
import Verif.Props.History

/-!
# Step-size options: C38, C39, and what insane options do to C07
-/

set_option autoImplicit false
set_option linter.unusedSectionVars false

namespace Nbkode
open Py Spec Solver

section general
variable {α : Type} [Field α] [LinearOrder α] [IsStrictOrderedRing α] [BEq α] [LawfulBEq α]
variable {n k p s d : Nat} {X : Type}

/-! ## C39 -/

/-- **C39**, fixed-step Runge-Kutta classes: `h` is the step size after construction. -/
theorem C39_erk {T : Nat} (g : Buffer α n 0) (K : ErkAux α n T) (rhs : Rhs α n) (t0 : α) (y0 : Vec α n)
    (h : α) (st : St α n 0 (ErkAux α n T)) (hs : erkInit g K rhs t0 y0 (some h) = .ok st) : st.h = h := by
  obtain ⟨f0, -, -, h1, -⟩ := solverInit_ok hs
  exact h1

/-- **C39**, multistep classes, with any starter. -/
theorem C39_multistep (g : Buffer α n (histExtra p)) (bo : BisectOpts α)
    (argsort : List α → List Nat) (starter : Starter α n) (rhs : Rhs α n) (t0 : α) (y0 : Vec α n)
    (h : α) (st : St α n (histExtra p) Unit)
    (hs : multistepInit g bo argsort starter rhs t0 y0 (some h) = some (.ok st)) : st.h = h := by
  unfold multistepInit at hs
  cases h0 : solverInit g () rhs t0 y0 (some h) with
  | error e => rw [h0] at hs; simp at hs
  | ok s0 =>
    obtain ⟨f0, -, -, h1, -⟩ := solverInit_ok h0
    rw [h0] at hs
    have fin : ∀ r : Option (Except Err (Buffer α n (histExtra p))),
        (r.map fun e => e.map fun b => ({ s0 with cache := b } : St α n (histExtra p) Unit)) =
          some (.ok st) → st.h = h := by
      intro r hr
      rcases r with _ | _ | b
      · simp at hr
      · simp [Except.map] at hr
      · simp [Except.map] at hr; rw [← hr]; exact h1
    simp only at hs
    split at hs
    · simp at hs; rw [← hs]; exact h1
    · split at hs
      · simp at hs; rw [← hs]; exact h1
      · split at hs
        · simp at hs
        · exact fin _ hs
      · split at hs
        · simp at hs
        · exact fin _ hs

/-- **C39**, fixed-step classes: every step of every such solver moves the time by exactly that `h`, and `h` stays. -/
theorem C39_fixed_step (S : Solver α n k X) (hM : IsFixed S.method) (st st' : St α n k X)
    (h : Takes S st st') : st'.t = st.t + st.h ∧ st'.h = st.h :=
  ⟨hM.shaped.body_fixed _ _ _ h, hM.shaped.body_h _ _ _ _ h⟩

/-- **C39**, RungeKutta23/45: `first_step` is the first size tried. -/
theorem C39_first_step (lib : Lib α) (o : VarOptions α) (c : FsalCoef α s d)
    (hT : Explicit c.toTableau) (sel : Rhs α n → α → Vec α n → Vec α n → Except Err α)
    (g : Buffer α n 0) (K : Fin (s + 2) → Vec α n) (itp : RkItp α n d) (rhs : Rhs α n) (t0 : α)
    (y0 : Vec α n) (hkw : Option α) (h : α) (st st' : St α n 0 (FsalAux α n s (RkItp α n d)))
    (b : Bound α) (hs : fsalInit c.P o sel g K itp rhs t0 y0 hkw (some h) = .ok st)
    (ht : Takes ⟨fsal lib o c, rhs, b⟩ st st') :
    st.h = h ∧ ∃ en l last h' K', Trail lib o c.errorExponent c.toTableau (rkNorm lib o c.E) rhs t0 y0 h
        (⟨h, en⟩ :: l) h' K' ∧ (⟨h, en⟩ :: l).getLast? = some last ∧ st'.t = t0 + last.size := by
  obtain ⟨s1, h1, h2, h3, -⟩ := fsalInit_ok hs
  obtain ⟨s0, h4, h5, -, h6, -⟩ := variableInit_ok h1
  obtain ⟨f0, hf0, h7, -, -⟩ := solverInit_ok h4
  have hh : st.h = h := by rw [h3, h6 h rfl]
  have e : st.cache = Buffer.init g t0 y0 f0 := by rw [h2, h5, h7]
  have et : st.t = t0 := by unfold St.t Buffer.t; rw [e]; exact init_ts _ _ _ _ _
  have ey : st.y = y0 := by unfold St.y Buffer.y; rw [e]; exact init_ys _ _ _ _ _
  have ef : st.f = f0 := by unfold St.f Buffer.f; rw [e]; exact init_fs _ _ _ _ _
  refine ⟨hh, ?_⟩
  obtain ⟨l, last, h', K', hTr, hl, rfl⟩ := (fsal_takes_iff lib o c hT rhs b st st'
    (by rw [et, ey, ef]; exact hf0)).mp ht
  rw [et, ey, hh] at hTr
  have hlast : (⟨st.cache.push (st.t + last.size) (proposal c.toTableau last.size st.y K')
    (K' (Fin.last _)), h', { st.aux with K := K' }⟩ : St α n 0 (FsalAux α n s (RkItp α n d))).t =
      t0 + last.size := by
    show (st.cache.push _ _ _).t = _
    rw [push_t, et]
  cases hTr with
  | accept a1 a2 a3 a4 => exact ⟨_, _, last, _, _, .accept a1 a2 a3 a4, hl, hlast⟩
  | reject a1 a2 a3 a4 a5 => exact ⟨_, _, last, _, _, .reject a1 a2 a3 a4 a5, hl, hlast⟩

/-- **C39 refuted**, keyword `h`: for the variable-step classes it makes no difference at all. -/
theorem C39_h_ignored (o : VarOptions α) (sel : Rhs α n → α → Vec α n → Vec α n → Except Err α)
    (g : Buffer α n k) (aux : X) (rhs : Rhs α n) (t0 : α) (y0 : Vec α n) (h h' first : Option α) :
    variableInit o sel g aux rhs t0 y0 h first = variableInit o sel g aux rhs t0 y0 h' first := by
  unfold variableInit solverInit
  cases rhs t0 y0 with
  | error e => rfl
  | ok f0 => rfl

theorem C39_h_ignored_fsal (P : Fin (s + 2) → Fin d → α) (o : VarOptions α)
    (sel : Rhs α n → α → Vec α n → Vec α n → Except Err α) (g : Buffer α n 0)
    (K : Fin (s + 2) → Vec α n) (itp : RkItp α n d) (rhs : Rhs α n) (t0 : α) (y0 : Vec α n)
    (h h' first : Option α) :
    fsalInit P o sel g K itp rhs t0 y0 h first = fsalInit P o sel g K itp rhs t0 y0 h' first := by
  unfold fsalInit
  rw [C39_h_ignored o sel g _ rhs t0 y0 h h' first]

theorem C39_h_ignored_dop853 (dd : DopDense α) (o : VarOptions α)
    (sel : Rhs α n → α → Vec α n → Vec α n → Except Err α) (g : Buffer α n 0)
    (K : Fin 13 → Vec α n) (itp : DopItp α n) (rhs : Rhs α n) (t0 : α) (y0 : Vec α n)
    (h h' first : Option α) :
    dopInit dd o sel g K itp rhs t0 y0 h first = dopInit dd o sel g K itp rhs t0 y0 h' first := by
  unfold dopInit
  rw [C39_h_ignored o sel g _ rhs t0 y0 h h' first]

/-- **C39 refuted**: whenever the automatic choice is not the `h` asked for, the solver does not use `h`. -/
theorem C39_refuted (P : Fin (s + 2) → Fin d → α) (o : VarOptions α)
    (sel : Rhs α n → α → Vec α n → Vec α n → Except Err α) (g : Buffer α n 0)
    (K : Fin (s + 2) → Vec α n) (itp : RkItp α n d) (rhs : Rhs α n) (t0 : α) (y0 f0 : Vec α n)
    (hf : rhs t0 y0 = .ok f0) (h auto : α) (hsel : sel rhs t0 y0 f0 = .ok auto) (hne : auto ≠ h)
    (st : St α n 0 (FsalAux α n s (RkItp α n d)))
    (hs : fsalInit P o sel g K itp rhs t0 y0 (some h) none = .ok st) : st.h ≠ h := by
  obtain ⟨s1, h1, h2, h3, -⟩ := fsalInit_ok hs
  obtain ⟨s0, h4, h5, -, -, h6⟩ := variableInit_ok h1
  obtain ⟨f0', hf0, h7, -, -⟩ := solverInit_ok h4
  rw [hf] at hf0
  cases hf0
  have := h6 rfl
  have et : s0.t = t0 := by unfold St.t Buffer.t; rw [h7]; exact init_ts _ _ _ _ _
  have ey : s0.y = y0 := by unfold St.y Buffer.y; rw [h7]; exact init_ys _ _ _ _ _
  have ef : s0.f = f0 := by unfold St.f Buffer.f; rw [h7]; exact init_fs _ _ _ _ _
  rw [et, ey, ef, hsel] at this
  rw [h3, ← Except.ok.inj this]
  exact hne

/-! ## C38 -/

theorem trail_limits (lib : Lib α) (o : VarOptions α) (lo : α) (hi : Bound α) (ex : α)
    (T : Tableau α s) (E : Fin (s + 2) → α) (rhs : Rhs α n) (t : α) (y : Vec α n) (h h' : α)
    (l : List (Tried α)) (K : Fin (s + 2) → Vec α n)
    (ht : Trail lib o ex T (rkNorm lib o E) rhs t y h l h' K) :
    Trail lib { o with minStep := lo, maxStep := hi } ex T
      (rkNorm lib { o with minStep := lo, maxStep := hi } E) rhs t y h l h' K := by
  induction ht with
  | accept a1 a2 a3 a4 => exact .accept a1 a2 a3 a4
  | reject a1 a2 a3 a4 _ ih => exact .reject a1 a2 a3 a4 ih

/-- **C38 refuted**, in general: `min_step` and `max_step` have no effect on any step. -/
theorem C38_no_effect (lib : Lib α) (o : VarOptions α) (lo : α) (hi : Bound α) (c : FsalCoef α s d)
    (hT : Explicit c.toTableau) (rhs : Rhs α n) (b : Bound α)
    (st st' : St α n 0 (FsalAux α n s (RkItp α n d))) (hf : rhs st.t st.y = .ok st.f) :
    Takes ⟨fsal lib { o with minStep := lo, maxStep := hi } c, rhs, b⟩ st st' ↔
      Takes ⟨fsal lib o c, rhs, b⟩ st st' := by
  rw [fsal_takes_iff _ _ c hT rhs b st st' hf, fsal_takes_iff _ _ c hT rhs b st st' hf]
  constructor
  · rintro ⟨l, last, h', K, h1, h2⟩
    exact ⟨l, last, h', K, trail_limits lib { o with minStep := lo, maxStep := hi } o.minStep o.maxStep _ _ _ _ _ _ _ _ _ _ h1, h2⟩
  · rintro ⟨l, last, h', K, h1, h2⟩
    exact ⟨l, last, h', K, trail_limits lib _ lo hi _ _ _ _ _ _ _ _ _ _ h1, h2⟩

/-- What is left of **C38**: a non-positive `max_step` is refused at construction. Missing: everything
else. -/
theorem C38_max_step_partial (o : VarOptions α) (m : α) (hm : o.maxStep = .fin m) (h0 : m ≤ 0)
    (sel : Rhs α n → α → Vec α n → Vec α n → Except Err α) (g : Buffer α n k) (aux : X)
    (rhs : Rhs α n) (t0 : α) (y0 f0 : Vec α n) (hf : rhs t0 y0 = .ok f0) (h first : Option α) :
    variableInit o sel g aux rhs t0 y0 h first = .error .valueError := by
  unfold variableInit solverInit
  simp only [hf, hm, bind, Except.bind, pure, Except.pure]
  rw [if_pos (by simpa using h0)]
  rfl

end general

/-! ## Concrete runs over the reals -/

noncomputable section concrete
open Demo

/-- Default options with an absolute tolerance of 1. -/
def coarse : VarOptions ℝ := { VarOptions.default with atol := 1, rtol := 0 }

/-- `y' = g(t)` in one dimension. -/
def timeRhs (g : ℝ → ℝ) : Rhs ℝ 1 := pureRhs fun t _ _ => g t

/-- The stages of RungeKutta23 on `y' = g(t)`. -/
def rk23K (g : ℝ → ℝ) (t h : ℝ) : Fin 4 → Vec ℝ 1 :=
  ![fun _ => g t, fun _ => g (t + h / 2), fun _ => g (t + 3 / 4 * h), fun _ => g (t + h)]

theorem rk23_stages (g : ℝ → ℝ) (t h : ℝ) (y : Vec ℝ 1) :
    RKStages (withLast (RungeKutta23 : FsalCoef ℝ 2 3).toTableau) (timeRhs g) t h y (rk23K g t h) := by
  intro i
  fin_cases i <;> simp only [timeRhs, pureRhs, Except.ok.injEq] <;> funext _ <;>
    simp [withLast, RungeKutta23, q, rk23K] <;> congr 1 <;> ring

theorem rk23_norm (o : VarOptions ℝ) (ha : o.atol = 1) (hr : o.rtol = 0) (g : ℝ → ℝ) (t h : ℝ)
    (yN y : Vec ℝ 1) :
    rkNorm realLib o (RungeKutta23 : FsalCoef ℝ 2 3).E h (rk23K g t h) yN y =
      .ok |h * (-5 / 72 * g t + 1 / 12 * g (t + h / 2) + 1 / 9 * g (t + 3 / 4 * h) - 1 / 8 * g (t + h))| := by
  simp only [rkNorm, rmsError, ha, hr, realLib, Except.ok.injEq]
  simp [Fin.sum_univ_succ, rk23K, RungeKutta23, fsalE, q, RungeKutta23B2, Real.sqrt_sq_eq_abs]
  left
  congr 1
  ring

/-- A fresh RungeKutta23 at `(0, 0)` with `first_step = h`. -/
def rk23Start (g : ℝ → ℝ) (h : ℝ) : St ℝ 1 0 (FsalAux ℝ 1 2 (RkItp ℝ 1 3)) :=
  ⟨⟨fun _ => 0, fun _ _ => 0, fun _ _ => g 0⟩, h, ⟨fun _ _ => 0, ⟨fun _ _ => 0, 0⟩⟩⟩

theorem rk23Start_init (o : VarOptions ℝ) (hm : o.maxStep = .inf ∨ ∃ m, o.maxStep = .fin m ∧ 0 < m)
    (ha : o.atol = 1) (sel : Rhs ℝ 1 → ℝ → Vec ℝ 1 → Vec ℝ 1 → Except Err ℝ) (gb : Buffer ℝ 1 0)
    (g : ℝ → ℝ) (h : ℝ) :
    fsalInit (RungeKutta23 : FsalCoef ℝ 2 3).P o sel gb (fun _ _ => 0) ⟨fun _ _ => 0, 0⟩ (timeRhs g) 0
      (fun _ => 0) none (some h) = .ok (rk23Start g h) := by
  have hb : Buffer.init gb (0 : ℝ) (fun _ => 0) (fun _ => g 0) =
      ⟨fun _ => 0, fun _ _ => 0, fun _ _ => g 0⟩ := by
    have e1 := init_ts gb (0 : ℝ) (fun _ => 0) (fun _ => g 0)
    have e2 := init_ys gb (0 : ℝ) (fun _ => 0) (fun _ => g 0)
    have e3 := init_fs gb (0 : ℝ) (fun _ => 0) (fun _ => g 0)
    generalize Buffer.init gb (0 : ℝ) (fun _ => 0) (fun _ => g 0) = B at *
    obtain ⟨a, b, c⟩ := B
    simp only at e1 e2 e3
    congr 1 <;> funext i
    · exact e1 i
    · exact e2 i
    · exact e3 i
  unfold fsalInit variableInit solverInit
  simp only [timeRhs, pureRhs, bind, Except.bind, pure, Except.pure, hb]
  have ha' : ¬ o.atol < 0 := by rw [ha]; norm_num
  have fin : ∀ c : Bool, c = true → ∀ e v : Except Err (St ℝ 1 0 (FsalAux ℝ 1 2 (RkItp ℝ 1 3))),
      (if (!c) = true then e else v) = v := by
    intro c hc e v; rw [hc]; rfl
  rw [fin _ (by
    rcases hm with hm | ⟨m, hm, h0⟩ <;> rw [hm]
    simpa using h0), if_neg ha']
  simp only [rkUpdate, run_modify]
  unfold rk23Start
  simp only [Except.ok.injEq]
  congr 2
  simp only [RkItp.mk.injEq]
  refine ⟨?_, rfl⟩
  funext j d
  rw [vdot_apply]
  simp

/-- **C38 refuted**, `max_step`: with `max_step = 1` and `first_step = 1`, on `y' = 0`, the second step of RungeKutta23 has
length 10. -/
theorem C38_max_step_refuted (sel : Rhs ℝ 1 → ℝ → Vec ℝ 1 → Vec ℝ 1 → Except Err ℝ) (gb : Buffer ℝ 1 0) :
    ∃ (o : VarOptions ℝ) (st0 st1 st2 : St ℝ 1 0 (FsalAux ℝ 1 2 (RkItp ℝ 1 3))),
      o.maxStep = .fin 1 ∧
      fsalInit (RungeKutta23 : FsalCoef ℝ 2 3).P o sel gb (fun _ _ => 0) ⟨fun _ _ => 0, 0⟩
        (timeRhs fun _ => 0) 0 (fun _ => 0) none (some 1) = .ok st0 ∧
      Takes ⟨fsal realLib o RungeKutta23, timeRhs fun _ => 0, .inf⟩ st0 st1 ∧
      Takes ⟨fsal realLib o RungeKutta23, timeRhs fun _ => 0, .inf⟩ st1 st2 ∧
      st2.t - st1.t = 10 := by
  set o : VarOptions ℝ := { coarse with maxStep := .fin 1 } with ho
  have one : ∀ st : St ℝ 1 0 (FsalAux ℝ 1 2 (RkItp ℝ 1 3)), st.f = (fun _ => 0) →
      ∃ st', Takes ⟨fsal realLib o RungeKutta23, timeRhs fun _ => 0, .inf⟩ st st' ∧
        st'.t = st.t + st.h ∧ st'.h = st.h * 10 ∧ st'.f = fun _ => 0 := by
    intro st hf
    refine ⟨_, (fsal_takes_iff realLib o RungeKutta23 RungeKutta23_conditions.explicit _ .inf st _
      (by rw [hf]; rfl)).mpr ⟨[⟨st.h, 0⟩], ⟨st.h, 0⟩, _, rk23K (fun _ => 0) st.t st.h,
        .accept (rk23_stages _ _ _ _) ?_ (Or.inl rfl) (Or.inl ⟨rfl, rfl⟩), rfl, rfl⟩, ?_, ?_, ?_⟩
    · rw [rk23_norm o rfl rfl]; simp
    · exact push_t _ _ _ _
    · simp [o, coarse, VarOptions.default]
    · exact push_f _ _ _ _
  obtain ⟨st1, h1, h2, h3, h4⟩ := one (rk23Start (fun _ => 0) 1) rfl
  obtain ⟨st2, h5, h6, -, -⟩ := one st1 h4
  refine ⟨o, _, st1, st2, rfl, rk23Start_init o (Or.inr ⟨1, rfl, one_pos⟩) rfl sel gb _ 1, h1, h5, ?_⟩
  rw [h6, h3]
  show st1.t + 1 * 10 - st1.t = 10
  ring

/-- A function that is `a` at `3/4` and zero elsewhere. -/
def spike (a : ℝ) (t : ℝ) : ℝ := if t = 3 / 4 then a else 0

/-- **C38 refuted**, `min_step`: with `min_step = 1` and `first_step = 1` a rejection makes RungeKutta23 take a step of length
`1/5`. -/
theorem C38_min_step_refuted (sel : Rhs ℝ 1 → ℝ → Vec ℝ 1 → Vec ℝ 1 → Except Err ℝ) (gb : Buffer ℝ 1 0) :
    ∃ (o : VarOptions ℝ) (rhs : Rhs ℝ 1) (st0 st1 : St ℝ 1 0 (FsalAux ℝ 1 2 (RkItp ℝ 1 3))),
      o.minStep = 1 ∧
      fsalInit (RungeKutta23 : FsalCoef ℝ 2 3).P o sel gb (fun _ _ => 0) ⟨fun _ _ => 0, 0⟩
        rhs 0 (fun _ => 0) none (some 1) = .ok st0 ∧
      Takes ⟨fsal realLib o RungeKutta23, rhs, .inf⟩ st0 st1 ∧ st1.t - st0.t = 1 / 5 := by
  set o : VarOptions ℝ := { coarse with minStep := 1 } with ho
  have hfac : StepFactor realLib o (RungeKutta23 : FsalCoef ℝ 2 3).errorExponent 1000 (1 / 5) := by
    right
    have hp : realLib.pow (1000 : ℝ) (RungeKutta23 : FsalCoef ℝ 2 3).errorExponent = 10 := by
      show (1000 : ℝ) ^ ((1 : ℕ) / (3 : ℕ) : ℝ) = 10
      rw [show (1000 : ℝ) = 10 ^ (3 : ℝ) by norm_num, ← Real.rpow_mul (by norm_num)]
      norm_num
    refine ⟨by norm_num, by rw [hp]; norm_num, ?_⟩
    rw [hp]
    simp only [o, coarse, VarOptions.default]
    norm_num
  refine ⟨o, timeRhs (spike 9000), rk23Start (spike 9000) 1,
    ⟨(rk23Start (spike 9000) 1).cache.push (0 + 1 / 5) _ _, 1 / 5 * 10, _⟩, rfl,
    rk23Start_init o (Or.inl rfl) rfl sel gb _ 1,
    (fsal_takes_iff realLib o RungeKutta23 RungeKutta23_conditions.explicit _ .inf _ _ rfl).mpr
      ⟨[⟨1, 1000⟩, ⟨1 / 5, 0⟩], ⟨1 / 5, 0⟩, 1 / 5 * 10, rk23K (spike 9000) 0 (1 / 5),
        .reject (rk23_stages (spike 9000) 0 1 _) ?_ ⟨by norm_num, by norm_num⟩ hfac ?_, rfl, rfl⟩, ?_⟩
  · show rkNorm realLib o _ 1 (rk23K (spike 9000) 0 1) _ _ = _
    rw [rk23_norm o rfl rfl]
    simp [spike]
    norm_num
  · have : (rk23Start (spike 9000) 1).h * (1 / 5) = 1 / 5 := by simp [rk23Start]
    rw [this]
    refine .accept (rk23_stages (spike 9000) 0 (1 / 5) _) ?_ (Or.inl rfl) (Or.inl ⟨rfl, rfl⟩)
    show rkNorm realLib o _ (1 / 5) (rk23K (spike 9000) 0 (1 / 5)) _ _ = _
    rw [rk23_norm o rfl rfl]
    simp [spike]
    norm_num
  · show (Buffer.push _ _ _ _).t - (0 : ℝ) = _
    rw [push_t]; ring

/-- **C07** needs sane options: with `safety_factor = 2` a *rejected* attempt may enlarge the step, and the solver ends
beyond `t_bound = 1` although the size checked against the bound fitted. -/
theorem C07_refuted_safety_factor :
    ∃ (o : VarOptions ℝ) (rhs : Rhs ℝ 1) (st0 st1 : St ℝ 1 0 (FsalAux ℝ 1 2 (RkItp ℝ 1 3))),
      o = { coarse with safetyFactor := 2 } ∧
      ¬ Past (.fin 1) st0 ∧
      (Solver.step ⟨fsal realLib o RungeKutta23, rhs, .fin 1⟩ none none).run st0 =
        some (.ok (.single st1.t (.row (Buffer.iLast 0))), st1) ∧
      st1.t = 2 ∧ Past (.fin 1) st1 := by
  set o : VarOptions ℝ := { coarse with safetyFactor := 2 } with ho
  have hfac : StepFactor realLib o (RungeKutta23 : FsalCoef ℝ 2 3).errorExponent 1 2 := by
    right
    have hp : realLib.pow (1 : ℝ) (RungeKutta23 : FsalCoef ℝ 2 3).errorExponent = 1 :=
      Real.one_rpow _
    refine ⟨by norm_num, by rw [hp]; norm_num, ?_⟩
    rw [hp]
    simp only [o, coarse, VarOptions.default]
    norm_num
  obtain ⟨st1, h1, h2⟩ : ∃ st1, Takes ⟨fsal realLib o RungeKutta23, timeRhs (spike 9), .fin 1⟩
      (rk23Start (spike 9) 1) st1 ∧ st1.t = 2 := by
    refine ⟨⟨(rk23Start (spike 9) 1).cache.push (0 + 2) _ _, 2 * 10, _⟩,
      (fsal_takes_iff realLib o RungeKutta23 RungeKutta23_conditions.explicit _ (.fin 1) _ _ rfl).mpr
      ⟨[⟨1, 1⟩, ⟨2, 0⟩], ⟨2, 0⟩, 2 * 10, rk23K (spike 9) 0 2,
        .reject (rk23_stages (spike 9) 0 1 _) ?_ ⟨by norm_num, by norm_num⟩ hfac ?_, rfl, rfl⟩, ?_⟩
    · show rkNorm realLib o _ 1 (rk23K (spike 9) 0 1) _ _ = _
      rw [rk23_norm o rfl rfl]
      simp [spike]
      norm_num
    · have : (rk23Start (spike 9) 1).h * 2 = 2 := by simp [rk23Start]
      rw [this]
      refine .accept (rk23_stages (spike 9) 0 2 _) ?_ (Or.inl rfl) (Or.inl ⟨rfl, rfl⟩)
      show rkNorm realLib o _ 2 (rk23K (spike 9) 0 2) _ _ = _
      rw [rk23_norm o rfl rfl]
      simp [spike]
      norm_num
    · show (Buffer.push _ _ _ _).t = _
      rw [push_t]; ring
  refine ⟨o, timeRhs (spike 9), rk23Start (spike 9) 1, st1, rfl, ?_, ?_, h2, ?_⟩
  · simp [Past, rk23Start, St.t, Buffer.t]
  · unfold Solver.step Solver.pstep
    have hfit : (Bound.fin (1 : ℝ)).exceededBy ((rk23Start (spike 9) 1).cache.t +
        (rk23Start (spike 9) 1).h) = false := by
      simp [Bound.exceededBy, rk23Start, Buffer.t]
    unfold Takes at h1
    simp only [run_bind, run_get, andThen_ok, inPast, run_ite, hfit, Bool.false_eq_true, if_false]
    rw [h1]
    simp
  · simp only [Past, h2]; norm_num

end concrete

end Nbkode
