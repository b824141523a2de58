import Verif.Proofs.Multistep
import Verif.Proofs.Records
import Verif.Props.Zeros
import Mathlib.LinearAlgebra.Matrix.Notation
import Mathlib.Tactic.FinCases
import Mathlib.Tactic.Linarith

/-!
# Multistep steps solve their formula: C32, C33 and the explicit counterpart
-/

set_option autoImplicit false
set_option linter.unusedSectionVars false

namespace Nbkode
open Py Spec Solver

variable {α : Type} [Field α] [LinearOrder α] [IsStrictOrderedRing α] [BEq α] [LawfulBEq α]
variable {n p : Nat}

/-- What an explicit multistep step does, in terms of the model's buffer (`C29_explicit_formula` states it without). -/
theorem explicit_takes_iff (c : MultistepCoef α p) (hc : c.Bn = 0) (rhs : Rhs α n) (b : Bound α)
    (st st' : St α n (histExtra p) Unit) :
    Takes ⟨explicitMultistep c, rhs, b⟩ st st' ↔
      ∃ y' f', defect c st.cache st.h y' f' = 0 ∧ rhs (st.t + st.h) y' = .ok f' ∧
        st' = ⟨st.cache.push (st.t + st.h) y' f', st.h, ()⟩ := by
  have key : ∀ y' f', defect c st.cache st.h y' f' = 0 ↔ y' = multistepK c st.cache st.h := by
    intro y' f'
    rw [residual_eq, hc, mul_zero]
    have : scale (0 : α) f' = 0 := by funext d; simp [scale]
    rw [this, sub_zero, sub_eq_zero]
  unfold Takes
  change (explicitMultistepBody c rhs).run st = _ ↔ _
  rw [explicitMultistepBody_run]
  constructor
  · intro h
    split at h
    · simp at h
    · rename_i f' hf
      cases h
      exact ⟨_, f', (key _ _).mpr rfl, hf, rfl⟩
  · rintro ⟨y', f', h1, h2, rfl⟩
    rw [(key _ _).mp h1] at h2 ⊢
    rw [h2]

/-- **C29.** An explicit multistep step satisfies its formula exactly, or raises what the right-hand side raises. -/
theorem C29_explicit_formula (c : MultistepCoef α p) (hc : c.Bn = 0) (rhs : Rhs α n) (b : Bound α)
    (st st' : St α n (histExtra p) Unit) :
    Takes ⟨explicitMultistep c, rhs, b⟩ st st' ↔
      ∃ y' f', defect c st.cache st.h y' f' = 0 ∧ rhs (st.t + st.h) y' = .ok f' ∧
        Records st.cache st'.cache (st.t + st.h) y' f' ∧ st'.h = st.h := by
  rw [explicit_takes_iff c hc rhs b st st']
  simp only [state_records_iff, and_true]

/-- What an implicit multistep step does, in terms of the model's buffer (`C32_residual` states it without). -/
theorem implicit_residual (lib : Lib α) (zo : ZeroOpts α) (c : MultistepCoef α p) (rhs : Rhs α n)
    (b : Bound α) (hn : n ≠ 1) (st st' : St α n (histExtra p) Unit)
    (h : Takes ⟨implicitMultistep lib zo c, rhs, b⟩ st st') :
    ∃ y' f', rhs (st.t + st.h) y' = .ok f' ∧
      st' = ⟨st.cache.push (st.t + st.h) y' f', st.h, ()⟩ ∧
      |euclid lib (defect c st.cache st.h y' f')| ≤ zo.tol := by
  unfold Takes at h
  change (implicitMultistepBody lib zo c rhs).run st = _ at h
  rw [implicitMultistepBody_run] at h
  split at h
  · simp at h
  · rename_i y' hy
    split at h
    · simp at h
    · rename_i f' hf
      cases h
      refine ⟨y', f', hf, rfl, ?_⟩
      rw [implicitSolve, dif_neg hn] at hy
      obtain ⟨_, _, _, v, hv, hle⟩ := newtonHd_ok hy
      simp only [implicitRoot, hf, bind, Except.bind, pure, Except.pure, Except.ok.injEq] at hv
      rw [residual_eq, hv]
      exact hle

/-- **C32.** For systems, an implicit multistep step that succeeds records a point at `t + h` whose residual in the
method's equation has (computed) Euclidean norm at most the tolerance. -/
theorem C32_residual (lib : Lib α) (zo : ZeroOpts α) (c : MultistepCoef α p) (rhs : Rhs α n)
    (b : Bound α) (hn : n ≠ 1) (st st' : St α n (histExtra p) Unit)
    (h : Takes ⟨implicitMultistep lib zo c, rhs, b⟩ st st') :
    ∃ y' f', rhs (st.t + st.h) y' = .ok f' ∧
      Records st.cache st'.cache (st.t + st.h) y' f' ∧ st'.h = st.h ∧
      |euclid lib (defect c st.cache st.h y' f')| ≤ zo.tol := by
  obtain ⟨y', f', h1, h2, h3⟩ := implicit_residual lib zo c rhs b hn st st' h
  have h4 := state_records_iff.mp h2
  exact ⟨y', f', h1, h4.1, h4.2.1, h3⟩

/-- **C32**, converse part: the only ways not to append such a point are exceptions; the step always ends. -/
theorem C32_or_raises (lib : Lib α) (zo : ZeroOpts α) (c : MultistepCoef α p) (rhs : Rhs α n)
    (b : Bound α) (st : St α n (histExtra p) Unit) :
    (∃ st', Takes ⟨implicitMultistep lib zo c, rhs, b⟩ st st') ∨
      ∃ e, ((implicitMultistep lib zo c).body rhs).run st = some (.error e, st) := by
  unfold Takes
  change (∃ st', (implicitMultistepBody lib zo c rhs).run st = _) ∨
    ∃ e, (implicitMultistepBody lib zo c rhs).run st = _
  rw [implicitMultistepBody_run]
  split
  · exact Or.inr ⟨_, rfl⟩
  · split
    · exact Or.inr ⟨_, rfl⟩
    · exact Or.inl ⟨_, rfl⟩

/-- The implicit multistep step on a scalar linear problem, in terms of the model's buffer (`C33_linear_exact` states it
without). -/
theorem linear_exact (lib : Lib α) (zo : ZeroOpts α) (he : 0 < zo.secantEps) (ht : 0 ≤ zo.tol)
    (hr : 0 ≤ zo.rtol) (c : MultistepCoef α p) (lam : α) (g : α → α) (b : Bound α)
    (st : St α 1 (histExtra p) Unit) (hreg : 1 - st.h * c.Bn * lam ≠ 0) :
    ∃ y' f' : Vec α 1, f' = (fun i => lam * y' i + g (st.t + st.h)) ∧
      Takes ⟨implicitMultistep lib zo c, pureRhs fun t y i => lam * y i + g t, b⟩ st
        ⟨st.cache.push (st.t + st.h) y' f', st.h, ()⟩ ∧
      defect c st.cache st.h y' f' = 0 := by
  set K := multistepK c st.cache st.h with hK
  set y' : Vec α 1 := fun _ => (K 0 + st.h * c.Bn * g (st.t + st.h)) / (1 - st.h * c.Bn * lam) with hy
  refine ⟨y', _, rfl, ?_, ?_⟩
  · unfold Takes
    change (implicitMultistepBody lib zo c _).run st = _
    rw [implicitMultistepBody_run]
    have : implicitSolve lib zo (pureRhs fun t y i => lam * y i + g t) (st.t + st.h) (st.h * c.Bn)
        (multistepK c st.cache st.h) st.y = .ok y' := by
      rw [implicitSolve, dif_pos rfl]
      have := jNewton_affine (x0 := st.y 0) (b := K 0 + st.h * c.Bn * g (st.t + st.h)) he hreg ht hr
        (fun x => do
          let v ← implicitRoot (pureRhs fun t (y : Vec α 1) i => lam * y i + g t) (st.t + st.h)
            (st.h * c.Bn) K (fun _ => x)
          return v 0) (by
            intro x
            simp only [implicitRoot, pureRhs, bind, Except.bind, pure, Except.pure, Except.ok.injEq,
              Pi.sub_apply, scale]
            ring) 48
      simp only [bind, Except.bind] at this ⊢
      erw [this]
      rfl
    rw [this]
    rfl
  · rw [residual_eq]
    funext d
    have hd : d = 0 := Subsingleton.elim _ _
    subst hd
    simp only [Pi.sub_apply, scale, Pi.zero_apply, ← hK, hy]
    field_simp
    ring

/-- **C33.** On a scalar problem `y' = lam y + g(t)` with `1 - h Bn lam ≠ 0` an implicit multistep step succeeds and
the recorded point satisfies the method's equation exactly. -/
theorem C33_linear_exact (lib : Lib α) (zo : ZeroOpts α) (he : 0 < zo.secantEps) (ht : 0 ≤ zo.tol)
    (hr : 0 ≤ zo.rtol) (c : MultistepCoef α p) (lam : α) (g : α → α) (b : Bound α)
    (st : St α 1 (histExtra p) Unit) (hreg : 1 - st.h * c.Bn * lam ≠ 0) :
    ∃ (y' f' : Vec α 1) (st' : _), f' = (fun i => lam * y' i + g (st.t + st.h)) ∧
      Takes ⟨implicitMultistep lib zo c, pureRhs fun t y i => lam * y i + g t, b⟩ st st' ∧
      Records st.cache st'.cache (st.t + st.h) y' f' ∧ st'.h = st.h ∧
      defect c st.cache st.h y' f' = 0 := by
  obtain ⟨y', f', h1, h2, h3⟩ := linear_exact lib zo he ht hr c lam g b st hreg
  have h4 := state_records_iff.mp (rfl : _ = (⟨st.cache.push (st.t + st.h) y' f', st.h, ()⟩ : St α 1 (histExtra p) Unit))
  exact ⟨y', f', _, h1, h2, h4.1, h4.2.1, h3⟩

/-- **C33**, the value: `(K + h Bn g(t+h)) / (1 - h Bn lam)` with `K` the part of the formula known beforehand. -/
theorem C33_value (c : MultistepCoef α p) (lam g : α) (b : Buffer α 1 (histExtra p)) (h : α)
    (hreg : 1 - h * c.Bn * lam ≠ 0) (y' : Vec α 1)
    (hy : defect c b h y' (fun i => lam * y' i + g) = 0) :
    y' 0 = (h * ∑ i : Fin (p + 1), c.B i.rev * ago b.fs i 0 -
      ∑ i : Fin (p + 1), c.A i.rev * ago b.ys i 0 + h * c.Bn * g) / (1 - h * c.Bn * lam) := by
  have := congrFun hy 0
  simp only [defect, Pi.zero_apply] at this
  rw [eq_div_iff hreg]
  linear_combination this

/-- **C33** for `BackwardEuler` on `y' = lam y`: the step is `y / (1 - h lam)`. -/
theorem C33_backwardEuler (lib : Lib α) (zo : ZeroOpts α) (he : 0 < zo.secantEps) (ht : 0 ≤ zo.tol)
    (hr : 0 ≤ zo.rtol) (lam : α) (b : Bound α) (st : St α 1 (histExtra 0) Unit)
    (hreg : 1 - st.h * lam ≠ 0) :
    ∃ st', Takes ⟨implicitMultistep lib zo BackwardEuler, pureRhs fun _ y i => lam * y i, b⟩ st st' ∧
      st'.t = st.t + st.h ∧ st'.y 0 = st.y 0 / (1 - st.h * lam) := by
  have hB : (BackwardEuler (α := α)).Bn = 1 := rfl
  obtain ⟨y', f', hf, h1, h2⟩ := linear_exact lib zo he ht hr BackwardEuler lam (fun _ => 0) b st
    (by rw [hB]; simpa using hreg)
  simp only [add_zero] at h1 hf
  refine ⟨_, h1, push_t _ _ _ _, ?_⟩
  subst hf
  have h3 := C33_value BackwardEuler lam 0 st.cache st.h (by rw [hB]; simpa using hreg) y'
    (by simpa using h2)
  show (st.cache.push _ y' _).y 0 = _
  rw [push_y, h3]
  simp [hB, BackwardEuler, AdamsMoulton1, adamsA, ago, St.y, Buffer.y, Buffer.iLast, histExtra]

/-- The implicit multistep step on a linear system, in terms of the model's buffer (`C33_linear_system` states it
without). -/
theorem linear_system (lib : Lib α) (hs : ExactSolve lib) (hq : lib.sqrt 0 = 0) (zo : ZeroOpts α)
    (he : zo.jacEps ≠ 0) (ht : 0 ≤ zo.tol) (hn : n ≠ 1) (c : MultistepCoef α p)
    (M : Fin n → Fin n → α) (g : α → Vec α n) (b : Bound α) (st : St α n (histExtra p) Unit)
    (hreg : ∀ x : Vec α n, (∀ i, x i - st.h * c.Bn * ∑ j, M i j * x j = 0) → x = 0) :
    ∃ y' f' : Vec α n, f' = (fun i => ∑ j, M i j * y' j + g (st.t + st.h) i) ∧
      Takes ⟨implicitMultistep lib zo c, pureRhs fun t y i => ∑ j, M i j * y j + g t i, b⟩ st
        ⟨st.cache.push (st.t + st.h) y' f', st.h, ()⟩ ∧
      ((y' = st.y ∧ |euclid lib (defect c st.cache st.h y' f')| ≤ zo.tol) ∨
        defect c st.cache st.h y' f' = 0) := by
  set K := multistepK c st.cache st.h with hK
  set A : Fin n → Fin n → α := fun i j => (if i = j then 1 else 0) - st.h * c.Bn * M i j with hA
  set bb : Vec α n := fun i => K i + st.h * c.Bn * g (st.t + st.h) i with hbb
  have hAx : ∀ (x : Vec α n) i, ∑ j, A i j * x j = x i - st.h * c.Bn * ∑ j, M i j * x j := by
    intro x i
    simp only [hA, sub_mul, Finset.sum_sub_distrib, Finset.mul_sum, mul_assoc]
    simp
  have hroot : implicitRoot (pureRhs fun t (y : Vec α n) i => ∑ j, M i j * y j + g t i) (st.t + st.h)
      (st.h * c.Bn) K = fun y => .ok fun i => ∑ j, A i j * y j - bb i := by
    funext y
    simp only [implicitRoot, pureRhs, bind, Except.bind, pure, Except.pure, Except.ok.injEq]
    funext i
    rw [hAx]
    simp only [Pi.sub_apply, scale, hbb]
    ring
  obtain ⟨y', h1, h2⟩ := C57_affine lib hs hq zo.jacEps he A
    (fun x hx => hreg x fun i => by rw [← hAx]; exact hx i) bb st.y zo.tol zo.rtol ht 49
  have hres : defect c st.cache st.h y' (fun i => ∑ j, M i j * y' j + g (st.t + st.h) i) =
      fun i => ∑ j, A i j * y' j - bb i := by
    rw [residual_eq, ← hK]
    funext i
    rw [hAx]
    simp only [Pi.sub_apply, scale, hbb]
    ring
  refine ⟨y', _, rfl, ?_, ?_⟩
  · unfold Takes
    change (implicitMultistepBody lib zo c _).run st = _
    rw [implicitMultistepBody_run, implicitSolve, dif_neg hn, ← hK, hroot, h1]
    rfl
  · rw [hres]
    rcases h2 with ⟨rfl, h2⟩ | h2
    · exact Or.inl ⟨rfl, h2⟩
    · right
      funext i
      rw [h2 i]; simp

/-- **C33** for systems `y' = M y + g(t)` with a regular matrix `1 - h Bn M`, when linear systems are solved exactly:
the step succeeds, and unless the current state already is a good enough solution, the recorded
point satisfies the method's equation exactly. -/
theorem C33_linear_system (lib : Lib α) (hs : ExactSolve lib) (hq : lib.sqrt 0 = 0) (zo : ZeroOpts α)
    (he : zo.jacEps ≠ 0) (ht : 0 ≤ zo.tol) (hn : n ≠ 1) (c : MultistepCoef α p)
    (M : Fin n → Fin n → α) (g : α → Vec α n) (b : Bound α) (st : St α n (histExtra p) Unit)
    (hreg : ∀ x : Vec α n, (∀ i, x i - st.h * c.Bn * ∑ j, M i j * x j = 0) → x = 0) :
    ∃ (y' f' : Vec α n) (st' : _), f' = (fun i => ∑ j, M i j * y' j + g (st.t + st.h) i) ∧
      Takes ⟨implicitMultistep lib zo c, pureRhs fun t y i => ∑ j, M i j * y j + g t i, b⟩ st st' ∧
      Records st.cache st'.cache (st.t + st.h) y' f' ∧ st'.h = st.h ∧
      ((y' = st.y ∧ |euclid lib (defect c st.cache st.h y' f')| ≤ zo.tol) ∨
        defect c st.cache st.h y' f' = 0) := by
  obtain ⟨y', f', h1, h2, h3⟩ := linear_system lib hs hq zo he ht hn c M g b st hreg
  have h4 := state_records_iff.mp (rfl : _ = (⟨st.cache.push (st.t + st.h) y' f', st.h, ()⟩ : St α n (histExtra p) Unit))
  exact ⟨y', f', _, h1, h2, h4.1, h4.2.1, h3⟩

/-- The hypotheses of `C32_residual` are met: a backward Euler step on `y1' = y2, y2' = -y1` from `(1, 0)`; it
succeeds by `C33_linear_system`. -/
example : ∃ st' : St ℝ 2 (histExtra 0) Unit,
    Takes ⟨implicitMultistep Demo.realLib Demo.realZeros BackwardEuler,
      pureRhs fun _ y i => ∑ j, (!![0, 1; -1, 0] : Matrix (Fin 2) (Fin 2) ℝ) i j * y j + 0, .inf⟩
      ⟨⟨fun _ => 0, fun _ => ![1, 0], fun _ => ![0, -1]⟩, 1, ()⟩ st' := by
  obtain ⟨y', f', st', -, h, -⟩ := C33_linear_system Demo.realLib Demo.realLib_exactSolve
    Demo.realLib_sqrt_zero Demo.realZeros (by norm_num [Demo.realZeros])
    (by norm_num [Demo.realZeros]) (by decide) BackwardEuler !![0, 1; -1, 0] (fun _ _ => 0) .inf
    ⟨⟨fun _ => 0, fun _ => ![1, 0], fun _ => ![0, -1]⟩, 1, ()⟩ (by
      intro x hx
      have h0 := hx 0
      have h1 := hx 1
      simp [BackwardEuler, AdamsMoulton1, Fin.sum_univ_two] at h0 h1
      funext i
      fin_cases i
      · show x 0 = 0; linarith
      · show x 1 = 0; linarith)
  exact ⟨_, h⟩

/-- `C33_linear_exact`, `C33_backwardEuler` apply for instance to `y' = -2y`, `h = 1/2`, `y = 1`: the step yields `1/2`. -/
example : ∃ st', Takes ⟨implicitMultistep Demo.realLib Demo.realZeros BackwardEuler,
      pureRhs fun _ y i => (-2 : ℝ) * y i, .inf⟩
      (⟨⟨fun _ => 0, fun _ _ => 1, fun _ _ => -2⟩, 1 / 2, ()⟩ : St ℝ 1 (histExtra 0) Unit) st' ∧
      st'.y 0 = 1 / 2 := by
  obtain ⟨st', h1, -, h2⟩ := C33_backwardEuler Demo.realLib Demo.realZeros
    (by norm_num [Demo.realZeros]) (by norm_num [Demo.realZeros]) (by norm_num [Demo.realZeros])
    (-2 : ℝ) .inf ⟨⟨fun _ => 0, fun _ _ => 1, fun _ _ => -2⟩, 1 / 2, ()⟩ (by norm_num)
  refine ⟨st', h1, ?_⟩
  rw [h2]
  simp [St.y, Buffer.y]
  norm_num

end Nbkode
