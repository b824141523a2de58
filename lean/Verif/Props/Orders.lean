import Verif.Spec.Orders
import Verif.Props.RungeKutta
import Verif.Proofs.Quadrature
import Verif.Proofs.LinearStages
import Mathlib.Tactic.NormNum
import Mathlib.Tactic.FinCases
import Mathlib.Tactic.IntervalCases
import Mathlib.Tactic.Linarith

/-!
# Orders of the Runge-Kutta methods: C28
-/

set_option autoImplicit false
set_option linter.unusedSectionVars false

namespace Nbkode
open Py Spec Solver Polynomial

variable {α : Type} [Field α] [LinearOrder α] [IsStrictOrderedRing α] [BEq α]
variable {n s : Nat} {I : Type}

/-- The algebraic conditions the two observable statements rest on. -/
structure LinearConditions (T : Tableau α s) (p : Nat) : Prop where
  explicit : Explicit T
  le : p ≤ s + 1
  quad : ∀ k < p, ∑ j, T.B j * T.C j ^ k = 1 / ((k : α) + 1)
  expo : ∀ k < p, ∑ j, T.B j * powOnes T.A k j = 1 / ((k + 1).factorial : α)

theorem rk_polynomial {T : Tableau α s} {p : Nat} (hT : LinearConditions T p) (G : α[X])
    (hG : G.natDegree ≤ p) (t h : α) (y : Vec α n) (K : Fin (s + 1) → Vec α n)
    (hK : RKStages T (pureRhs fun t _ _ => (derivative G).eval t) t h y K) (d : Fin n) :
    rkNew T h y K d = y d + (G.eval (t + h) - G.eval t) := by
  rw [← quadrature_exact T.B T.C p hT.quad G hG t h]
  simp only [rkNew]
  congr 2
  refine Finset.sum_congr rfl fun j _ => ?_
  rw [← congrFun (Except.ok.inj (hK j)) d]

theorem taylor_split (p : Nat) (z : α) (w : Nat → α)
    (hw : ∀ k < p, w k = 1 / ((k + 1).factorial : α)) :
    1 + ∑ l ∈ Finset.range p, z ^ (l + 1) * w l =
      ∑ m ∈ Finset.range (p + 1), z ^ m / (m.factorial : α) := by
  rw [Finset.sum_range_succ', add_comm]
  simp only [pow_zero, Nat.factorial_zero, Nat.cast_one, div_one]
  congr 1
  refine Finset.sum_congr rfl fun l hl => ?_
  rw [hw l (Finset.mem_range.mp hl)]; ring

theorem rk_exp {T : Tableau α s} {p : Nat} (hT : LinearConditions T p) (c t h : α)
    (y : Vec α n) (K : Fin (s + 1) → Vec α n)
    (hK : RKStages T (pureRhs fun _ y d => c * y d) t h y K) (d : Fin n) :
    rkNew T h y K d = (∑ m ∈ Finset.range (p + 1), (c * h) ^ m / (m.factorial : α) +
      (c * h) ^ (p + 1) * (remainder T.A T.B p).eval (c * h)) * y d := by
  simp only [rkNew]
  rw [linear_weighted hT.explicit.upper T.B c h (y d) (fun j => K j d)
    (fun i => (congrFun (Except.ok.inj (hK i)) d).symm), weighted_split T.B p hT.le,
    ← taylor_split p (c * h) _ hT.expo]
  ring

/-- A fixed-step method whose tableau satisfies the conditions has the order. -/
theorem erk_order {T : Tableau α s} {p : Nat} (hT : LinearConditions T p) (b : Bound α) :
    HasLinearOrder (fun rhs : Rhs α n => ⟨erk T, rhs, b⟩) p := by
  constructor
  · intro G hG st st' hf h d
    obtain ⟨K, f', hK, -, rfl⟩ :=
      (erk_takes_iff T hT.explicit _ b st st' (congrArg Except.ok hf.symm)).mp h
    show (st.cache.push _ _ _).y d = _ + (G.eval (st.cache.push _ _ _).t - _)
    rw [push_y, push_t]
    exact rk_polynomial hT G hG _ _ _ K hK d
  · refine ⟨remainder T.A T.B p, fun c st st' hf h d => ?_⟩
    obtain ⟨K, f', hK, -, rfl⟩ :=
      (erk_takes_iff T hT.explicit _ b st st' (congrArg Except.ok hf.symm)).mp h
    have e : (⟨st.cache.push (st.t + st.h) (rkNew T st.h st.y K) f', st.h, K⟩ :
        St α n 0 (ErkAux α n s)).t - st.t = st.h := by
      show (st.cache.push _ _ _).t - _ = _
      rw [push_t]; ring
    rw [e]
    show (st.cache.push _ _ _).y d = _
    rw [push_y]
    exact rk_exp hT c _ _ _ K hK d

/-- The same for a variable-step method (any number of rejected attempts before the recorded one). -/
theorem fsalBody_order {T : Tableau α s} {p : Nat} (hT : LinearConditions T p) (lib : Lib α)
    (o : VarOptions α) (hl : PowLaw lib) (ho : SaneOptions o) (ex : α) (hex : 0 ≤ ex)
    (errNorm : ErrNorm α n s) (b : Bound α)
    (itp : Rhs α n → α → Py (St α n 0 (FsalAux α n s I)) (Ref α n 0)) :
    HasLinearOrder (fun rhs : Rhs α n => ⟨⟨fsalBody lib o ex T errNorm, itp⟩, rhs, b⟩) p := by
  constructor
  · intro G hG st st' hf h d
    obtain ⟨q, K, f', -, -, hK, -, h2, -⟩ := fsalBody_records lib o hl ho ex hex T hT.explicit errNorm _
      st st' (congrArg Except.ok hf.symm) h
    simp only [St.y, St.t, h2, push_y, push_t]
    exact rk_polynomial hT G hG _ _ _ K hK d
  · refine ⟨remainder T.A T.B p, fun c st st' hf h d => ?_⟩
    obtain ⟨q, K, f', -, -, hK, -, h2, -⟩ := fsalBody_records lib o hl ho ex hex T hT.explicit errNorm _
      st st' (congrArg Except.ok hf.symm) h
    have e : st'.t - st.t = st.h * q := by
      simp only [St.t, h2, push_t]; ring
    rw [e]
    simp only [St.y, h2, push_y]
    exact rk_exp hT c _ _ _ K hK d

theorem Runge2_conditions : LinearConditions (Runge2 : Tableau α 1) 2 where
  explicit := ⟨by
    intro i j h; fin_cases i <;> fin_cases j <;> first | rfl | simp_all [Runge2], by simp [Runge2]⟩
  le := by norm_num
  quad := by
    intro k hk
    interval_cases k <;> simp [Fin.sum_univ_succ, Runge2, q] <;> norm_num
  expo := by
    intro k hk
    interval_cases k <;> simp [Fin.sum_univ_succ, Runge2, q, powOnes, Nat.factorial] <;> norm_num

/-- **C28** for `Runge2`: order 2. -/
theorem C28_Runge2 (b : Bound α) :
    HasLinearOrder (fun rhs : Rhs α n => ⟨erk Runge2, rhs, b⟩) 2 :=
  erk_order Runge2_conditions b

theorem Runge3_conditions : LinearConditions (Runge3 : Tableau α 3) 3 where
  explicit := ⟨by
    intro i j h; fin_cases i <;> fin_cases j <;> first | rfl | simp_all [Runge3], by simp [Runge3]⟩
  le := by norm_num
  quad := by
    intro k hk
    interval_cases k <;> simp [Fin.sum_univ_succ, Runge3, q] <;> norm_num
  expo := by
    intro k hk
    interval_cases k <;> simp [Fin.sum_univ_succ, Runge3, q, powOnes, Nat.factorial] <;> norm_num

/-- **C28** for `Runge3`: order 3. -/
theorem C28_Runge3 (b : Bound α) :
    HasLinearOrder (fun rhs : Rhs α n => ⟨erk Runge3, rhs, b⟩) 3 :=
  erk_order Runge3_conditions b

theorem Heun3_conditions : LinearConditions (Heun3 : Tableau α 2) 3 where
  explicit := ⟨by
    intro i j h; fin_cases i <;> fin_cases j <;> first | rfl | simp_all [Heun3], by simp [Heun3]⟩
  le := by norm_num
  quad := by
    intro k hk
    interval_cases k <;> simp [Fin.sum_univ_succ, Heun3, q] <;> norm_num
  expo := by
    intro k hk
    interval_cases k <;> simp [Fin.sum_univ_succ, Heun3, q, powOnes, Nat.factorial] <;> norm_num

/-- **C28** for `Heun3`: order 3. -/
theorem C28_Heun3 (b : Bound α) :
    HasLinearOrder (fun rhs : Rhs α n => ⟨erk Heun3, rhs, b⟩) 3 :=
  erk_order Heun3_conditions b

theorem RungeKutta4_conditions : LinearConditions (RungeKutta4 : Tableau α 3) 4 where
  explicit := ⟨by
    intro i j h; fin_cases i <;> fin_cases j <;> first | rfl | simp_all [RungeKutta4], by simp [RungeKutta4]⟩
  le := by norm_num
  quad := by
    intro k hk
    interval_cases k <;> simp [Fin.sum_univ_succ, RungeKutta4, q] <;> norm_num
  expo := by
    intro k hk
    interval_cases k <;> simp [Fin.sum_univ_succ, RungeKutta4, q, powOnes, Nat.factorial] <;> norm_num

/-- **C28** for `RungeKutta4`: order 4. -/
theorem C28_RungeKutta4 (b : Bound α) :
    HasLinearOrder (fun rhs : Rhs α n => ⟨erk RungeKutta4, rhs, b⟩) 4 :=
  erk_order RungeKutta4_conditions b

theorem RungeKutta3_8_conditions : LinearConditions (RungeKutta3_8 : Tableau α 3) 4 where
  explicit := ⟨by
    intro i j h; fin_cases i <;> fin_cases j <;> first | rfl | simp_all [RungeKutta3_8], by simp [RungeKutta3_8]⟩
  le := by norm_num
  quad := by
    intro k hk
    interval_cases k <;> simp [Fin.sum_univ_succ, RungeKutta3_8, q] <;> norm_num
  expo := by
    intro k hk
    interval_cases k <;> simp [Fin.sum_univ_succ, RungeKutta3_8, q, powOnes, Nat.factorial] <;> norm_num

/-- **C28** for `RungeKutta3_8`: order 4. -/
theorem C28_RungeKutta3_8 (b : Bound α) :
    HasLinearOrder (fun rhs : Rhs α n => ⟨erk RungeKutta3_8, rhs, b⟩) 4 :=
  erk_order RungeKutta3_8_conditions b

theorem RungeKutta23_conditions : LinearConditions ((RungeKutta23 : FsalCoef α 2 3).toTableau : Tableau α 2) 3 where
  explicit := ⟨by
    intro i j h; fin_cases i <;> fin_cases j <;> first | rfl | simp_all [RungeKutta23], by simp [RungeKutta23]⟩
  le := by norm_num
  quad := by
    intro k hk
    interval_cases k <;> simp [Fin.sum_univ_succ, RungeKutta23, q] <;> norm_num
  expo := by
    intro k hk
    interval_cases k <;> simp [Fin.sum_univ_succ, RungeKutta23, q, powOnes, Nat.factorial] <;> norm_num

/-- **C28** for `RungeKutta23`: order 3, whatever the number of rejected attempts. -/
theorem C28_RungeKutta23 (lib : Lib α) (o : VarOptions α) (hl : PowLaw lib) (ho : SaneOptions o)
    (b : Bound α) :
    HasLinearOrder (fun rhs : Rhs α n => ⟨fsal lib o RungeKutta23, rhs, b⟩) 3 :=
  fsalBody_order RungeKutta23_conditions lib o hl ho _ (by simp [RungeKutta23, q]) _ b _

theorem RungeKutta45_conditions : LinearConditions ((RungeKutta45 : FsalCoef α 5 4).toTableau : Tableau α 5) 5 where
  explicit := ⟨by
    intro i j h; fin_cases i <;> fin_cases j <;> first | rfl | simp_all [RungeKutta45], by simp [RungeKutta45]⟩
  le := by norm_num
  quad := by
    intro k hk
    interval_cases k <;> simp [Fin.sum_univ_succ, RungeKutta45, q] <;> norm_num
  expo := by
    intro k hk
    interval_cases k <;> simp [Fin.sum_univ_succ, RungeKutta45, q, powOnes, Nat.factorial] <;> norm_num

/-- **C28** for `RungeKutta45`: order 5, whatever the number of rejected attempts. -/
theorem C28_RungeKutta45 (lib : Lib α) (o : VarOptions α) (hl : PowLaw lib) (ho : SaneOptions o)
    (b : Bound α) :
    HasLinearOrder (fun rhs : Rhs α n => ⟨fsal lib o RungeKutta45, rhs, b⟩) 5 :=
  fsalBody_order RungeKutta45_conditions lib o hl ho _ (by simp [RungeKutta45, q]) _ b _

/-! ### Error estimates of the embedded pairs -/

/-- The algebraic conditions. -/
structure EstimateConditions (T : Tableau α s) (E : Fin (s + 2) → α) (p : Nat) : Prop where
  explicit : ∀ i j, i ≤ j → (withLast T).A i j = 0
  le : p ≤ s + 2
  quad : ∀ k < p, ∑ j, E j * (withLast T).C j ^ k = 0
  expo : ∀ k < p, ∑ j, E j * powOnes (withLast T).A k j = 0

theorem estimate_vanishes {T : Tableau α s} {E : Fin (s + 2) → α} {p : Nat}
    (hT : EstimateConditions T E p) : EstimateVanishes (n := n) T E p := by
  constructor
  · intro G hG t h y K hK d
    rw [← quadrature_zero E (withLast T).C p hT.quad G hG t h]
    congr 1
    refine Finset.sum_congr rfl fun j _ => ?_
    rw [← congrFun (Except.ok.inj (hK j)) d]
  · refine ⟨remainder (withLast T).A E p, fun c t h y K hK d => ?_⟩
    rw [linear_weighted hT.explicit E c h (y d) (fun j => K j d)
      (fun i => (congrFun (Except.ok.inj (hK i)) d).symm), weighted_split E p hT.le]
    rw [Finset.sum_eq_zero fun l hl => by rw [hT.expo l (Finset.mem_range.mp hl), mul_zero], zero_add]

theorem RungeKutta23_estimate : EstimateConditions (RungeKutta23 : FsalCoef α 2 3).toTableau
    (RungeKutta23 : FsalCoef α 2 3).E 2 where
  explicit := by
    intro i j h
    fin_cases i <;> fin_cases j <;> first | rfl | simp_all [withLast, RungeKutta23]
  le := by norm_num
  quad := by
    intro k hk
    interval_cases k <;>
      simp [Fin.sum_univ_succ, RungeKutta23, RungeKutta23B2, fsalE, withLast, q] <;> norm_num
  expo := by
    intro k hk
    interval_cases k <;>
      simp [Fin.sum_univ_succ, RungeKutta23, RungeKutta23B2, fsalE, withLast, q, powOnes] <;> norm_num

theorem RungeKutta45_estimate : EstimateConditions (RungeKutta45 : FsalCoef α 5 4).toTableau
    (RungeKutta45 : FsalCoef α 5 4).E 4 where
  explicit := by
    intro i j h
    fin_cases i <;> fin_cases j <;> first | rfl | simp_all [withLast, RungeKutta45]
  le := by norm_num
  quad := by
    intro k hk
    interval_cases k <;>
      simp [Fin.sum_univ_succ, RungeKutta45, withLast, q] <;> norm_num
  expo := by
    intro k hk
    interval_cases k <;>
      simp [Fin.sum_univ_succ, RungeKutta45, withLast, q, powOnes] <;> norm_num

end Nbkode
