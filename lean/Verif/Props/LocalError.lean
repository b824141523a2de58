import Verif.Spec.LocalError
import Verif.Proofs.TreeConditions
import Verif.Props.Orders

/-!
# Order on smooth problems: C65
-/

set_option autoImplicit false
set_option linter.unusedSectionVars false

namespace Nbkode
open Py Spec Solver Topology

variable {n s : Nat} {I : Type}

/-- A fixed-step method whose tableau satisfies the order conditions has the order. -/
theorem erk_hasOrder {T : Tableau ℝ s} {p : Nat} (hT : Explicit T) (hR : RowSums T) (hB : OrderConditions T.A T.B p)
    (b : Bound ℝ) : HasOrder (fun rhs : Rhs ℝ n => ⟨erk T, rhs, b⟩) p := by
  intro f y t₀ hf hy
  obtain ⟨C, δ, hδ, h⟩ := rk_local_error hf hy hT hR hB
  refine ⟨C, δ, hδ, fun st st' hon hst ht hx d => ?_⟩
  obtain ⟨K, f', hK, -, rfl⟩ := (erk_takes_iff T hT _ b st st' (congrArg Except.ok hon.f.symm)).mp hst
  have e1 : (⟨st.cache.push (st.t + st.h) (rkNew T st.h st.y K) f', st.h, K⟩ :
      St ℝ n 0 (ErkAux ℝ n s)).t = st.t + st.h := push_t ..
  have e2 : (⟨st.cache.push (st.t + st.h) (rkNew T st.h st.y K) f', st.h, K⟩ :
      St ℝ n 0 (ErkAux ℝ n s)).y = rkNew T st.h st.y K := push_y ..
  rw [e1, add_sub_cancel_left] at hx
  rw [e1, e2, add_sub_cancel_left]
  rw [hon.y] at hK ⊢
  exact h _ _ K ht hx hK d

/-- The same for a variable-step method (any number of rejected attempts before the recorded one). -/
theorem fsalBody_hasOrder {T : Tableau ℝ s} {p : Nat} (hT : Explicit T) (hR : RowSums T)
    (hB : OrderConditions T.A T.B p) (lib : Lib ℝ) (o : VarOptions ℝ) (hl : PowLaw lib) (ho : SaneOptions o) (ex : ℝ)
    (hex : 0 ≤ ex) (errNorm : ErrNorm ℝ n s) (b : Bound ℝ)
    (itp : Rhs ℝ n → ℝ → Py (St ℝ n 0 (FsalAux ℝ n s I)) (Ref ℝ n 0)) :
    HasOrder (fun rhs : Rhs ℝ n => ⟨⟨fsalBody lib o ex T errNorm, itp⟩, rhs, b⟩) p := by
  intro f y t₀ hf hy
  obtain ⟨C, δ, hδ, h⟩ := rk_local_error hf hy hT hR hB
  refine ⟨C, δ, hδ, fun st st' hon hst ht hx d => ?_⟩
  obtain ⟨q, K, f', -, -, hK, -, h2, -⟩ := fsalBody_records lib o hl ho ex hex T hT errNorm _
    st st' (congrArg Except.ok hon.f.symm) hst
  have e1 : st'.t = st.t + st.h * q := by simp only [St.t, h2, push_t]
  have e2 : st'.y = rkNew T (st.h * q) st.y K := by simp only [St.y, h2, push_y]
  rw [e1, add_sub_cancel_left] at hx
  rw [e1, e2, add_sub_cancel_left]
  rw [hon.y] at hK ⊢
  exact h _ _ K ht hx hK d

/-- **C65** for `Runge2`: order 2 on every smooth problem. -/
theorem C65_Runge2 (b : Bound ℝ) : HasOrder (fun rhs : Rhs ℝ n => ⟨erk Runge2, rhs, b⟩) 2 :=
  erk_hasOrder Runge2_conditions.explicit Runge2_rows Runge2_tree b

/-- **C65** for `Runge3`: order 3 on every smooth problem. -/
theorem C65_Runge3 (b : Bound ℝ) : HasOrder (fun rhs : Rhs ℝ n => ⟨erk Runge3, rhs, b⟩) 3 :=
  erk_hasOrder Runge3_conditions.explicit Runge3_rows Runge3_tree b

/-- **C65** for `Heun3`: order 3 on every smooth problem. -/
theorem C65_Heun3 (b : Bound ℝ) : HasOrder (fun rhs : Rhs ℝ n => ⟨erk Heun3, rhs, b⟩) 3 :=
  erk_hasOrder Heun3_conditions.explicit Heun3_rows Heun3_tree b

/-- **C65** for `RungeKutta4`: order 4 on every smooth problem. -/
theorem C65_RungeKutta4 (b : Bound ℝ) : HasOrder (fun rhs : Rhs ℝ n => ⟨erk RungeKutta4, rhs, b⟩) 4 :=
  erk_hasOrder RungeKutta4_conditions.explicit RungeKutta4_rows RungeKutta4_tree b

/-- **C65** for `RungeKutta3_8`: order 4 on every smooth problem. -/
theorem C65_RungeKutta3_8 (b : Bound ℝ) : HasOrder (fun rhs : Rhs ℝ n => ⟨erk RungeKutta3_8, rhs, b⟩) 4 :=
  erk_hasOrder RungeKutta3_8_conditions.explicit RungeKutta3_8_rows RungeKutta3_8_tree b

/-- **C65** for `RungeKutta23`: order 3 on every smooth problem, whatever the number of rejected attempts. -/
theorem C65_RungeKutta23 (lib : Lib ℝ) (o : VarOptions ℝ) (hl : PowLaw lib) (ho : SaneOptions o) (b : Bound ℝ) :
    HasOrder (fun rhs : Rhs ℝ n => ⟨fsal lib o RungeKutta23, rhs, b⟩) 3 :=
  fsalBody_hasOrder RungeKutta23_conditions.explicit RungeKutta23_rows RungeKutta23_tree lib o hl ho _
    (by simp [RungeKutta23, q]) _ b _

/-- **C65** for `RungeKutta45`: order 5 on every smooth problem, whatever the number of rejected attempts. -/
theorem C65_RungeKutta45 (lib : Lib ℝ) (o : VarOptions ℝ) (hl : PowLaw lib) (ho : SaneOptions o) (b : Bound ℝ) :
    HasOrder (fun rhs : Rhs ℝ n => ⟨fsal lib o RungeKutta45, rhs, b⟩) 5 :=
  fsalBody_hasOrder RungeKutta45_conditions.explicit RungeKutta45_rows RungeKutta45_tree lib o hl ho _
    (by simp [RungeKutta45, q]) _ b _

/-! ### Error estimates of the embedded pairs -/

theorem estimate_order {T : Tableau ℝ s} {E : Fin (s + 2) → ℝ} {p : Nat} (hT : Explicit T) (hR : RowSums T)
    (hB : ∑ j, T.B j = 1) (hE : ∀ τ : Tree, τ.order ≤ p → ∑ i, E i * τ.weight (withLast T).A i = 0) :
    EstimateOrder (n := n) T E p := fun _ _ _ hf hy =>
  rk_local_estimate hf hy.self_of_nhds.continuousAt (withLast_explicit hT) (withLast_rows hR hB) hE

/-- **C65**, the estimate of `RungeKutta23` has order 2: it is `O(h^3)`. -/
theorem C65_RungeKutta23_estimate : EstimateOrder (n := n) (RungeKutta23 : FsalCoef ℝ 2 3).toTableau
    (RungeKutta23 : FsalCoef ℝ 2 3).E 2 :=
  estimate_order RungeKutta23_conditions.explicit RungeKutta23_rows
    (by have := RungeKutta23_conditions (α := ℝ).quad 0 (by norm_num); simpa using this) RungeKutta23_tree_estimate

/-- **C65**, the estimate of `RungeKutta45` has order 4: it is `O(h^5)`. -/
theorem C65_RungeKutta45_estimate : EstimateOrder (n := n) (RungeKutta45 : FsalCoef ℝ 5 4).toTableau
    (RungeKutta45 : FsalCoef ℝ 5 4).E 4 :=
  estimate_order RungeKutta45_conditions.explicit RungeKutta45_rows
    (by have := RungeKutta45_conditions (α := ℝ).quad 0 (by norm_num); simpa using this) RungeKutta45_tree_estimate

end Nbkode
