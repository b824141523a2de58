import Verif.Spec.Dense

/-!
What the dense output of a solver is asked for after a call that raised.
-/

set_option autoImplicit false

namespace Nbkode.Spec
open Nbkode

variable {α : Type}
variable [Add α] [Sub α] [Mul α] [Div α] [Neg α] [Zero α] [One α] [NatCast α] [BEq α]
variable [LT α] [DecidableLT α] [LE α] [DecidableLE α]
variable {n k : Nat} {X : Type}

/-- What `interpolate(t)` gives in the state `s`: the values, the exception, or nothing if it does not end. -/
def denseAt (S : Solver α n k X) (t : α) (s : St α n k X) : Option (Except Err (Vec α n)) :=
  ((S.interpolate t).run s).map fun p => p.1.map fun r => r.deref p.2.cache

/-- The dense output of a solver is the same in two states. -/
def SameDense (S : Solver α n k X) (s s' : St α n k X) : Prop := ∀ t, denseAt S t s' = denseAt S t s

end Nbkode.Spec

namespace Nbkode.Spec
open Nbkode

variable {α : Type} [Field α] [LinearOrder α] [BEq α] {n s d : Nat}

/-- At every time of the last step `interpolate` returns `y_old + h * sum_j (sum_i P_ij k_i) x^(j+1)`, `x = (t - t_old) / h`,
with the stages `k_i` of that step. -/
def DenseOfLastStep (lib : Lib α) (o : VarOptions α) (c : FsalCoef α s d) (rhs : Rhs α n) (b : Bound α)
    (st : St α n 0 (FsalAux α n s (RkItp α n d))) : Prop :=
  ∃ K, LastStages c.toTableau rhs st.cache K ∧
    ∀ t, st.cache.ts (Buffer.iPrev 0) ≤ t → t < st.t →
      denseAt ⟨fsal lib o c, rhs, b⟩ t st = some (.ok fun i => st.cache.ys (Buffer.iPrev 0) i +
        (st.t - st.cache.ts (Buffer.iPrev 0)) * ∑ j : Fin d, (∑ m, c.P m j * K m i) *
          ((t - st.cache.ts (Buffer.iPrev 0)) / (st.t - st.cache.ts (Buffer.iPrev 0))) ^ (j.val + 1))

/-- DOP853: whatever values `interpolate` gives at a time inside the last step are those of its seventh-order formula, with the
stages `k_i` of that step and the three further ones. -/
def DopDenseOfLastStep (lib : Lib α) (o : VarOptions α) (c : DopCoef α) (rhs : Rhs α n) (b : Bound α)
    (st : St α n 0 (FsalAux α n 11 (DopItp α n))) : Prop :=
  ∃ K, LastStages c.toTableau rhs st.cache K ∧
    ∀ t, st.cache.ts (Buffer.iPrev 0) < t → t < st.t →
      ∀ v, denseAt ⟨dop853 lib o c, rhs, b⟩ t st = some (.ok v) →
        ∃ Kx, ExtraStages c.toDopDense rhs st.cache K Kx ∧ ∀ i,
          let h := st.t - st.cache.ts (Buffer.iPrev 0)
          let x := (t - st.cache.ts (Buffer.iPrev 0)) / h
          let dy := st.y i - st.cache.ys (Buffer.iPrev 0) i
          let D := fun m => h * ∑ j, c.D m j * Kx j i
          v i = st.cache.ys (Buffer.iPrev 0) i + x * (dy + (1 - x) *
            (h * st.cache.fs (Buffer.iPrev 0) i - dy + x * (2 * dy - h * (st.f i + st.cache.fs (Buffer.iPrev 0) i) +
              (1 - x) * (D 0 + x * (D 1 + (1 - x) * (D 2 + x * D 3))))))

end Nbkode.Spec
