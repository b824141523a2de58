import Verif.Spec.Stepping

/-!
# Vocabulary for `run`
-/

set_option autoImplicit false

namespace Nbkode.Spec
open Nbkode Solver

/-- `ndx` is an answer `np.argsort(ts)` may give: a permutation of the indices that sorts `ts`. Which of the
permutations is returned for equal entries is left open. -/
structure IsArgsort {α : Type} [LE α] (ts : List α) (ndx : List Nat) : Prop where
  perm : ndx.Perm (List.range ts.length)
  sorted : (ndx.filterMap fun i => ts[i]?).Pairwise (· ≤ ·)

variable {α : Type} [Add α] [LT α] [DecidableLT α] {n k : Nat} {X : Type}

/-- `Reach S b ti s s'`: stepping on from `s`, each step fitting below `b`, `s'` is the first state whose time is not
before `ti`. -/
inductive Reach (S : Solver α n k X) (b : Bound α) (ti : α) : St α n k X → St α n k X → Prop
  | here {s : St α n k X} : ¬ s.t < ti → Reach S b ti s s
  | step {s s1 s2 : St α n k X} : s.t < ti → Fits b s → Takes S s s1 → Reach S b ti s1 s2 →
      Reach S b ti s s2

/-- `Stuck S b ti s s'`: stepping on from `s`, `s'` is still before `ti` but its next step does not fit below `b`. -/
inductive Stuck (S : Solver α n k X) (b : Bound α) (ti : α) : St α n k X → St α n k X → Prop
  | here {s : St α n k X} : s.t < ti → ¬ Fits b s → Stuck S b ti s s
  | step {s s1 s2 : St α n k X} : s.t < ti → Fits b s → Takes S s s1 → Stuck S b ti s1 s2 →
      Stuck S b ti s s2

/-- All requested times lie within `[oldest recorded time, t_bound]`. -/
def InRange [LE α] (S : Solver α n k X) (s : St α n k X) (ts : List α) : Prop :=
  ∀ x ∈ ts, s.cache.ts (Buffer.iOld k) ≤ x ∧ NotBeyond S.tBound x

/-- The recorded times are in order, oldest first. -/
def Ordered [LE α] (s : St α n k X) : Prop :=
  ∀ i j : Fin (k + 2), i ≤ j → s.cache.ts i ≤ s.cache.ts j

end Nbkode.Spec
