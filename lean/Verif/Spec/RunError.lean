import Verif.Spec.LocalError
import Verif.Spec.Run
import Verif.Model.Construct

/-!
# The error of `run`, over the real numbers
-/

set_option autoImplicit false

namespace Nbkode.Spec
open Nbkode

variable {n k : Nat} {X : Type}

/-- The constructor of a fixed-step Runge-Kutta class returns `s` when it is called with `(t0, y0)` and some `h`. -/
def erkStarts {s : Nat} (rhs : Rhs ℝ n) (t0 : ℝ) (y0 : Vec ℝ n) (st : St ℝ n 0 (ErkAux ℝ n s)) : Prop :=
  ∃ g K h, erkInit g K rhs t0 y0 h = .ok st

/-- The constructor of `RungeKutta23` or `RungeKutta45` returns `s` when it is called with `(t0, y0)` and the options `o`. -/
def fsalStarts {s d : Nat} (c : FsalCoef ℝ s d) (o : VarOptions ℝ) (rhs : Rhs ℝ n) (t0 : ℝ) (y0 : Vec ℝ n)
    (st : St ℝ n 0 (FsalAux ℝ n s (RkItp ℝ n d))) : Prop :=
  ∃ sel g K itp h first, fsalInit c.P o sel g K itp rhs t0 y0 h first = .ok st

/-- The constructor of `ForwardEuler`, a multistep method with a history of one step, returns `s` when it is called with
`(t0, y0)` and some `h`. -/
def eulerStarts (rhs : Rhs ℝ n) (t0 : ℝ) (y0 : Vec ℝ n) (st : St ℝ n (histExtra 0) Unit) : Prop :=
  ∃ g bo argsort starter h, multistepInit g bo argsort starter rhs t0 y0 h = some (.ok st)

/-- Stepping on from `s0` below `t_bound`, every step that begins before `T` moves the clock by at most `H`. -/
def LargestStep (S : Solver ℝ n k X) (s0 : St ℝ n k X) (T H : ℝ) : Prop :=
  ∀ l u v, Path S S.tBound s0 l u → u.t < T → Takes S u v → v.t - u.t ≤ H

/-- `run` converges with order `p`: if `f` is `p` times continuously differentiable and `y' = f(t, y)` on an open interval
around `[t₀, T]`, then whatever `run` returns for a time up to `T`, on a solver just constructed at `(t₀, y t₀)`, is within
`C * H^p` of `y` at that time, where `H` bounds the steps made before `T`; `C` depends on the problem only, not on the
times requested, their number or the step sizes. -/
def RunConverges (cls : Rhs ℝ n → Solver ℝ n k X) (starts : Rhs ℝ n → ℝ → Vec ℝ n → St ℝ n k X → Prop) (p : Nat) : Prop :=
  ∀ (f : ℝ → Vec ℝ n → Vec ℝ n) (y : ℝ → Vec ℝ n) (a b t₀ T : ℝ),
    ContDiff ℝ p (joint f) → a < t₀ → T < b → (∀ t ∈ Set.Ioo a b, SolvesAt f y t) →
    ∃ C δ, 0 < δ ∧ ∀ (bo : BisectOpts ℝ) (argsort : List ℝ → List Nat), (∀ l, IsArgsort l (argsort l)) →
      ∀ (H : ℝ) (s0 s' : St ℝ n k X) (ts : List ℝ) (out : List (ℝ × Vec ℝ n)),
        starts (pureRhs f) t₀ (y t₀) s0 → 0 < s0.h → 0 ≤ H → H ≤ δ → LargestStep (cls (pureRhs f)) s0 T H →
        ((cls (pureRhs f)).run bo argsort ts).run s0 = some (.ok out, s') →
        ∀ r ∈ out, r.1 ≤ T → ∀ d, |r.2 d - y r.1 d| ≤ C * H ^ p

/-- The same for a fixed-step class, with `H` the step size `h`. -/
def RunConvergesFixed (cls : Rhs ℝ n → Solver ℝ n k X) (starts : Rhs ℝ n → ℝ → Vec ℝ n → St ℝ n k X → Prop) (p : Nat) :
    Prop :=
  ∀ (f : ℝ → Vec ℝ n → Vec ℝ n) (y : ℝ → Vec ℝ n) (a b t₀ T : ℝ),
    ContDiff ℝ p (joint f) → a < t₀ → T < b → (∀ t ∈ Set.Ioo a b, SolvesAt f y t) →
    ∃ C δ, 0 < δ ∧ ∀ (bo : BisectOpts ℝ) (argsort : List ℝ → List Nat), (∀ l, IsArgsort l (argsort l)) →
      ∀ (s0 s' : St ℝ n k X) (ts : List ℝ) (out : List (ℝ × Vec ℝ n)),
        starts (pureRhs f) t₀ (y t₀) s0 → 0 < s0.h → s0.h ≤ δ →
        ((cls (pureRhs f)).run bo argsort ts).run s0 = some (.ok out, s') →
        ∀ r ∈ out, r.1 ≤ T → ∀ d, |r.2 d - y r.1 d| ≤ C * s0.h ^ p

end Nbkode.Spec
