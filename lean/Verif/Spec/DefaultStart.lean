import Verif.Spec.MultistepError
import Verif.Model.Construct
import Verif.Model.Tableaux

/-!
# Multistep solvers started with a variable-step class, over the real numbers
-/

set_option autoImplicit false

namespace Nbkode.Spec
open Nbkode

variable {n p : Nat}

/-- RungeKutta23 or RungeKutta45 as the starter of a multistep method: `first_stepper_cls(rhs, t, y)`, with neither `h` nor
`first_step` (`nbkode/multistep/core.py:60-62`). RungeKutta45 is the default (`FIRST_STEPPER_CLS`,
`nbkode/multistep/core.py:15`). `sel` is SciPy's `select_initial_step`; `gs`, `K` and `I` are what the arrays of the starter hold
before they are written. -/
noncomputable def fsalStarter {s d : Nat} (lib : Lib ℝ) (o : VarOptions ℝ) (c : FsalCoef ℝ s d)
    (sel : Rhs ℝ n → ℝ → Vec ℝ n → Vec ℝ n → Except Err ℝ) (gs : Buffer ℝ n 0) (K : Fin (s + 2) → Vec ℝ n) (I : RkItp ℝ n d) :
    Starter ℝ n :=
  .variable (fsal lib o c) fun rhs t y => fsalInit c.P o sel gs K I rhs t y none none

/-- The first step chosen automatically is positive. -/
def SelectsPositive (sel : Rhs ℝ n → ℝ → Vec ℝ n → Vec ℝ n → Except Err ℝ) : Prop :=
  ∀ rhs t y f h, sel rhs t y f = .ok h → 0 < h

/-- The automatic first step exists and is positive. -/
def Selects (sel : Rhs ℝ n → ℝ → Vec ℝ n → Vec ℝ n → Except Err ℝ) : Prop := ∀ rhs t y f, ∃ h, sel rhs t y f = .ok h ∧ 0 < h

/-- Convergence of order `q` of solvers constructed at the time `t₀`: if `f` is `q` times continuously differentiable and
`y' = f(t, y)` on an open interval around `[t₀, T]`, then every sequence of steps of every solver constructed for `f`, `t₀`, `y(t₀)`
with a small enough `h` stays within `C * h^q` of `y` up to `T`. -/
def StartConvergesFrom (t₀ : ℝ) (init : Constructor n p) (cls : Rhs ℝ n → Solver ℝ n (histExtra p) Unit) (q : Nat) : Prop :=
  ∀ (f : ℝ → Vec ℝ n → Vec ℝ n) (y : ℝ → Vec ℝ n) (a b T : ℝ),
    ContDiff ℝ q (joint f) → a < t₀ → t₀ < T → T < b → (∀ t ∈ Set.Ioo a b, SolvesAt f y t) →
    ∃ C δ, 0 < δ ∧ ∀ (h : ℝ) (s s' : St ℝ n (histExtra p) Unit) (l : List (St ℝ n (histExtra p) Unit)) (lim : Bound ℝ),
      0 < h → h ≤ δ → init (pureRhs f) t₀ (y t₀) h = some (.ok s) → Path (cls (pureRhs f)) lim s l s' →
      ∀ u ∈ l, u.t ≤ T → ∀ d, |u.y d - y u.t d| ≤ C * h ^ q

/-- The same for methods which solve an equation in each step with a root finder with tolerance `tol`. -/
def StartConvergesWithinFrom (t₀ : ℝ) (init : Constructor n p) (cls : ZeroOpts ℝ → Rhs ℝ n → Solver ℝ n (histExtra p) Unit)
    (q : Nat) : Prop :=
  ∀ (f : ℝ → Vec ℝ n → Vec ℝ n) (y : ℝ → Vec ℝ n) (a b T L : ℝ),
    ContDiff ℝ q (joint f) → a < t₀ → t₀ < T → T < b → (∀ t ∈ Set.Ioo a b, SolvesAt f y t) →
    (∀ t u v, (∀ d, |f t u d - f t v d| ≤ L * ‖(u - v : Fin n → ℝ)‖)) →
    ∃ C δ, 0 < δ ∧ ∀ zo, RootOpts zo →
      ∀ (h : ℝ) (s s' : St ℝ n (histExtra p) Unit) (l : List (St ℝ n (histExtra p) Unit)) (lim : Bound ℝ),
      0 < h → h ≤ δ → init (pureRhs f) t₀ (y t₀) h = some (.ok s) → Path (cls zo (pureRhs f)) lim s l s' →
      ∀ u ∈ l, u.t ≤ T → ∀ d, |u.y d - y u.t d| ≤ C * (h ^ q + zo.tol / h)

end Nbkode.Spec
