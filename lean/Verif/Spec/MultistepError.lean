import Verif.Spec.LocalError
import Verif.Spec.Multistep

/-!
# Stability and convergence of multistep methods, over the real numbers
-/

set_option autoImplicit false

namespace Nbkode.Spec
open Nbkode

variable {n p : Nat}

/-- Zero-stability: every sequence with `x_(m+p+1) + sum_i A_(p-i) x_(m+p-i) = 0` for all `m` is bounded. -/
def ZeroStable (c : MultistepCoef ℝ p) : Prop :=
  ∀ x : ℕ → ℝ, (∀ m, x (m + p + 1) + ∑ i : Fin (p + 1), c.A i.rev * x (m + p - i) = 0) → ∃ B, ∀ m, |x m| ≤ B

/-- The history of the solver follows `y` on the even grid `t, t - h, ...`, as far back as `p` steps, within `E`; the recorded
derivatives are those of the recorded states. -/
structure Follows (f : ℝ → Vec ℝ n → Vec ℝ n) (y : ℝ → Vec ℝ n) (E : ℝ) (s : St ℝ n (histExtra p) Unit) : Prop where
  times : ∀ i ≤ p, ago s.cache.ts i = s.t - i * s.h
  states : ∀ i ≤ p, ∀ d, |ago s.cache.ys i d - y (s.t - i * s.h) d| ≤ E
  derivs : ∀ i ≤ p, ago s.cache.fs i = f (s.t - i * s.h) (ago s.cache.ys i)

/-- Convergence of order `q` of a multistep method: if `f` is `q` times continuously differentiable and `y' = f(t, y)` on an open
interval around `[t₀, T]`, then every sequence of steps from a history which follows `y` within `E` stays within
`C * (E + h^q)` of `y` up to `T`; `C` depends on the problem only, neither on `h` nor on the number of steps. -/
def MultistepConverges (cls : Rhs ℝ n → Solver ℝ n (histExtra p) Unit) (q : Nat) : Prop :=
  ∀ (f : ℝ → Vec ℝ n → Vec ℝ n) (y : ℝ → Vec ℝ n) (a b t₀ T : ℝ),
    ContDiff ℝ q (joint f) → a < t₀ → T < b → (∀ t ∈ Set.Ioo a b, SolvesAt f y t) →
    ∃ C δ, 0 < δ ∧ ∀ (E : ℝ) (s s' : St ℝ n (histExtra p) Unit) (l : List (St ℝ n (histExtra p) Unit)) (lim : Bound ℝ),
      0 < s.h → s.h ≤ δ → E ≤ δ → t₀ ≤ s.t - p * s.h → Follows f y E s → Path (cls (pureRhs f)) lim s l s' →
      ∀ u ∈ l, u.t ≤ T → ∀ d, |u.y d - y u.t d| ≤ C * (E + s.h ^ q)

/-- Options of the root finder: a positive distance of the first two secant points, a tolerance `tol ≥ 0`, no relative tolerance.
The code has `1e-4`, `1.48e-8` and `0`. -/
def RootOpts (zo : ZeroOpts ℝ) : Prop := 0 < zo.secantEps ∧ 0 ≤ zo.tol ∧ zo.rtol = 0

/-- In several components the root finder takes difference quotients over `2 jacEps`. -/
def WorkingOpts (zo : ZeroOpts ℝ) : Prop := RootOpts zo ∧ zo.jacEps ≠ 0

/-- The same for methods which solve an equation in each step with a root finder with tolerance `tol`; `f` has to be Lipschitz in
`y`. The constants `C` and `δ` do not depend on the tolerance. -/
def ConvergesWithin (cls : ZeroOpts ℝ → Rhs ℝ n → Solver ℝ n (histExtra p) Unit) (q : Nat) : Prop :=
  ∀ (f : ℝ → Vec ℝ n → Vec ℝ n) (y : ℝ → Vec ℝ n) (a b t₀ T L : ℝ),
    ContDiff ℝ q (joint f) → a < t₀ → T < b → (∀ t ∈ Set.Ioo a b, SolvesAt f y t) →
    (∀ t u v, (∀ d, |f t u d - f t v d| ≤ L * ‖(u - v : Fin n → ℝ)‖)) →
    ∃ C δ, 0 < δ ∧ ∀ zo, RootOpts zo →
      ∀ (E : ℝ) (s s' : St ℝ n (histExtra p) Unit) (l : List (St ℝ n (histExtra p) Unit)) (lim : Bound ℝ),
      0 < s.h → s.h ≤ δ → t₀ ≤ s.t - p * s.h → Follows f y E s → Path (cls zo (pureRhs f)) lim s l s' →
      ∀ u ∈ l, u.t ≤ T → ∀ d, |u.y d - y u.t d| ≤ C * (E + s.h ^ q + zo.tol / s.h)

/-- What a constructor does with a right-hand side, an initial time, an initial state and a step size. -/
abbrev Constructor (n p : Nat) := Rhs ℝ n → ℝ → Vec ℝ n → ℝ → Option (Except Err (St ℝ n (histExtra p) Unit))

/-- Convergence of order `q` of constructed solvers: if `f` is `q` times continuously differentiable and `y' = f(t, y)` on an open
interval around `[t₀, T]`, then every sequence of steps of every solver constructed for `f`, `t₀`, `y(t₀)` with a small enough
`h` stays within `C * h^q` of `y` up to `T`. -/
def StartConverges (init : Constructor n p) (cls : Rhs ℝ n → Solver ℝ n (histExtra p) Unit) (q : Nat) : Prop :=
  ∀ (f : ℝ → Vec ℝ n → Vec ℝ n) (y : ℝ → Vec ℝ n) (a b t₀ T : ℝ),
    ContDiff ℝ q (joint f) → a < t₀ → t₀ < T → T < b → (∀ t ∈ Set.Ioo a b, SolvesAt f y t) →
    ∃ C δ, 0 < δ ∧ ∀ (h : ℝ) (s s' : St ℝ n (histExtra p) Unit) (l : List (St ℝ n (histExtra p) Unit)) (lim : Bound ℝ),
      0 < h → h ≤ δ → init (pureRhs f) t₀ (y t₀) h = some (.ok s) → Path (cls (pureRhs f)) lim s l s' →
      ∀ u ∈ l, u.t ≤ T → ∀ d, |u.y d - y u.t d| ≤ C * h ^ q

/-- The same for methods which solve an equation in each step with a root finder with tolerance `tol`. -/
def StartConvergesWithin (init : Constructor n p) (cls : ZeroOpts ℝ → Rhs ℝ n → Solver ℝ n (histExtra p) Unit) (q : Nat) : Prop :=
  ∀ (f : ℝ → Vec ℝ n → Vec ℝ n) (y : ℝ → Vec ℝ n) (a b t₀ T L : ℝ),
    ContDiff ℝ q (joint f) → a < t₀ → t₀ < T → T < b → (∀ t ∈ Set.Ioo a b, SolvesAt f y t) →
    (∀ t u v, (∀ d, |f t u d - f t v d| ≤ L * ‖(u - v : Fin n → ℝ)‖)) →
    ∃ C δ, 0 < δ ∧ ∀ zo, RootOpts zo →
      ∀ (h : ℝ) (s s' : St ℝ n (histExtra p) Unit) (l : List (St ℝ n (histExtra p) Unit)) (lim : Bound ℝ),
      0 < h → h ≤ δ → init (pureRhs f) t₀ (y t₀) h = some (.ok s) → Path (cls zo (pureRhs f)) lim s l s' →
      ∀ u ∈ l, u.t ≤ T → ∀ d, |u.y d - y u.t d| ≤ C * (h ^ q + zo.tol / h)

/-- Every step of an implicit method succeeds up to `T`, and the values are those of a method of order `q`, as soon as `h`, the
error `E` of the history and `tol / h` are small; how small does not depend on the tolerance. The tolerance has to be at least
`h^48`, since the root finder stops after 50 iterations. -/
def SucceedsWithin (cls : ZeroOpts ℝ → Rhs ℝ n → Solver ℝ n (histExtra p) Unit) (q : Nat) : Prop :=
  ∀ (f : ℝ → Vec ℝ n → Vec ℝ n) (y : ℝ → Vec ℝ n) (a b t₀ T L : ℝ),
    ContDiff ℝ q (joint f) → a < t₀ → T < b → (∀ t ∈ Set.Ioo a b, SolvesAt f y t) →
    (∀ t u v, (∀ d, |f t u d - f t v d| ≤ L * ‖(u - v : Fin n → ℝ)‖)) →
    ∃ C δ, 0 < δ ∧ ∀ zo, WorkingOpts zo → ∀ (E : ℝ) (s : St ℝ n (histExtra p) Unit),
      0 < s.h → s.h ≤ δ → s.h ^ 48 ≤ zo.tol → zo.tol / s.h ≤ δ → E ≤ δ → t₀ ≤ s.t - p * s.h → Follows f y E s →
      ∀ m : ℕ, s.t + m * s.h ≤ T → ∃ l s', l.length = m ∧ Path (cls zo (pureRhs f)) .inf s l s' ∧
        ∀ u ∈ l, ∀ d, |u.y d - y u.t d| ≤ C * (E + s.h ^ q + zo.tol / s.h)

/-- The same from the construction on. -/
def StartSucceedsWithin (init : Constructor n p) (cls : ZeroOpts ℝ → Rhs ℝ n → Solver ℝ n (histExtra p) Unit) (q : Nat) : Prop :=
  ∀ (f : ℝ → Vec ℝ n → Vec ℝ n) (y : ℝ → Vec ℝ n) (a b t₀ T L : ℝ),
    ContDiff ℝ q (joint f) → a < t₀ → t₀ < T → T < b → (∀ t ∈ Set.Ioo a b, SolvesAt f y t) →
    (∀ t u v, (∀ d, |f t u d - f t v d| ≤ L * ‖(u - v : Fin n → ℝ)‖)) →
    ∃ C δ, 0 < δ ∧ ∀ zo, WorkingOpts zo → ∀ h : ℝ, 0 < h → h ≤ δ → h ^ 48 ≤ zo.tol → zo.tol / h ≤ δ →
      ∃ s, init (pureRhs f) t₀ (y t₀) h = some (.ok s) ∧ s.t = t₀ + p * h ∧
        ∀ m : ℕ, s.t + m * h ≤ T → ∃ l s', l.length = m ∧ Path (cls zo (pureRhs f)) .inf s l s' ∧
          ∀ u ∈ l, ∀ d, |u.y d - y u.t d| ≤ C * (h ^ q + zo.tol / h)

end Nbkode.Spec
