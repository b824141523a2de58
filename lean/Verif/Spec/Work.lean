import Verif.Spec.Controller
import Verif.Spec.LocalError
import Verif.Spec.Run

/-!
# The number of steps and attempts
-/

set_option autoImplicit false

namespace Nbkode.Spec
open Nbkode

variable {n k : Nat} {X : Type}

/-- A step of RungeKutta23 or RungeKutta45 from `u` to `v`, with the attempts `l` it makes (the last of which is accepted). Each attempt
evaluates the right-hand side once per stage. -/
def Attempts {s d : Nat} (lib : Lib ℝ) (c : FsalCoef ℝ s d) (b : Bound ℝ) (o : VarOptions ℝ) (f : ℝ → Vec ℝ n → Vec ℝ n)
    (u : St ℝ n 0 (FsalAux ℝ n s (RkItp ℝ n d))) (l : List (Tried ℝ)) (v : St ℝ n 0 (FsalAux ℝ n s (RkItp ℝ n d))) : Prop :=
  Takes ⟨fsal lib o c, pureRhs f, b⟩ u v ∧
    Trail lib o c.errorExponent c.toTableau (fun h K yN y => .ok (rmsError lib o y yN fun i => h * ∑ j, c.E j * K j i)) (pureRhs f)
      u.t u.y u.h l v.h v.aux.K

/-- `StepsTo att T s N a u`: stepping on from `s` as long as the time is before `T`, `u` is reached after `N` steps and `a` attempts. -/
inductive StepsTo (att : St ℝ n k X → List (Tried ℝ) → St ℝ n k X → Prop) (T : ℝ) : St ℝ n k X → ℕ → ℕ → St ℝ n k X → Prop
  | nil (s : St ℝ n k X) : StepsTo att T s 0 0 s
  | step {s u v : St ℝ n k X} {N a : ℕ} {l : List (Tried ℝ)} : StepsTo att T s N a u → u.t < T → att u l v →
      StepsTo att T s (N + 1) (a + l.length) v

/-- The smallest size of a step that begins with size `h`: `h` itself, or `min_factor` times a size `δ` which depends on the
problem, or `safety_factor * (atol / C)^(1/(q+1))`. -/
noncomputable def smallest (o : VarOptions ℝ) (q : ℕ) (C δ h : ℝ) : ℝ :=
  min h (min (o.minFactor * δ) (o.safetyFactor * (o.atol / C) ^ (1 / ((q : ℝ) + 1))))

/-- `N` steps and `a` attempts from time `t₀` to `T`, the first of size `h`, are not more than the tolerance asks for: the steps are at
most `1 + (T - t₀) / m` where `m` is a constant times `atol^(1/(q+1))` (or limited by `h` or the problem), and the number of rejected
attempts is at most proportional to that of the steps, up to a logarithm of `h / m`. -/
def Affordable (o : VarOptions ℝ) (q : ℕ) (C δ h t₀ T : ℝ) (N a : ℕ) : Prop :=
  (N : ℝ) ≤ 1 + max 0 (T - t₀) / smallest o q C δ h ∧
  ((a : ℝ) - N) * Real.log (1 / max o.minFactor o.safetyFactor) ≤
    N * Real.log o.maxFactor + Real.log (h / smallest o q C δ h)

/-- The work follows the tolerance while the computed states stay bounded by `R`. The constants `C` and `δ` depend on the problem only, not
on the options or on the first step. -/
def WorkWhileBounded (att : VarOptions ℝ → (ℝ → Vec ℝ n → Vec ℝ n) → St ℝ n k X → List (Tried ℝ) → St ℝ n k X → Prop) (q : ℕ) : Prop :=
  ∀ f : ℝ → Vec ℝ n → Vec ℝ n, ContDiff ℝ q (joint f) → ∀ t₀ T R : ℝ, ∃ C δ, 0 < C ∧ 0 < δ ∧ ∀ o, ShrinkingOptions o →
    ∀ s : St ℝ n k X, s.t = t₀ → s.f = f s.t s.y → 0 < s.h →
    ∀ N a u, StepsTo (fun u l v => (∀ d, |u.y d| ≤ R) ∧ att o f u l v) T s N a u → Affordable o q C δ s.h t₀ T N a

/-- The work follows the tolerance, for all right-hand sides which grow at most linearly with `y` and all initial values bounded by `R`. -/
def WorkFollowsTolerance (att : VarOptions ℝ → (ℝ → Vec ℝ n → Vec ℝ n) → St ℝ n k X → List (Tried ℝ) → St ℝ n k X → Prop) (q : ℕ) : Prop :=
  ∀ f : ℝ → Vec ℝ n → Vec ℝ n, ContDiff ℝ q (joint f) → LinearGrowth (pureRhs f) → ∀ t₀ T R : ℝ, ∃ C δ, 0 < C ∧ 0 < δ ∧
    ∀ o, ShrinkingOptions o → ∀ s : St ℝ n k X, s.t = t₀ → s.f = f s.t s.y → (∀ d, |s.y d| ≤ R) → 0 < s.h →
    ∀ N a u, StepsTo (att o f) T s N a u → Affordable o q C δ s.h t₀ T N a

/-- The work of `run` follows the tolerance: a run of a new solver which returns, asked for times of which the latest `m` is at most `T`,
leaves the solver where stepping to `m` leaves it, and these steps are affordable. -/
def RunWorkFollowsTolerance (cls : VarOptions ℝ → Rhs ℝ n → Solver ℝ n k X) (starts : VarOptions ℝ → Rhs ℝ n → ℝ → Vec ℝ n → St ℝ n k X → Prop)
    (att : VarOptions ℝ → (ℝ → Vec ℝ n → Vec ℝ n) → St ℝ n k X → List (Tried ℝ) → St ℝ n k X → Prop) (q : ℕ) : Prop :=
  ∀ f : ℝ → Vec ℝ n → Vec ℝ n, ContDiff ℝ q (joint f) → LinearGrowth (pureRhs f) → ∀ t₀ T R : ℝ, ∃ C δ, 0 < C ∧ 0 < δ ∧
    ∀ o, ShrinkingOptions o → ∀ (bo : BisectOpts ℝ) (argsort : List ℝ → List Nat), (∀ l, IsArgsort l (argsort l)) →
    ∀ (y₀ : Vec ℝ n) (s s' : St ℝ n k X) (ts : List ℝ) (m : ℝ) (out : List (ℝ × Vec ℝ n)), starts o (pureRhs f) t₀ y₀ s →
    (∀ d, |y₀ d| ≤ R) → 0 < s.h → m ∈ ts → (∀ x ∈ ts, x ≤ m) → m ≤ T →
    ((cls o (pureRhs f)).run bo argsort ts).run s = some (.ok out, s') →
    ∃ N a u, StepsTo (att o f) m s N a u ∧ s'.cache = u.cache ∧ s'.h = u.h ∧ Affordable o q C δ s.h t₀ T N a

end Nbkode.Spec
