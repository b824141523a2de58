import Verif.Spec.Adaptive
import Mathlib.Analysis.SpecialFunctions.Pow.Real

/-!
# The steps of SciPy's RK23, RK45 and DOP853

`docs/migration.rst` replaces `RK23`, `RK45` and `DOP853` of `scipy.integrate` by `RungeKutta23`, `RungeKutta45` and `DOP853`. This is what
`RungeKutta._step_impl` of `scipy/integrate/_ivp/rk.py` does in exact arithmetic, integrating forward with the default `max_step`. SciPy also
raises the step size to at least ten spacings of the floating-point numbers at the current time; that is zero here.
-/

set_option autoImplicit false

namespace Nbkode.Spec.SciPy
open Nbkode

variable {n s : Nat}

/-- The size that is tried: `h_abs`, or what is left to `t_bound`. -/
noncomputable def clip (b : Bound ℝ) (t h : ℝ) : ℝ :=
  match b with
  | .fin T => if T < t + h then T - t else h
  | .inf => h

/-- `scale = atol + np.maximum(np.abs(y), np.abs(y_new)) * rtol`. -/
noncomputable def scale (rtol atol : ℝ) (y yNew : Vec ℝ n) : Vec ℝ n := fun i => atol + max |y i| |yNew i| * rtol

/-- `norm(x) = np.linalg.norm(x) / x.size ** 0.5`. -/
noncomputable def norm (x : Vec ℝ n) : ℝ := Real.sqrt (∑ i, x i ^ 2) / (n : ℝ) ^ (1 / 2 : ℝ)

/-- The error norm of an attempt, as a function of the size, the stages, the new and the old state. -/
def Norm (n s : Nat) : Type := ℝ → (Fin (s + 2) → Vec ℝ n) → Vec ℝ n → Vec ℝ n → ℝ

/-- `_estimate_error_norm` of `RK23` and `RK45`. -/
noncomputable def errorNorm (rtol atol : ℝ) (E : Fin (s + 2) → ℝ) : Norm n s :=
  fun h K yNew y => norm fun d => (∑ j, K j d * E j) * h / scale rtol atol y yNew d

/-- `_estimate_error_norm` of `DOP853`. -/
noncomputable def errorNorm853 (rtol atol : ℝ) (E3 E5 : Fin (s + 2) → ℝ) : Norm n s :=
  fun h K yNew y =>
    let e5 := ∑ d, ((∑ j, K j d * E5 j) / scale rtol atol y yNew d) ^ 2
    let e3 := ∑ d, ((∑ j, K j d * E3 j) / scale rtol atol y yNew d) ^ 2
    if e5 = 0 ∧ e3 = 0 then 0 else |h| * e5 / Real.sqrt ((e5 + 1 / 100 * e3) * n)

/-- `SAFETY * error_norm ** error_exponent` with `error_exponent = -1 / (error_estimator_order + 1)`. -/
noncomputable def factor (order : ℕ) (en : ℝ) : ℝ := 9 / 10 * en ^ (-1 / ((order : ℝ) + 1))

/-- One step: `Step … rejected h size K next` if, with `h` the current size and `rejected` telling whether an attempt of this step was
rejected before, the attempt that is accepted in the end has the size `size` and the stages `K`, and the size kept for the next step is `next`. -/
inductive Step (T : Tableau ℝ s) (nrm : Norm n s) (order : ℕ) (f : Rhs ℝ n) (b : Bound ℝ) (t : ℝ) (y : Vec ℝ n) :
    Bool → ℝ → ℝ → (Fin (s + 2) → Vec ℝ n) → ℝ → Prop
  | accept {rejected : Bool} {h size en q : ℝ} {K : Fin (s + 2) → Vec ℝ n} :
      size = clip b t h → RKStages (withLast T) f t size y K → en = nrm size K (proposal T size y K) y → en < 1 →
      q = (if en = 0 then 10 else min 10 (factor order en)) →
      Step T nrm order f b t y rejected h size K (size * if rejected then min 1 q else q)
  | reject {rejected : Bool} {h size en size' next : ℝ} {K K' : Fin (s + 2) → Vec ℝ n} :
      size = clip b t h → RKStages (withLast T) f t size y K → en = nrm size K (proposal T size y K) y → ¬ en < 1 →
      Step T nrm order f b t y true (size * max (1 / 5) (factor order en)) size' K' next →
      Step T nrm order f b t y rejected h size' K' next

/-- A run of SciPy's `solver.step()`: the points it visits from `(t, y)` with the size `h`. -/
inductive Visits (T : Tableau ℝ s) (nrm : Norm n s) (order : ℕ) (f : Rhs ℝ n) (b : Bound ℝ) : ℝ → Vec ℝ n → ℝ → List (ℝ × Vec ℝ n) → Prop
  | done {t h : ℝ} {y : Vec ℝ n} : Visits T nrm order f b t y h []
  | step {t h size next : ℝ} {y : Vec ℝ n} {K : Fin (s + 2) → Vec ℝ n} {l : List (ℝ × Vec ℝ n)} :
      Step T nrm order f b t y false h size K next → Visits T nrm order f b (t + size) (proposal T size y K) next l →
      Visits T nrm order f b t y h ((t + size, proposal T size y K) :: l)

/-- The coefficients of SciPy's `RK23`: `A`, `B`, `C`. -/
noncomputable def RK23 : Tableau ℝ 2 where
  A := ![![0, 0, 0], ![1/2, 0, 0], ![0, 3/4, 0]]
  B := ![2/9, 1/3, 4/9]
  C := ![0, 1/2, 3/4]

/-- `RK23.E`. -/
noncomputable def RK23E : Fin 4 → ℝ := ![5/72, -1/12, -1/9, 1/8]

/-- The coefficients of SciPy's `RK45`: `A`, `B`, `C`. -/
noncomputable def RK45 : Tableau ℝ 5 where
  A := ![![0, 0, 0, 0, 0, 0], ![1/5, 0, 0, 0, 0, 0], ![3/40, 9/40, 0, 0, 0, 0], ![44/45, -56/15, 32/9, 0, 0, 0],
    ![19372/6561, -25360/2187, 64448/6561, -212/729, 0, 0], ![9017/3168, -355/33, 46732/5247, 49/176, -5103/18656, 0]]
  B := ![35/384, 0, 500/1113, 125/192, -2187/6784, 11/84]
  C := ![0, 1/5, 3/10, 4/5, 8/9, 1]

/-- `RK45.E`. -/
noncomputable def RK45E : Fin 7 → ℝ := ![-71/57600, 0, 71/16695, -71/1920, 17253/339200, -22/525, 1/40]

/-- `RkDenseOutput`: `y_old + h * np.dot(Q, [x, x**2, ...])` with `Q = K.T.dot(P)` and `x = (t - t_old) / h`, for the step from `t_old` to
`t_new`. -/
noncomputable def dense {d : Nat} (P : Fin (s + 2) → Fin d → ℝ) (tOld tNew : ℝ) (yOld : Vec ℝ n) (K : Fin (s + 2) → Vec ℝ n) (t : ℝ) : Vec ℝ n :=
  fun i => yOld i + (tNew - tOld) * ∑ j : Fin d, (∑ m, K m i * P m j) * ((t - tOld) / (tNew - tOld)) ^ (j.val + 1)

/-- `RK23.P`. -/
noncomputable def RK23P : Fin 4 → Fin 3 → ℝ := ![![1, -4/3, 5/9], ![0, 1, -2/3], ![0, 4/3, -8/9], ![0, -1, 1]]

/-- `RK45.P`. -/
noncomputable def RK45P : Fin 7 → Fin 4 → ℝ :=
  ![![1, -8048581381/2820520608, 8663915743/2820520608, -12715105075/11282082432],
    ![0, 0, 0, 0],
    ![0, 131558114200/32700410799, -68118460800/10900136933, 87487479700/32700410799],
    ![0, -1754552775/470086768, 14199869525/1410260304, -10690763975/1880347072],
    ![0, 127303824393/49829197408, -318862633887/49829197408, 701980252875/199316789632],
    ![0, -282668133/205662961, 2019193451/616988883, -1453857185/822651844],
    ![0, 40617522/29380423, -110615467/29380423, 69997945/29380423]]

end Nbkode.Spec.SciPy
