# Formal model of numbakit-ode in Lean 4

## 1. Trusted base

* **Kernel.** Lean 4.33.0's kernel. No axioms are added; there is no `sorry`, `admit`, `native_decide` or `bv_decide`.
  Closed finite facts inside proofs (coefficients of a tableau, one concrete witness) are evaluated by the kernel
  (`decide +kernel`, `norm_num`).
* **Axioms of each theorem** (`#print axioms`): at most `propext`, `Classical.choice` and `Quot.sound`, Lean's own.
  Section 6 lists the theorems which need fewer.
* **The reading of /repo** into `lean/Verif/Model/*.lean`. Every definition there cites file and lines. This is the
  part a reviewer has to check against the code; section 4 says what is covered and section 5 what is simplified.
* **The statements**: `lean/Verif/Props/*.lean` (theorems `Cnn_…`) and the vocabulary they use, `lean/Verif/Spec/*.lean`.
  Proofs and helper lemmas are in `lean/Verif/Proofs/*.lean` and need not be read.
* Mathlib definitions used in statements (fields, orders, `ℝ`, `Finset.sum`, `Polynomial`, `List.Perm`, ...).

## 2. Shape of the model

* **Numbers.** The executable model is generic over a number type `α` with *lawless* operation classes (`Add`, `Mul`,
  `LT`, ...). Control-flow properties (splitting, bounds bookkeeping, history, exceptions, aliasing, registry) are
  proved with no arithmetic laws, or with a linear order only, so they also cover floating-point numbers as far as
  their comparisons are linear. Properties that are about mathematics (orders, dense output, grid, step sizes) are
  proved over an arbitrary linearly ordered field, or `ℝ`; they do not speak about rounding. C84-C88 do: they instantiate `α` with the machine numbers of an
  arbitrary order-keeping rounding (`Spec/Rounded.lean`), of which IEEE double precision (nearest, ties to even, gradual
  underflow, no overflow) is one.
* **Effects.** A Python call is `σ → Option (Except Err A × σ)`: `none` is divergence, an exception keeps the mutated
  state. `while` loops are `partial_fixpoint` definitions, so nothing is assumed terminating (C64 is about
  termination). The user's right-hand side may raise at any evaluation.
* **Arrays.** Fixed-size arrays are functions on `Fin n`; the history has `k+2` slots because classes with
  `LEN_HISTORY < 2` are refused when they are defined. Values that alias the history (`cache.ys[i]`) are explicit
  references (`Ref.row i`), dereferenced when they are read. `Model/Memory.lean` models the API a second time with
  returned arrays as addresses in a memory, for C59 and C63.
* **External code** is a parameter: `sqrt`, `pow`, `np.linalg.solve`, `select_initial_step` (SciPy), `argsort` (any
  sorting permutation, tie-breaks unspecified), `str.lower`, `callable`. What a theorem assumes of them is a hypothesis
  of the theorem (`PowLaw`, `SqrtLaw`, `IsArgsort`, ...), met by concrete instances in `Props/RealLib.lean`.
* **Refutations.** Where the code violates the English property, there is a theorem with the negation on a concrete
  witness (`Cnn_refuted…`), and `_partial` theorems with the part that does hold. Such a property has status `partial`.


## 3. Plan and outcome per property

| id | property | modelled by | proof | status |
|---|---|---|---|---|
| C01 | Step counts can be split | `Solver.step`, `_nsteps` over an arbitrary step function | induction on `a`, monad laws | proved |
| C02 | skip is step without the output | `step`, `skip` and the four loops | erase outputs; induction, fixpoint unfolding | proved |
| C03 | step(n) records every step | `_nsteps` | induction on `n` against the iteration of steps | proved |
| C04 | step(upto_t) stops just before upto_t and not earlier | `_steps` | partial correctness of the loop against a chain of steps | proved |
| C05 | n and upto_t together stop at whichever comes first | `_nsteps(n, upto)`, `_steps` | induction on `n`, unfolding `_steps` | proved |
| C06 | A target time in the past is a no-op | guards of `step`, `skip` | case analysis, for all states | proved |
| C07 | t_bound is never crossed after construction | all API operations, all methods | every operation is a sequence of primitive moves; invariant on moves | proved |
| C08 | Reaching t_bound during step(n) | `_nsteps`, `_nskip` | induction against the iteration of steps | proved |
| C09 | step() is equivalent to step(n=1) | `step()` | false at the bound; refutation and partial | partial |
| C10 | Rejected requests leave the solver untouched | guards of `step`, `skip`, `run`, `interpolate` | case analysis, for all states | proved |
| C11 | Time moves forward | every stepper, all API operations | invariant on moves; bounds of the controller | proved |
| C12 | Fixed-step solvers walk the grid t0 + k*h and terminate | fixed-step loops | Archimedean induction, floor | proved |
| C13 | History window | `AlignedBuffer` | refinement to "the last k of a log" by induction on pushes | proved |
| C14 | f is the derivative of the current state | every stepper, constructors | invariant on moves | proved |
| C15 | A right-hand side that raises does not corrupt the solution | every stepper, all API operations | invariant on moves; steps recorded only when complete | proved |
| C16 | run answers exactly the requested times in the requested order | `run` with any `argsort` | permutation algebra on lists | proved |
| C17 | run does not care about the order of the timepoints | `run` with any `argsort` | uniqueness of sorting; refutation by a run cut short | partial |
| C18 | A solver instance remembers: run can be resumed | `_run_eval` | loop specification, split of the list of times | partial |
| C19 | run yields a state for every time up to t_bound | `_run_eval`, `t_bound` | loop specification; refutation by a concrete solver | partial |
| C20 | A time's state does not depend on what else is requested | `_run_eval` | loop specification "advance, then interpolate" | proved |
| C21 | run only fails with ValueError | `run` | exception analysis of every path; refutations | partial |
| C22 | interpolate returns recorded states at recorded times | `interpolate`, Hermite and dense outputs | case analysis, algebra; refutation with AdamsBashforth3 | partial |
| C23 | Default interpolation is cubic Hermite | `hermite` | field algebra | proved |
| C24 | RungeKutta23/45 dense output is C1 | `RkInterpolator` | algebra; coherence invariant over call histories | proved |
| C25 | DOP853 dense output is C1 | `DOP853Interpolator` | algebra; coherence invariant over call histories | proved |
| C26 | Dense output is never stale | both interpolators | coherence invariant over call histories | proved |
| C27 | Explicit Runge-Kutta steps solve the stage equations | `ERK._fixed_step`, `FSAL._fixed_step` | induction over stages | proved |
| C28 | Runge-Kutta methods have their advertised order | tableaux of all explicit classes | polynomial algebra; stages on linear problems | proved |
| C29 | Adams-Bashforth methods follow their documented formulas | `ExplicitMultistep`, coefficients | algebra over all polynomials; refutations (reversed arrays) | partial |
| C30 | Adams-Moulton methods have their advertised order | `ImplicitMultistep`, Adams–Moulton coefficients | algebra over all polynomials; refutations | partial |
| C31 | BDF methods have their advertised order | `ImplicitMultistep`, BDF coefficients | algebra over all polynomials | proved |
| C32 | An implicit step solves its equation to tolerance or raises | implicit step, `newton_hd`, `j_newton`, `secant` | loop invariants: the last iterate of Newton has a small residual; the last two iterates of the secant method are close and the secant step bounds the residual by their distance (`C32_scalar`) | proved |
| C33 | Implicit steps are exact on scalar linear problems | implicit step, secant and Newton | algebra, two iterations | proved |
| C34 | Multistep start-up history is evenly spaced | `Multistep.__init__` | induction on start-up; refutation for variable starters | partial |
| C35 | Construction respects t_bound | constructors | case analysis; refutation | partial |
| C36 | Accepted variable steps satisfy the tolerance | the rejection loop | partial correctness by fixpoint induction | proved |
| C37 | Step-size changes are bounded | `_step_update`, rejection loop | order lemmas, fixpoint induction | proved |
| C38 | max_step and min_step are honoured | options | the body does not depend on them; refutation | partial |
| C39 | The initial step can be set | constructors | case analysis; refutation | partial |
| C40 | Equilibria stay put | all steppers on `f = 0` | algebra; refutation for DOP853 (division by zero) | partial |
| C41 | Events trigger exactly on sign changes in the requested direction | `Event.evaluate` | case analysis of the sign tests | proved |
| C42 | Event times are ordered and bracketed | `Event`, `EventHandler`, run loop | invariant over a run | proved |
| C43 | Event location is accurate | `bisect`, `Event.evaluate` | loop invariant; intermediate value theorem | proved |
| C44 | A terminal event stops the run at its step | `_run_eval_events` | loop specification; refutations | partial |
| C45 | The earliest terminal event wins | `EventHandler.evaluate` | case analysis; refutation | partial |
| C46 | Watching does not disturb | run loops with and without events | simulation of the two loops | partial |
| C47 | All requested points before the terminal event are returned | `_run_eval_events` | loop specification; refutation | partial |
| C48 | Events work with timepoints already passed | `run_events` | case analysis; refutation | partial |
| C49 | y_events holds the solution at t_events | `Event.evaluate`, references | case analysis; refutation | partial |
| C50 | Event search never fails | `bisect`, event loop | totality of the search for two-point histories; refutation | partial |
| C51 | CaseInsensitiveDict behaves as a map on lower-cased keys | `CaseInsensitiveDict` and the mixin methods | refinement to a map of lower-cased keys | proved |
| C52 | get_solvers filters | `get_solvers`, `check` | invariant of the registry, list lemmas | proved |
| C53 | The implicit filter means implicit | `IMPLICIT`, `check` | kernel evaluation of the package registry, case analysis; refutation | partial |
| C54 | Registration is checked and atomic | `__init_subclass__` | invariant over histories of class definitions; refutations | partial |
| C55 | get_solver is case-insensitive | `get_solver` | invariant of the registry | proved |
| C56 | newton reports convergence truthfully | `newton`, `j_newton` | induction on iterations | proved |
| C57 | newton_hd returns only points with small residual | `newton_hd` | induction on iterations, linear algebra | proved |
| C58 | Numba-free mode decorators are identities | `numbasub` decorators | case analysis on call forms; refutation | partial |
| C59 | Returned arrays are snapshots | memory model | frame invariant on addresses; refutation for `step()` | partial |
| C60 | list_solvers and get_groups list everything once | `list_solvers`, `get_groups` | invariant of the registry | proved |
| C61 | dir(nbkode) lists the solvers defined so far | `__dir__` | state machine; refutation (the first answer is kept) | partial |
| C62 | nbkode.<name> finds solvers and warns about aliases | `__getattr__` | case analysis over the registry | proved |
| C63 | The caller's time array is not modified | memory model | frame invariant on addresses | proved |
| C64 | Every call comes back | all API operations, all methods | progress measure per step, shrinking steps; for linear growth, a Gronwall bound on the states reached by a given time; refutations (NaN, singularity, blow-up of y' = y^2) | partial |
| C65 | One step has the advertised order on every smooth problem | the step functions of the ERK, FSAL and explicit multistep solvers (C27) over the real numbers | Butcher's theory with ordered rooted trees: expansion of the stages and of the exact solution in elementary differentials, uniformly in the base point (`Proofs/Trees`, `TreesRK`, `LocalError`); the order conditions of the concrete tableaux by a list of all trees proved complete (`TreeList`) and evaluated over the rationals by the kernel (`TreeConditions`). | proved |
| C66 | The methods converge with their advertised order | as C65, with `Path` (sequences of steps) | The stages are smooth functions of time, step size and state, so the increment is Lipschitz near the solution; local error uniform along [t0, T] by compactness; discrete Gronwall inequality by induction over the path, with the bound also keeping the path near the solution (`Proofs/Convergence`). | proved |
| C67 | DOP853 has order 8 up to the rounding of its coefficients | the coefficient tables of DOP853 as exact decimal fractions | As C65 with defects: 626 ordered trees checked over the rationals by the kernel; the defect enters the local error through the elementary differentials (`LocalErrorApprox`). | proved |
| C68 | run converges with the advertised order at every requested time | `Solver.run` on constructed states (`erkStarts`, `fsalStarts`), dense output of each class | Continuous order conditions: the Hermite interpolant and the dense output polynomials are Runge-Kutta methods of order p-1 uniformly in theta on the tableau with the FSAL row (`DenseOrder`, `DenseTrees`), so the interpolation error is O(H^p); combined with C66 along the path which `run` takes (`RunConverges`). | proved |
| C69 | Exceptions come from your function, your arguments or a documented cause | all of `core.py` stepping and `run`, with exceptions as values | `OnlyRaises`, a predicate on computations closed under bind, loops (fixpoint induction) and calls of the right-hand side; with C64 for the totality corollaries. | proved |
| C70 | Multistep methods converge with the order their name states | `explicitMultistep`, `implicitMultistep` with the coefficients of each class | Dahlquist: consistency from `ExactOnPolynomials` by Taylor (`truncation`), zero stability of each formula (power series inverse, multiplier polynomials for BDF), discrete Gronwall along the path. The refutation runs the reversed methods on y' = 2t. | partial |
| C71 | A multistep solver constructed from an initial value converges | `multistepInit` with fixed-step starters, then C70 | The starter's first p steps have error O(h^(r+1)) (`converges_early`), so the history satisfies the hypotheses of C70. | partial |
| C72 | Implicit multistep steps succeed when the step is small | `implicitMultistep`, `jNewton`, `newtonHd`, `multistepInit` | For `5 (n+1) abs(h Bn) L ≤ 1` the residual is a perturbation of the identity: secant and Newton iterates contract by 1/4 (Proofs/Contraction), so 50 rounds suffice; the residual along the path stays bounded by C70's error bound (induction over steps). | proved |
| C73 | Step sizes are chosen by the order of the error estimate | `fsal`, `dop853`, `stepUpdate`, coefficients | The rule is read off the last attempt of the chain of attempts of C36; the lower bound by induction on that chain with the estimate's order from C65. | proved |
| C74 | Answers do not depend on the choice of variables | `Spec/Change.lean`: everything seen from the construction on (`observe`), changes of variables and what they do to answers, histories, events and calls | Two solvers run side by side (`Proofs/Relate*.lean`): a relation between their states is preserved by every primitive, loop (fixed-point induction) and API call, in both directions, so that one call ends if and only if the other does | proved |
| C75 | Uninitialised memory never reaches the user | As C74 with the identity change and different uninitialised memory | Same simulation; interpolators that were never updated are related once their first update has happened, and never read before | proved |
| C76 | Invariant subspaces and linear conservation laws | `Spec/Invariant.lean`: all states seen satisfy a predicate | Same simulation with the solver related to itself by: equal, and the state in y0 + W. Implicit: residual of Newton's method (C32) and the Cauchy-Schwarz inequality | proved |
| C77 | Backward Euler, the trapezoidal rule and BDF2 are stable on dissipative problems for every step size | implicitMultistep with newtonHd; BackwardEuler, AdamsMoulton2, BDF2; Spec/Dissipative (Euclidean length, dissipative right-hand sides) | each step solves the method's equation up to a remainder of length tol (C32). Differences of two runs then satisfy a perturbed linear recursion in an inner product space: backward Euler contracts, for the trapezoidal rule d - h/2 g contracts, for BDF2 Dahlquist's G-norm contracts; induction on the number of steps (Props/Dissipative) | proved |
| C78 | Recorded event times are those of the true solution, up to the order of the method | `Solver.run_events`, the event handler and `bisect` on constructed states; Spec/EventError (true solution, crossings) | Each record is an exact zero at a step, a small value or the end of a bracket of the dense output (C43); states and dense output are within C H^p of y (C66, C68), and g is Lipschitz near the solution. Crossings: the values at the steps change sign near z by the mean value theorem, induction along the path, then completeness of the records (C41). | proved |
| C79 | Where a run leaves the solver | `Solver.run`, `run_events`, `runEval` | Induction over the sorted times: reaching the first state not before a time and then one not before a later time is reaching the latter; interpolation does not change anything observable (`Dense`), and observational equality (`Alike`) is a simulation. | proved |
| C80 | The arguments of a constructor are the ones used | Model/Arguments.lean (calls with keyword arguments, on top of Model/Construct.lean) | The reading of each keyword is characterised by membership in the list of keywords; a call that has a reading equals the constructor of Model/Construct.lean on it, a call that has none is a TypeError; permutations of the keywords have the same readings | proved |
| C81 | run converges with the order of a multistep method at every requested time | `Solver.run` on states made by `multistepInit` with fixed-step starters; `hermiteInterp` over the whole history | Every recorded point is near the solution along a path (`Near`), the cubic over the window reproduces the Taylor polynomial of degree 3 and is stable (`hermite_error`), so the error is O(E + h^4); E from C71. Refuted for BDF5 and BDF6 beyond order 4 (y = t^4). | partial |
| C82 | Multistep solvers keep their order when constructed with the default starter | `multistepInit` with `.variable` starters (`fsalStarter`), `fsalInit`, `Solver.run` of the starter, steps of all multistep classes | From t0 = 0 the history is the dense output of the starter's first step, whose size does not depend on h, so it is within C h^2 of y and the order is min(q, 2) by C70. Refuted: order 3 for AdamsMoulton3 and BDF3-6 (y = t^5); convergence from t0 < 0 for BDF2-6 (y = t); from t0 > h the construction raises. | partial |
| C83 | Event times found with a multistep method are those of the true solution | `multistepInit` with fixed Runge-Kutta starters, `runEvents`, `buildHandler`, event search, Hermite dense output over the whole history, steps of all multistep classes | The steps and the dense output stay within C h^q of y (C71, C81), so the values of g along the dense output are close to those along y; recorded times by C43, completeness by C41 and the sign of g at the steps around z. Refuted for a given h: events before t0 + (ORDER - 1) h are never reported (C83_startup_refuted). | partial |
| C84 | Rounded arithmetic does not break order, bounds or resumability | the whole `Solver` API and every method over `Num φ`, the machine numbers of a rounding φ (`Spec/Rounded.lean`), `double` among them | The lemmas about runs and events are stated for a linear order with lawless operations and two facts about steps (`Forward`: t ≤ t' ≤ t + h, 0 < h'), which hold since rounding is monotone; then as C11, C12, C20, C24. | proved |
| C85 | The clock of a fixed-step solver in floating-point arithmetic | the same, fixed-step methods | Induction along the steps: each addition is off by at most `clockError`; counting with the first step that does not fit; termination by the rank (U - t)/(h - clockError). Refuted in double precision: t = 2^53, h = 1 never advances and `step(upto_t=2^54)` does not return; t = 0, h = 0.1, `step(upto_t=0.3)` makes two steps. | partial |
| C86 | Events in floating-point arithmetic | the same, with `runEvents`, `buildHandler`, event search and `bisect` | Loop invariants of C41-C44 over `Forward`; the midpoint of a bracket stays in it because doubling is exact, and bisection halves the bracket up to four roundings; intermediate value theorem for the last clause. | proved |
| C87 | Accuracy with rounding errors | the explicit one-step methods over `Num φ`; coefficients are quotients of rounded integers, rounded; sums run left to right | Running error analysis of stages and new state (`Close`), against the exact Runge-Kutta step from the same state, which has order p (C65); discrete Gronwall inequality on a neighbourhood of the solution in which all stages stay bounded; the rounded clock differs from t + h by a rounding, which moves the solution by a Lipschitz constant times that. | proved |
| C88 | With floating-point numbers a call with events raises only what a step raises | `runEvents`, `bisect`, the event handler and dense output over `Num φ`; `Searchable` (Spec/RoundedSearch) says what the values at the ends of a step must be | Refuted in double precision: the product of the values at the ends of the step underflows (event values of size 2^-600), the Hermite dense output at the end of a step differs from the state, and a step may leave the time unchanged. Partial: with steps that move the clock, signs kept by the dense output and products that do not underflow, the call raises nothing of its own; for the Runge-Kutta pairs the dense output ends exactly at the state. | partial |
| C89 | The error follows the tolerances | `fsalBody`, `fsalErrNorm`, `stepUpdate` over the real numbers; `ErrorFollowsTolerance`, `SharpEstimate` (Spec/Tolerance) | Refuted without a condition on the estimate: a smooth right-hand side that vanishes at the nodes of the first step is not seen and the error is as large as one likes. Partial: where the estimate is at least κ h^p along the solution, an accepted step satisfies h^p <= B (atol + rtol) by induction along the run (error so far, Lipschitz dependence of the estimate on the state), and the convergence theorem C66 with that largest step gives the bound. The estimate is sharp when the sum over trees of order p of its expansion does not vanish on the compact interval; for y' = M y + c either that holds or M^(p-1)(M y + c) = 0 along the solution and the steps and the dense output are exact. | partial |
| C90 | The work follows the tolerances | `fsalBody`, `fsalErrNorm`, `stepUpdate` over the real numbers; `StepsTo`, `Attempts`, `Affordable` (Spec/Work) | On a compact set of times and states the estimate is at most C h^(q+1) for all h below some δ (expansion in trees, uniformly near a point, then compactness); so sizes below both δ and (atol/C)^(1/(q+1)) are accepted, which bounds every size from below; induction over the steps, with the logarithm of the size as a potential for the attempts; growth bound for the states; C79 for `run`. | proved |
| C91 | The root finders converge near simple roots, newton at the documented rates | `newtonImpl`, `newtonLoop`, `secantLoop`, `jNewton`, `newton`, `newtonHd` over the real numbers; `SimpleRoot`, `SimpleRoot2`, `RegularRoot` (Spec/Roots) | Mean value estimates near the root give the three rates for one iteration; the loops keep |e| <= (C r)^(2^k) / C (3^k, fib k for the others), so the step size test holds after m iterations, and when it holds the last iterate is within twice the step of the root. For systems the Jacobian at the root is bounded below, the difference quotients are near it (mean value inequality on balls), so each update halves the error. | proved |
| C92 | The event times of RungeKutta23 and RungeKutta45 follow the tolerances | `runEvents`, `fsal` with RungeKutta23 and RungeKutta45 over the real numbers; `ZerosFollowTolerance`, `CrossingsFollowTolerance`, `MovingLinear` (Spec/EventTolerance) | C90's control of the steps by the tolerances (steps at most G (atol + rtol)^(1/p)) bounds the largest step and, with the uniform error bound of C68, how closely the solver and its interpolant track the solution; the event argument of C78 for trackers does the rest. For linear systems the first term of the estimate vanishes only at rest. | proved |
| C93 | Polynomial solutions are followed exactly, the pairs' steps grow by max_factor on them, and the documented cannon lands | `erk`, `fsal`, `run`, `runEvents` with the tableaus of explicit.py over the real numbers; `ExactUpTo`, `GrowsOn`, `CannonLands` (Spec/Polynomials) | On these problems only the bushy trees matter: the Taylor expansion of a polynomial solution is finite and the order conditions of the tableau (C66) give each of its terms, for the step, for the interpolant and for the error estimate (which is therefore zero, so the factor is max_factor). For the cannon the tracked path is the parabola itself; termination (C64, C74), the records (C41) and the ending (C44) give the landing and the apex. | proved |
| C94 | A one-step solver can be replaced by a new one constructed where it stands | All the constructors and all the calls of the API; `Call.Later`, `onward` (Spec/Restart) | A step of these methods reads only the newest row of the history and forgets the others, so two states that differ in older rows answer all later calls alike (a simulation through every loop of the API). The state with its history forgotten and the new solver are related by the simulation of C75; an invariant of sessions (step size positive, times in order, interpolator updated no later than the current time) makes it apply. The constructor succeeds because f is the derivative (C14). The multistep refutations use C34 and a computed case. | proved |
| C95 | Where the integration stops | `step`, all calls of the API, the constructors; `Stopped` (Props/Stop): step() returns None | An invariant of sessions: history rows, step size and the refusal of a step are kept by every move. The count with a fixed step is that of C12. The refutation uses the growth of the steps on polynomial solutions (C93): one step of 1/10.5 of the way, after which the proposed step is ten times as long and does not fit. | partial |
| C96 | Events are watched independently of each other | `Event.evaluate`, `handlerLoop`, `EventHandler.evaluate`, `buildHandler`, `advanceEvents`, `runEvalEvents`, `runEvents`, all interpolators | A simulation: two runs in lockstep, the second handler holding members of the first (Picked). Evaluating a member gives the same from any state that differs only in the lazily refreshed interpolator; whether the handler stops and its last event depend on the terminal members only. Fixpoint induction over the inner loop, list induction over the times. | proved |
| C97 | The right-hand side is called only at times from t0 to t_bound | All step functions, interpolators, constructors with starters, and the whole public API through `observe` | A step body and an interpolator give the same from the same state for right-hand sides equal between its old and new time (stage nodes lie in [0, 1], step sizes only shrink on rejection). Together with the invariant that the solver's last two times lie between t0 and t_bound this is a correspondence of the two solvers, and observe_rel carries it through every call. The refutation: a constructed multistep solver stands at t0 + p h with the derivative there, so a right-hand side raising there cannot have been constructed with. | partial |
| C98 | Time may be made a component of the state | Explicit Runge-Kutta and explicit multistep steps and constructors, and the whole public API through `observe` | The autonomous form agrees with the problem with an idle clock as long as the clock component equals the time; that is an invariant of every stage (nodes are row sums) and every step (weights add up to one). Leaving out the idle clock is a change of variables, for which C74 gives the answers to every call. For RungeKutta23 a right-hand side is given with an error norm of 6/5 by itself and sqrt(18/25) in autonomous form. | proved |
| C99 | RungeKutta23, RungeKutta45 and DOP853 make SciPy's steps | The steps of the variable-step classes over the reals, against `Spec/SciPy.lean`: a transcription of `RungeKutta._step_impl` of SciPy (exact arithmetic, default max_step) and of its tables for RK23 and RK45 | Induction over the attempts of a step, both ways: the two formulas for the factor agree because an accepted error norm is below one and a rejected one is not; rejected sizes shrink, so SciPy's clipping at t_bound never acts. The error norm of DOP853 is algebraically SciPy's. After a rejection a concrete right-hand side separates the two. | proved |
| C100 | Parts of a system that do not look at the rest are integrated as if they were alone | `erk`, `explicitMultistep` (with and without starter), `fsal`, `dop853` and all API calls; `Spec/Parts.lean` | The relation "the picked components agree" is kept by every operation (the machinery of C74 with a matrix that picks components). For copies the mean in the error norm is the same. A concrete pair of systems separates them for RungeKutta23. | proved |
| C101 | Nothing is reported after the end of a run | `EventHandler.evaluate`, run loop, against the steps taken | A concrete run with two events in its last step refutes it. What holds: the log of each event is a sub-list of the steps taken, one record per step, and the clock is strictly increasing, so a record after the end belongs to the last step; with one event there is none. | partial |
| C102 | Which step sizes keep the explicit fixed-step methods stable | `erk` with the five tableaus and `explicitMultistep ForwardEuler` over the reals; `Multiplies`, `StableUpTo`, `GrowsBeyond`, `TurnsBy` (Spec/Stability) | The stages of a difference are unrolled to a polynomial of h L; the spectral theorem reduces damped problems to the polynomial at the eigenvalues, monotone cubics give the exact limits; in a plane of rotation the even and odd part are orthogonal. | proved |
| C103 | Each solver behaves as if it were alone | `World`, `Act.exec`, `Passed.hold` (Model/World): several solvers of any classes, the program's arrays, and which of them a solver keeps a reference to | Induction over the program with the invariant that the parameters the solver reads are those of its construction; a program that overwrites its `params` array refutes the rest. | partial |
| C104 | An exception leaves the dense output as it was | `fsalBody`, `rkInterp`, `dopInterp`, `hermiteInterp`, with the stages and the interpolator's own copy kept by a failed step | For fixed-step classes the answer is a function of the recorded history. For the variable-step classes an invariant on the time at which the interpolator was brought up to date; a right-hand side that raises for t > 1 refutes the rest. | partial |
| C105 | The automatic first step suits the problem | `variableInit` with `selectInitialStep`, the version of SciPy's function that the code's eight arguments fit (before SciPy 1.11) | Case analysis on the two guesses, with the laws of real powers; the norms of copies are equal; a slow problem whose first step is longer than the interval refutes the last part. | partial |
| C106 | A region that the equations do not leave is not left by the solver | `explicitMultistep ForwardEuler`, `implicitMultistep BackwardEuler`, `erk`, `fsal`, `dop853` and `interpolate` | An invariant of the whole history for ForwardEuler (a shorter step is a convex combination) and, on scalar linear problems, BackwardEuler; for each Runge-Kutta class a family of problems, one for each step size, whose stages lead out of the region; Hermite's cubic dips below 0 between states that do not. | partial |
| C107 | Nearby problems get nearby answers | `erk`, `explicitMultistep ForwardEuler`, `fsal`, `run` and `interpolate` | Gronwall along the accepted steps, and the weights of the dense output; for the embedded pairs a right-hand side built with Lagrange interpolation puts the error of the first step at the boundary between accepting and rejecting, so that the two runs take different steps. | partial |
| C108 | Watching for events can be resumed | `runEvents`, `runEvalEvents`, `Event.evaluate`, `buildHandler` | A simulation between the loop with a handler that has records already and the loop with a new one: the same steps and roots, and the records of the former are those of the first call joined with those of the latter. | partial |
| C109 | Step sizes for which the two-step methods are stable | `explicitMultistep`, `implicitMultistep`, `AdamsBashforth2`, `AdamsMoulton3`, `BDF2` | The difference of two runs obeys a second-order linear recurrence; a positive definite quadratic form decreases (or increases) by a fixed factor in each step when the roots are inside (outside) the unit circle, and a first-order factor grows when one root is outside. | partial |
| C110 | The implicit methods are stable on stiff decays at every step size | `implicitMultistep`, `BDF1` to `BDF6`, `BackwardEuler`, `AdamsMoulton2` | The difference obeys a linear recurrence. With 1/z = 1 - w the characteristic equation is w + w^2/2 + ... = -h lam; in the closed unit disc its imaginary part vanishes only for real w, where the left side is not negative. A recurrence with all roots inside the unit circle decays: factor by factor. | proved |
| C111 | A time that is not a number is refused | `Solver.interpolate`, `run`, `step`, `skip` over any arithmetic with a value that compares false with everything (`Incomparable`) | Each guard of the calls is evaluated with NaN: only the one of `interpolate` is written so that a false comparison raises; a NaN limit never refuses a step, so the loops are those of a solver without bound. | partial |
| C112 | The units of an event function do not matter | `Solver.runEvents` with `buildHandler`, `Event.evaluate` and `bisect`, for two lists of events related value by value | Each comparison of the event code is shown to give the same result for both lists; equality of the bisections, of the evaluation of a handler, and by fixpoint induction of the loop of steps (in both directions, so that non-termination is included). | partial |
| C113 | Answers to linear problems superpose | `erk`, `explicitMultistep`, `multistepInit`, `observe` | (y, z) is integrated as one system of twice the size. By C100 its halves are what the two solvers show; a y + c z is an affine image of it in the sense of C74. | proved |
| C114 | An event that does not happen leaves no trace | `runEvents`, `runEvalEvents`, `advanceEvents`, `EventHandler.evaluate`, `Event.evaluate` | Simulation: the loop with all events and the loop with the kept ones make the same steps and the same calls of the interpolator. Two fixpoint inductions, one for each direction of termination. | proved |
| C115 | Solutions of one scalar equation do not cross | `erk`, `explicitMultistep ForwardEuler`, `Solver.run` | The stages of two solutions differ by at most a constant times the distance of the solutions, so a short step, and the dense output in it, cannot change the sign of the distance. Induction over the steps; run is reduced to the dense output of the step that reaches the time. | partial |
| C116 | A larger derivative gives a larger solution | `erk`, `explicitMultistep ForwardEuler`, step paths | What the larger derivative gains at the stages enters the step with the weights, and again, through the slope of the first right-hand side, with a factor of the step size. If all weights are positive the first part wins for short steps. Induction over the steps. If a weight is zero, a derivative that gains only at that stage loses: explicit witness for every step size. | partial |
| C117 | A component does not move faster than its derivative allows | `erk`, `explicitMultistep ForwardEuler`, `fsal`, `dop853`, step paths | A step adds its length times a mean of derivatives, with weights that are not negative and have the sum 1. Induction over the steps. For RungeKutta45 and DOP853 a polynomial in time that is positive only at the node of a negative weight is a witness against it. | partial |

## 4. What is modelled

| code | model |
|---|---|
| `nbkode/buffer.py` | `Model/Buffer.lean` (all of `AlignedBuffer`) |
| `nbkode/core.py` `Solver` (`__init__`, `t`, `y`, `f`, `_check_time`, `step`, `skip`, `run`, `run_events`, `interpolate`, `_steps`, `_nsteps`, `_skip`, `_nskip`, `_interpolate`, `_run_eval`, `_run_eval_events`, the wrapper `_step`) | `Model/Solver.lean`, `Model/Construct.lean`, again with arrays as addresses in `Model/Memory.lean`; several solvers and the arrays given to them in `Model/World.lean` |
| `nbkode/core.py` `VariableStep`, `VariableStepOptions` | `Model/Construct.lean`, `Model/Methods.lean` |
| `nbkode/core.py` `__init_subclass__`, `check`, `get_solvers`, `get_groups`, `list_solvers`, `get_solver`; `nbkode/__init__.py` `__dir__`, `__getattr__` | `Model/Registry.lean` |
| `nbkode/event_handler.py` (`Event`, `EventHandler`, `build_handler`, `event_at_sol`) | `Model/Events.lean` |
| `nbkode/multistep/*.py`, `nbkode/euler.py` | `Model/Methods.lean`, `Model/Construct.lean`, coefficients in `Model/Tableaux.lean` |
| `nbkode/runge_kutta/core.py`, `explicit.py`, `dop853_coefficients.py` (registered classes, both interpolators) | `Model/Methods.lean`, coefficients in `Model/Tableaux.lean` |
| `nbkode/nbcompat/zeros.py` (`newton`, `j_newton`, `jacobian`, `newton_hd`, `bisect`), `common.py` | `Model/Zeros.lean`, `Model/Base.lean` |
| the arguments of the constructors (defaults, keywords, copies) | `Model/Arguments.lean` |
| `nbkode/nbcompat/numbasub.py` decorators | `Model/NumbaSub.lean` |
| `nbkode/util.py` `CaseInsensitiveDict` | `Model/Util.lean` |

Every registered solver class is an instance of one of the five modelled families: `explicitMultistep`,
`implicitMultistep`, `erk`, `fsal`, `dop853`.

## 5. What is not modelled, and simplifications

* Overflow, infinities and NaN; rounding only in C84-C88. NaN occurs only in `C64_refuted_nan`. Over a field `0/0` is `0`; array divisions
  in the code give NaN there. (`_scaled_error_norm` divides by `atol + rtol*max(|y|, |y'|)`, zero only when `atol = 0`.)
* Numba compilation and typing; the stand-in decorators are modelled, Numba is not.
* Logging, the text of exceptions and warnings, documentation, the test suite, `__repr__`, `classproperty`.
* SciPy's `validate_tol`, `validate_max_step`: the documented checks. SciPy's `select_initial_step` is a parameter except in `Model/InitialStep.lean` (C105), which models the version before SciPy 1.11.
* Modules that cannot be imported (they import a missing module): `runge_kutta/implicit.py`, `linearly_implicit.py`,
  `diagonally_implicit.py`, `stabilized_explicit.py`; abstract classes without a concrete one (`Fehlberg45`).
* Memory reclamation: in `Model/Memory.lean` an address is never used twice.
* Threads and re-entrancy: a right-hand side or event function cannot call back into the solver.

## 6. Axioms

All theorems in MANIFEST.json depend on `propext`, `Classical.choice`, `Quot.sound`, except: only `propext`, `Quot.sound`: `C10_interpolate_outside`, `C13_window_of_pushes`, `C14_construction`, `C14_construction_fsal`, `C14_construction_dop853`, `C32_or_raises`, `C35_erk_partial`, `C35_fsal_partial`, `C35_dop853_partial`, `C38_max_step_partial`, `C39_erk`, `C39_fixed_step`, `C39_h_ignored`, `C39_h_ignored_fsal`, `C39_h_ignored_dop853`, `C39_refuted`, `C40_initial`, `C54_checked`, `C54_accepted`, `C54_taken`, `C55_get_solver`, `C56_jNewton`, `C56_newton`, `C56_refuses`, `C58_called_partial`, `C58_package`, `C60_list`, `C60_once`, `C61_first_partial`, `C61_frozen`, `C62_getattr`; only `propext`: `C58_bare`, `C58_refuted`.

## 7. Where the code does not do what a user relies on

Each line is a theorem about the model with the negated property.

* `step()` at `t_bound` returns `None` where `step(n=1)` raises (C09); negative `n` raises in `step`, not in `skip` (C02).
* `run` returns fewer points than asked when the last step would cross `t_bound` (C19), and then fails with
  `IndexError` if the times were out of order (C17, C18, C21); an empty list of times raises `IndexError` (C21).
* `interpolate` at inner recorded times of methods with more than two points is not the recorded state (C22), and
  event searches there can raise `ValueError` (C50).
* AdamsBashforth2–5 and AdamsMoulton4–5 apply their coefficients in reversed order (C29, C30).
* Multistep start-up with the default starter is wrong unless `t0 = 0` (C34) and ignores `t_bound` (C35): from `t0 < 0`
  BDF2-BDF6 do not converge, from `t0 > h` the construction raises, and from `t0 = 0` no method has an order above 2 (C82).
* BDF6 started with RungeKutta4 does not have order 6 (C71). The dense output of BDF5 and BDF6 has order 4 only (C81).
* Events during the start-up steps of a multistep solver are never reported (C83).
* In double precision a fixed-step solver may stop advancing and never return, and `step(upto_t=0.3)` from 0 with `h = 0.1`
  makes two steps (C85).
* In double precision a search for an event raises `ValueError` when the product of two small event values underflows (C88).
* A step may be accepted with any error when the right-hand side vanishes at the nodes of the method (C89).
* Variable-step solvers do not stop at `t_bound`, as documented, but up to a proposed step before it (C95). A multistep solver of order
  two or more cannot be replaced by one constructed where it stands (C94).
* The start-up of a multistep method evaluates the right-hand side beyond `t_bound` if it does not fit below it (C97).
* After a rejected attempt the step size may grow at once, unlike in SciPy, whose steps are otherwise the same (C99).
* Events that trigger in the last step after the terminal event are recorded, though the run has ended before (C101).
* `params` given as a contiguous array is not copied: without Numba, writing into it later changes the solver (`C103_refuted`).
* A failed step() of a variable-step method overwrites the stages; if `interpolate` was not used since the last completed step, it then gives wrong values on that step (`C104_refuted`).
* The automatic first step does not know `t_bound`: the constructor evaluates the right-hand side beyond it (`C97_refuted_fsal`, `C97_refuted_dop853`), and if the step is longer than the interval no step is ever made (`C105_refuted_fsal`, `C105_refuted_dop853`).
* Only the Euler methods respect regions that the equations do not leave: every Runge-Kutta class can step to a negative value where short steps along the derivative do not lead there, at every step size (`C106_refuted_Runge2` and the others), and interpolated values can be negative between states that are not (`C106_refuted_dense`).
* The answers of RungeKutta23 and RungeKutta45 do not depend continuously on the initial state: `interpolate` jumps by a fixed amount where the error of a step is at the boundary between accepting and rejecting (`C107_refuted_RungeKutta23`, `C107_refuted_RungeKutta45`).
* An event which occurs exactly at the time a call of `run_events` leaves the solver at is reported again by the next call (`C108_refuted`): each call builds a new event handler.
* `AdamsBashforth2` is stable on `y' = -lam y` only for `h lam < 2/3`, not `h lam < 1` as its formula is (`C109_refuted`): its coefficients are in the reverse order.
* NaN as a time is refused by `interpolate` only: `run([nan])` returns a row of NaN (`C111_refuted_run`), `step(upto_t=nan)` hangs (`C111_refuted_hangs`) and `step(n=5, upto_t=nan)` ignores `t_bound` (`C111_refuted_counted`).
* The units of an event function matter: the search for the event time stops where the value, not the time, is within `1.48e-8`, so `1e-8 * g` is located at the middle of the step (`C112_refuted`).
* With steps that are not small, solutions of one scalar equation cross: one step of `ForwardEuler` reverses the order of any two solutions of `y' = -lam y` if `h lam > 1` (`C115_refuted`). This is in the nature of the method.
* A larger derivative can give a smaller solution with `Runge2`, `Heun3` and `Runge3`, however short the step (`C116_refuted_Runge2`, `C116_refuted_Heun3`, `C116_refuted_Runge3`): each has a stage of weight zero. This is in the nature of the methods. Between the steps `run` can answer with a negative value although the derivative is never negative, with every explicit fixed-step one-step class (`C116_refuted_run`): the cubic interpolation bends below before a rise.
* `RungeKutta45`, `DOP853` and `AdamsBashforth2` to `5` can step down although the derivative is never negative (`C117_refuted_RungeKutta45`, `C117_refuted_DOP853`, `C117_refuted_AdamsBashforth`): they have negative weights. This is in the nature of the methods.
* `max_step`, `min_step` have no effect (C38); keyword `h` is ignored by variable-step solvers (C39).
* DOP853 raises `ZeroDivisionError` at an equilibrium (C40).
* With several terminal events the last listed wins (C45); requested points in the last step are dropped (C47); any
  requested time in the past makes a call with events fail (C46, C48); a recorded state may be a view that changes later
  (C49); with times out of order the terminal point may come anywhere, or `IndexError` is raised (C44).
* The `implicit` filter is inverted for multistep classes (C53); a rejected class definition may stay registered (C54);
  `dir(nbkode)` never changes after the first call (C61); `@vectorize(float64)` of the Numba stand-in is wrong (C58).
* The state returned by `step()` is a live view (C59).
* A variable-step solver hangs when the right-hand side returns NaN or blows up at the current point, and when the solution blows up before the requested time (C64). The fixed-step constructors accept `h <= 0`; `run`,
  `step(upto_t=...)` and `skip(upto_t=...)` then never return (C64).

## 8. Testing the theorems against wrong programs

`seeded/LOG.jsonl` has one line per edit of the model that a realistic bug would make: the definition, the edit, the
claim it breaks, the theorems that no longer prove, and what was tightened when one still proved.
