{"id": "C01", "title": "Step counts can be split", "statement": "step(n=a+b) has exactly the effect of step(n=a) followed by step(n=b): same final solver, the returned arrays are the concatenation, and if t_bound is reached the same RuntimeError leaves the same solver behind.", "quantifier": "every solver class, right-hand side (including ones that raise), solver state, bound and a, b >= 0; any number arithmetic, IEEE included", "why_tests_cant": "The test-suite itself doubts it (TODO in test_solver.py); tests sample a few a, b on one linear equation.", "anchors": ["nbkode/core.py:Solver.step", "nbkode/core.py:Solver._nsteps"]}
{"id": "C02", "title": "skip is step without the output", "statement": "For all argument combinations with n >= 0, skip(n=, upto_t=) leaves the solver in exactly the state step(n=, upto_t=) would, raises exactly when step raises and with the same exception, and diverges exactly when step does.", "quantifier": "every solver, right-hand side, state, bound, n and upto_t; any arithmetic", "why_tests_cant": "Two independent loops implement the two calls; equality must hold on every path including the early exits and exceptions.", "anchors": ["nbkode/core.py:Solver.skip", "nbkode/core.py:Solver.step", "nbkode/core.py:Solver._skip", "nbkode/core.py:Solver._nskip", "nbkode/core.py:Solver._steps", "nbkode/core.py:Solver._nsteps"]}
{"id": "C03", "title": "step(n) records every step", "statement": "When step(n=k) succeeds it returns exactly k times and k states, and the i-th pair is (t, y) of the solver after i+1 single integration steps; the last pair is the solver's current (t, y).", "quantifier": "every solver, right-hand side, state, k", "why_tests_cant": "Index bookkeeping in a preallocated array must be right for all k and all states.", "anchors": ["nbkode/core.py:Solver.step", "nbkode/core.py:Solver._nsteps"]}
{"id": "C04", "title": "step(upto_t) stops just before upto_t and not earlier", "statement": "When step(upto_t=u) returns, no recorded time is beyond u, every recorded point is one integration step after the previous one, and the next step would have gone beyond u.", "quantifier": "every solver, right-hand side, state and u; any arithmetic", "why_tests_cant": "Maximality is a claim about the step that was not taken, for every u relative to the grid.", "anchors": ["nbkode/core.py:Solver.step", "nbkode/core.py:Solver._steps"]}
{"id": "C05", "title": "n and upto_t together stop at whichever comes first", "statement": "step(n=k, upto_t=u) returns the first min(k, m) points of step(upto_t=u), where m is the number of points the latter returns, and never raises RuntimeError.", "quantifier": "every solver, right-hand side, state, k, u", "why_tests_cant": "All relative positions of k, u and the grid.", "anchors": ["nbkode/core.py:Solver.step", "nbkode/core.py:Solver._nsteps"]}
{"id": "C06", "title": "A target time in the past is a no-op", "statement": "If upto_t < solver.t, step returns two empty arrays, skip returns None, for every n, and the solver does not change - even if upto_t would also be outside the bound.", "quantifier": "every solver, state, n, upto_t < t", "why_tests_cant": "Must hold for all states.", "anchors": ["nbkode/core.py:Solver.step", "nbkode/core.py:Solver.skip"]}
{"id": "C07", "title": "t_bound is never crossed after construction", "statement": "If the solver's time does not exceed t_bound after construction, then after any sequence of step, skip, run, run_events and interpolate calls with any arguments, including calls that raise, the current time still does not exceed t_bound.", "quantifier": "every registered solver kind (fixed and variable step), right-hand side, bound, and every finite history of API calls", "why_tests_cant": "Quantifies over call histories and over the variable-step controller's rejections inside a step.", "anchors": ["nbkode/core.py:Solver.__init_subclass__", "nbkode/core.py:Solver._check_time", "nbkode/runge_kutta/explicit.py:FSAL._step_builder"]}
{"id": "C08", "title": "Reaching t_bound during step(n)", "statement": "step(n=k) and skip(n=k) raise RuntimeError exactly when fewer than k steps fit below t_bound; the solver is then left after the last step that fitted (progress is kept, not rolled back).", "quantifier": "every solver, right-hand side that does not raise, state, bound, k", "why_tests_cant": "Crash-point property: what state is left behind by the exception.", "anchors": ["nbkode/core.py:Solver.step", "nbkode/core.py:Solver.skip"]}
{"id": "C09", "title": "step() is equivalent to step(n=1)", "statement": "As documented, step() and step(n=1) do the same: same effect, same returned values, same exception when t_bound is reached.", "quantifier": "every solver, right-hand side, state, bound", "why_tests_cant": "Documented equivalence over all states, including at the bound.", "anchors": ["nbkode/core.py:Solver.step"]}
{"id": "C10", "title": "Rejected requests leave the solver untouched", "statement": "A step/skip with upto_t beyond t_bound, a run with a time before the recorded history or beyond t_bound, and an interpolate outside the recorded history raise ValueError and change nothing.", "quantifier": "every solver, state, bound and argument", "why_tests_cant": "Atomicity of failure over all states and arguments.", "anchors": ["nbkode/core.py:Solver._check_time", "nbkode/core.py:Solver.run_events", "nbkode/core.py:Solver.interpolate"]}
{"id": "C11", "title": "Time moves forward", "statement": "With a positive step size every successful integration step strictly increases the time; the times returned by any step call are strictly increasing and the solver's time never decreases over any history of API calls.", "quantifier": "every solver kind, right-hand side, history of calls; exact arithmetic", "why_tests_cant": "Unbounded histories, step-size controller included.", "anchors": ["nbkode/core.py:Solver._step", "nbkode/runge_kutta/explicit.py:FSAL._fixed_step_builder", "nbkode/multistep/core.py"]}
{"id": "C12", "title": "Fixed-step solvers walk the grid t0 + k*h and terminate", "statement": "For a fixed-step solver with h > 0, step(n=k) returns the times t + h, t + 2h, ..., t + kh; step(upto_t=u) and skip(upto_t=u) terminate for every u >= t and make exactly floor((u - t)/h) steps.", "quantifier": "every fixed-step method, right-hand side that does not fail, state, h > 0, k, u; exact arithmetic", "why_tests_cant": "Termination and exact step counts for all u and h.", "anchors": ["nbkode/core.py:Solver._steps", "nbkode/multistep/core.py", "nbkode/runge_kutta/explicit.py:ERK"]}
{"id": "C13", "title": "History window", "statement": "After construction and any number of accepted steps, the solver's history is exactly the last LEN_HISTORY accepted (t, y, f) triples, oldest first and aligned across the three arrays, padded with the initial triple.", "quantifier": "every capacity >= 2, every sequence of pushed triples, any uninitialised memory", "why_tests_cant": "A shifting buffer must be right for every capacity and push sequence.", "anchors": ["nbkode/buffer.py:AlignedBuffer"]}
{"id": "C14", "title": "f is the derivative of the current state", "statement": "solver.f equals rhs(solver.t, solver.y), and the same holds for every slot of the history, after construction and after any history of API calls, for every registered method (including FSAL methods that reuse the last stage).", "quantifier": "every registered method, right-hand side, history of calls; any arithmetic", "why_tests_cant": "Unbounded histories; FSAL reuse makes it non-local.", "anchors": ["nbkode/buffer.py", "nbkode/runge_kutta/explicit.py:FSAL._step_builder", "nbkode/multistep/core.py:Multistep._step_builder"]}
{"id": "C15", "title": "A right-hand side that raises does not corrupt the solution", "statement": "If the right-hand side (or the nonlinear solver) raises in the middle of any API call, the exception propagates and the solver's history is exactly that of the last completed step.", "quantifier": "every method, every right-hand side that may raise at any evaluation, every call", "why_tests_cant": "Crash points: every possible evaluation at which the user function raises.", "anchors": ["nbkode/multistep/core.py:Multistep._step_builder", "nbkode/runge_kutta/core.py", "nbkode/runge_kutta/explicit.py"]}
{"id": "C16", "title": "run answers exactly the requested times in the requested order", "statement": "When run(t) is not cut short by t_bound it returns t itself (as floats, in the caller's order, duplicates included) and one state per requested time.", "quantifier": "every solver, state, list of times in any order with duplicates, any tie-breaking of the sort", "why_tests_cant": "All permutations and duplicate patterns, all sort tie-breaks.", "anchors": ["nbkode/core.py:Solver.run", "nbkode/core.py:Solver.run_events"]}
{"id": "C17", "title": "run does not care about the order of the timepoints", "statement": "run on a permutation of the times returns the same state for each time and leaves the solver in the same state as run on the sorted times.", "quantifier": "every solver, state, list of times, permutation", "why_tests_cant": "All permutations.", "anchors": ["nbkode/core.py:Solver.run_events"]}
{"id": "C18", "title": "A solver instance remembers: run can be resumed", "statement": "run(a) followed by run(b), where no time of b is before a time of a, returns the same as one run(a + b) and leaves the same solver.", "quantifier": "every solver, state, pair of time lists", "why_tests_cant": "Histories of calls; the second call takes the interpolation path for times already passed.", "anchors": ["nbkode/core.py:Solver.run_events", "nbkode/core.py:Solver._run_eval"]}
{"id": "C19", "title": "run yields a state for every time up to t_bound", "statement": "Every requested time that is not beyond t_bound and not before the history gets a state.", "quantifier": "every solver, bound, list of times within range", "why_tests_cant": "The code comments assert it; it depends on where the grid falls relative to t_bound.", "anchors": ["nbkode/core.py:Solver._run_eval", "nbkode/core.py:Solver._check_time"]}
{"id": "C20", "title": "A time's state does not depend on what else is requested", "statement": "In one run call the state returned for a time ti is the interpolant on the history at the first grid point not before ti, whatever other times are requested.", "quantifier": "every solver, state, list of times", "why_tests_cant": "Interleavings of requested times and grid points.", "anchors": ["nbkode/core.py:Solver._run_eval"]}
{"id": "C21", "title": "run only fails with ValueError", "statement": "As documented, run raises only ValueError (time out of range) when the right-hand side is well behaved.", "quantifier": "every solver, list of times", "why_tests_cant": "Sorted and unsorted inputs in combination with an early stop at t_bound.", "anchors": ["nbkode/core.py:Solver.run_events"]}
{"id": "C22", "title": "interpolate returns recorded states at recorded times", "statement": "interpolate(t) succeeds exactly for t within the recorded history, and at a recorded time it returns the recorded state.", "quantifier": "every solver, state, t; exact arithmetic", "why_tests_cant": "All histories and history lengths.", "anchors": ["nbkode/core.py:Solver.interpolate", "nbkode/core.py:Solver._interpolate"]}
{"id": "C23", "title": "Default interpolation is cubic Hermite", "statement": "The default interpolation between two recorded points reproduces every cubic polynomial solution exactly, matches state and derivative at both ends.", "quantifier": "every dimension, all distinct end times, all cubic polynomials, all evaluation times; exact arithmetic", "why_tests_cant": "All polynomials and all times.", "anchors": ["nbkode/core.py:Solver._interpolate"]}
{"id": "C24", "title": "RungeKutta23/45 dense output is C1", "statement": "The dense output polynomial of RungeKutta23 and RungeKutta45 starts at the old state with the old derivative and ends at the new state with the new derivative, for the stage values produced by the step.", "quantifier": "every right-hand side, state, step size; exact arithmetic", "why_tests_cant": "Algebraic identity of 28 coefficients over all stage values.", "anchors": ["nbkode/runge_kutta/explicit.py:RkInterpolator", "nbkode/runge_kutta/explicit.py:RungeKutta23", "nbkode/runge_kutta/explicit.py:RungeKutta45"]}
{"id": "C25", "title": "DOP853 dense output is C1", "statement": "The DOP853 dense output starts at the old state with the old derivative and ends at the new state with the new derivative, whatever the extra stages return.", "quantifier": "every right-hand side, state, step size, D matrix; exact arithmetic", "why_tests_cant": "All stage values.", "anchors": ["nbkode/runge_kutta/explicit.py:DOP853Interpolator"]}
{"id": "C26", "title": "Dense output is never stale", "statement": "Over any history of API calls without exceptions, dense output at a time inside the last step is computed from the stages of that last step, although the interpolator's coefficients are refreshed lazily.", "quantifier": "every right-hand side, history of calls, times queried in any order", "why_tests_cant": "Lazy refresh decided by comparing times: a cache-coherence property over all histories.", "anchors": ["nbkode/runge_kutta/explicit.py:RkInterpolator.update", "nbkode/runge_kutta/explicit.py:RkInterpolator.is_before", "nbkode/runge_kutta/explicit.py:DOP853Interpolator.update"]}
{"id": "C27", "title": "Explicit Runge-Kutta steps solve the stage equations", "statement": "One step of every explicit Runge-Kutta solver returns (t + h, y + h * sum b_i k_i) where k_i = f(t + c_i h, y + h * sum_j a_ij k_j) for all stages, independently of what the scratch array contained.", "quantifier": "every tableau with zero upper triangle, right-hand side, state, h, scratch contents; exact arithmetic", "why_tests_cant": "All tableaux and stage counts; scratch memory starts uninitialised.", "anchors": ["nbkode/runge_kutta/explicit.py:ERK._fixed_step_builder", "nbkode/runge_kutta/explicit.py:FSAL._fixed_step_builder"]}
{"id": "C28", "title": "Runge-Kutta methods have their advertised order", "statement": "Every Runge-Kutta tableau with exact rational coefficients satisfies the linear order conditions of its advertised order: it integrates y' = g(t) exactly for polynomials g of degree < p and multiplies y by the degree-p Taylor polynomial of exp (plus higher-order terms) on y' = lambda*y; for embedded pairs the error estimate vanishes to the advertised order. (General smooth problems: C65. The decimal coefficients of DOP853: C67.)", "quantifier": "all polynomials, lambda, h, y; exact arithmetic", "why_tests_cant": "All step sizes and polynomials.", "anchors": ["nbkode/runge_kutta/explicit.py"]}
{"id": "C29", "title": "Adams-Bashforth methods follow their documented formulas", "statement": "One AdamsBashforthN step computes u[n+1] = u[n] + h*(b0 f(u[n]) + b1 f(u[n-1]) + ...) as documented, and so integrates y' = g(t) exactly for polynomials of degree < N.", "quantifier": "every history, right-hand side, h; N = 1..5", "why_tests_cant": "Order of coefficients against order of the history, for all histories.", "anchors": ["nbkode/multistep/adams_bashforth.py", "nbkode/multistep/core.py:ExplicitMultistep"]}
{"id": "C30", "title": "Adams-Moulton methods have their advertised order", "statement": "The update solved by AdamsMoultonN is the N-th order Adams-Moulton formula: it is exact on polynomials of degree <= N.", "quantifier": "all polynomials, h; N = 1..5", "why_tests_cant": "Order of coefficients against order of the history.", "anchors": ["nbkode/multistep/adams_moulton.py", "nbkode/multistep/core.py:ImplicitMultistep"]}
{"id": "C31", "title": "BDF methods have their advertised order", "statement": "The equation solved by BDFk is satisfied exactly by every polynomial solution of degree <= k sampled on the grid.", "quantifier": "all polynomials of degree <= k, all t, h; k = 1..6", "why_tests_cant": "All polynomials and step sizes.", "anchors": ["nbkode/multistep/bdf.py", "nbkode/multistep/core.py:ImplicitMultistep"]}
{"id": "C32", "title": "An implicit step solves its equation to tolerance or raises", "statement": "An implicit multistep step either raises or appends a point at time t + h whose residual y - h*Bn*f(t,y) - K is small: for systems (n >= 2) its Euclidean norm is at most 1.48e-8; for one component, where the secant iteration stops when two iterates are within 1.48e-8, at most 2*(1 + |h*Bn|*L)*1.48e-8 if f is Lipschitz with constant L.", "quantifier": "every implicit method, right-hand side, history, h", "why_tests_cant": "All right-hand sides, convergent or not.", "anchors": ["nbkode/multistep/core.py:ImplicitMultistep", "nbkode/nbcompat/zeros.py:newton_hd"]}
{"id": "C33", "title": "Implicit steps are exact on scalar linear problems", "statement": "On y' = lambda*y + g(t) with 1 - h*Bn*lambda != 0, an implicit multistep step of a scalar problem yields exactly (K + h*Bn*g(t+h)) / (1 - h*Bn*lambda); for BackwardEuler this is y/(1 - h*lambda).", "quantifier": "all lambda, g, h, histories; exact arithmetic", "why_tests_cant": "All coefficients.", "anchors": ["nbkode/multistep/core.py:ImplicitMultistep", "nbkode/nbcompat/zeros.py:_newton"]}
{"id": "C34", "title": "Multistep start-up history is evenly spaced", "statement": "After constructing a multistep solver with a starting stepper, the history holds the points t0, t0+h, ..., t0+(ORDER-1)h.", "quantifier": "every t0, h, starting stepper class, multistep method", "why_tests_cant": "All t0 and starter classes; tests use t0 = 0.", "anchors": ["nbkode/multistep/core.py:Multistep.__init__"]}
{"id": "C35", "title": "Construction respects t_bound", "statement": "Constructing a solver never integrates beyond t_bound.", "quantifier": "every method, t0, h, t_bound", "why_tests_cant": "All bounds relative to the start-up steps.", "anchors": ["nbkode/multistep/core.py:Multistep.__init__"]}
{"id": "C36", "title": "Accepted variable steps satisfy the tolerance", "statement": "A variable-step step only records a point whose scaled error norm is below 1 (or exactly 0), the recorded point is the one the error was estimated for, and its time is the previous time plus the step size tried last.", "quantifier": "every right-hand side, state, options, number of rejections", "why_tests_cant": "Unbounded number of rejections.", "anchors": ["nbkode/runge_kutta/core.py:AdaptiveRungeKutta._step_update", "nbkode/runge_kutta/explicit.py:FSAL._step_builder"]}
{"id": "C37", "title": "Step-size changes are bounded", "statement": "Each attempt multiplies the step size by a factor in [min_factor, max_factor]; a rejected attempt with safety_factor <= 1 and min_factor <= 1 never enlarges it, and the step size stays positive over any history.", "quantifier": "every right-hand side, state, options, history; real arithmetic", "why_tests_cant": "Unbounded histories and rejections.", "anchors": ["nbkode/runge_kutta/core.py:AdaptiveRungeKutta._step_update"]}
{"id": "C38", "title": "max_step and min_step are honoured", "statement": "The step size of a variable-step solver never exceeds options.max_step and never falls below options.min_step.", "quantifier": "every option setting, right-hand side, history", "why_tests_cant": "Behaviour of options over all runs.", "anchors": ["nbkode/core.py:VariableStepOptions", "nbkode/runge_kutta/core.py:AdaptiveRungeKutta._step_update"]}
{"id": "C39", "title": "The initial step can be set", "statement": "The first step tried by a solver is the h (fixed) or first_step (variable) given at construction; keyword h also sets it for variable-step solvers.", "quantifier": "every solver class and value", "why_tests_cant": "All combinations of keywords.", "anchors": ["nbkode/core.py:Solver.__init__", "nbkode/core.py:VariableStep.__init__"]}
{"id": "C40", "title": "Equilibria stay put", "statement": "If the right-hand side is identically zero every solver's step succeeds and keeps y unchanged.", "quantifier": "every registered method, state, h", "why_tests_cant": "All methods and states.", "anchors": ["nbkode/runge_kutta/explicit.py", "nbkode/multistep/core.py"]}
{"id": "C41", "title": "Events trigger exactly on sign changes in the requested direction", "statement": "An event triggers on a step iff its value goes from <= 0 to >= 0 (direction > 0), from >= 0 to <= 0 (direction < 0), or either (direction 0); a strict crossing in the requested direction always triggers, a strict crossing against it never does.", "quantifier": "every event function, direction, pair of consecutive steps", "why_tests_cant": "All sign patterns and values.", "anchors": ["nbkode/event_handler.py:Event.evaluate", "nbkode/event_handler.py:build_handler"]}
{"id": "C42", "title": "Event times are ordered and bracketed", "statement": "For each event the recorded times are strictly increasing, each lies within the step on which it was detected, and each step yields at most one.", "quantifier": "every solver with h > 0, event function, run length", "why_tests_cant": "Unbounded runs.", "anchors": ["nbkode/event_handler.py:Event.evaluate", "nbkode/nbcompat/zeros.py:bisect"]}
{"id": "C43", "title": "Event location is accurate", "statement": "The located time is either a point where |event| <= 1.48e-8 on the dense output, or an end of a bracket of width (step length)/2^50 across which the event changes sign (so it contains a true zero when the event is continuous along the dense output).", "quantifier": "every event function, bracket and maxiter; exact arithmetic", "why_tests_cant": "All functions and brackets.", "anchors": ["nbkode/nbcompat/zeros.py:bisect"]}
{"id": "C44", "title": "A terminal event stops the run at its step", "statement": "run_events stops at the first step on which a terminal event triggers, and the last returned pair is that event's time and state; without a terminal trigger it returns every requested point.", "quantifier": "every solver, event list, time list", "why_tests_cant": "Unbounded runs and event lists.", "anchors": ["nbkode/core.py:Solver._run_eval_events", "nbkode/event_handler.py:EventHandler.evaluate"]}
{"id": "C45", "title": "The earliest terminal event wins", "statement": "If several terminal events trigger within one step, the run ends at the earliest of them.", "quantifier": "every list of events", "why_tests_cant": "All event orderings.", "anchors": ["nbkode/event_handler.py:EventHandler.evaluate"]}
{"id": "C46", "title": "Watching does not disturb", "statement": "Adding non-terminal events changes neither the returned times and states nor the solver's later behaviour compared with run.", "quantifier": "every solver, list of non-terminal events, times", "why_tests_cant": "Unbounded runs; event location calls the lazily refreshed interpolator.", "anchors": ["nbkode/core.py:Solver._run_eval_events", "nbkode/core.py:Solver._run_eval"]}
{"id": "C47", "title": "All requested points before the terminal event are returned", "statement": "run_events returns the state at every requested time before the terminal event.", "quantifier": "every solver, event list, times", "why_tests_cant": "All positions of times inside the final step.", "anchors": ["nbkode/core.py:Solver._run_eval_events"]}
{"id": "C48", "title": "Events work with timepoints already passed", "statement": "run_events with events accepts any in-range times, including the current time.", "quantifier": "every solver, event list, times", "why_tests_cant": "All positions of requested times.", "anchors": ["nbkode/core.py:Solver.run_events"]}
{"id": "C49", "title": "y_events holds the solution at t_events", "statement": "For each recorded event time, y_events holds the solution at that time when the caller reads it.", "quantifier": "every solver, events, run length, later calls", "why_tests_cant": "Aliasing with the live history buffer over all later steps.", "anchors": ["nbkode/event_handler.py:Event.evaluate", "nbkode/runge_kutta/explicit.py:RkInterpolator.evaluate"]}
{"id": "C50", "title": "Event search never fails", "statement": "Locating an event whose function changed sign over a step never raises.", "quantifier": "every solver with a right-hand side that does not raise, event function, history length", "why_tests_cant": "All histories.", "anchors": ["nbkode/event_handler.py:Event.evaluate", "nbkode/nbcompat/zeros.py:bisect"]}
{"id": "C51", "title": "CaseInsensitiveDict behaves as a map on lower-cased keys", "statement": "For any sequence of set/delete operations, lookup, membership, length, equality and copy agree with a plain map keyed by the lower-cased key; iteration yields each key once, in first-insertion order, with the case last used.", "quantifier": "every sequence of operations, every lower-casing function", "why_tests_cant": "Histories of operations.", "anchors": ["nbkode/util.py:CaseInsensitiveDict"]}
{"id": "C52", "title": "get_solvers filters", "statement": "get_solvers returns exactly the successfully defined solvers of the requested groups that satisfy every given filter, group by group in the order requested (all groups, each solver once, when none is requested), in order of definition within a group; the True and False halves of any filter partition the unfiltered result; an unknown group raises KeyError.", "quantifier": "every history of class definitions whose classes declare IMPLICIT and FIXED_STEP as True or False and whose step functions can be built, every group list and filter combination", "why_tests_cant": "All registries (users may register solvers) and filter combinations.", "anchors": ["nbkode/core.py:get_solvers", "nbkode/core.py:check"]}
{"id": "C53", "title": "The implicit filter means implicit", "statement": "get_solvers(implicit=True) returns exactly the implicit methods.", "quantifier": "every registered solver", "why_tests_cant": "A property of the whole class table, also for solvers users define.", "anchors": ["nbkode/multistep/core.py:Multistep.IMPLICIT", "nbkode/core.py:check"]}
{"id": "C54", "title": "Registration is checked and atomic", "statement": "Defining a solver class whose name or alias is taken (in any case) raises and leaves the registry unchanged; otherwise the class can be looked up under its name and all aliases and appears once in its group.", "quantifier": "every registry and class definition", "why_tests_cant": "All registries and name/alias combinations.", "anchors": ["nbkode/core.py:Solver.__init_subclass__"]}
{"id": "C55", "title": "get_solver is case-insensitive", "statement": "get_solver returns the class registered under the name or alias in any case and raises ValueError for anything else.", "quantifier": "every registry and name", "why_tests_cant": "All names.", "anchors": ["nbkode/core.py:get_solver"]}
{"id": "C56", "title": "newton reports convergence truthfully", "statement": "When newton/_newton reports OK, the result is a point where the function is exactly zero, or successive iterates agreed within tolerance; it never makes more than maxiter iterations; otherwise the non-OK flag (RuntimeError in j_newton) is reported.", "quantifier": "every function, derivative, start, tol, rtol, maxiter", "why_tests_cant": "All functions.", "anchors": ["nbkode/nbcompat/zeros.py:_newton", "nbkode/nbcompat/zeros.py:newton", "nbkode/nbcompat/zeros.py:j_newton"]}
{"id": "C57", "title": "newton_hd returns only points with small residual", "statement": "newton_hd either raises or returns y with ||F(y)||_2 <= atol, after at most maxiter updates (maxiter+1 when it fails); on affine systems with exact linear solves it converges after one update.", "quantifier": "every function, start, tolerance, maxiter", "why_tests_cant": "All functions.", "anchors": ["nbkode/nbcompat/zeros.py:newton_hd_impl", "nbkode/nbcompat/zeros.py:newton_hd", "nbkode/nbcompat/zeros.py:jacobian"]}
{"id": "C58", "title": "Numba-free mode decorators are identities", "statement": "With NBKODE_NONUMBA set, every decorator form used in the package (bare, called without arguments, called with keyword or positional options) returns the decorated object itself.", "quantifier": "every decorated object and every argument list", "why_tests_cant": "All call forms.", "anchors": ["nbkode/nbcompat/numbasub.py"]}
{"id": "C59", "title": "Returned arrays are snapshots", "statement": "The arrays of times and states returned by step, run and run_events hold the recorded points when returned and are not changed by later calls.", "quantifier": "every solver, later history of calls", "why_tests_cant": "Aliasing over all later histories.", "anchors": ["nbkode/core.py:Solver.step", "nbkode/buffer.py"]}
{"id": "C60", "title": "list_solvers and get_groups list everything once", "statement": "list_solvers() shows each successfully defined solver once by name and once per alias, in order of definition, and without aliases on request; get_groups() is sorted and names each group exactly once, however its members spell it.", "quantifier": "every history of class definitions", "why_tests_cant": "All registries users can build.", "anchors": ["nbkode/core.py:list_solvers", "nbkode/core.py:get_groups"]}
{"id": "C61", "title": "dir(nbkode) lists the solvers defined so far", "statement": "At any moment dir(nbkode) is sorted and consists of the helper functions and the names of the solvers defined so far.", "quantifier": "every history of class definitions and dir() calls", "why_tests_cant": "Histories: the answer is cached.", "anchors": ["nbkode/__init__.py:__dir__"]}
{"id": "C62", "title": "nbkode.<name> finds solvers and warns about aliases", "statement": "For names the module does not define itself, nbkode.<name> gives the solver of that name silently, gives the same solver with a warning when the name is an alias or spelled in another case, and raises AttributeError for every unused name.", "quantifier": "every history of class definitions and name", "why_tests_cant": "All registries and names.", "anchors": ["nbkode/__init__.py:__getattr__"]}
{"id": "C63", "title": "The caller's time array is not modified", "statement": "run and run_events leave the array of times they are given as it was, also when a terminal event replaces a requested time and when the call raises; no later call changes an array of times the caller made.", "quantifier": "every solver, time array, events, history of calls", "why_tests_cant": "Aliasing between the argument, its sorted copy and the result over all inputs and histories.", "anchors": ["nbkode/core.py:Solver.run_events", "nbkode/core.py:Solver._run_eval_events"]}
{"id": "C64", "title": "Every call comes back", "statement": "step, skip, interpolate, run and run_events end, with a value or an exception, whatever the right-hand side returns or raises; only upto_t=inf on a solver without a bound asks to go on for ever.", "quantifier": "every solver, right-hand side, state, argument and events", "why_tests_cant": "A test cannot observe that a loop ends for all inputs, nor that one never ends.", "anchors": ["nbkode/core.py:Solver._steps", "nbkode/core.py:Solver._run_eval", "nbkode/runge_kutta/explicit.py:FSAL._step", "nbkode/runge_kutta/core.py:AdaptiveRungeKutta._step_update"]}
{"id": "C65", "title": "One step has the advertised order on every smooth problem", "statement": "For ForwardEuler, Runge2, Runge3, Heun3, RungeKutta4, RungeKutta3_8, RungeKutta23 and RungeKutta45 with advertised order p: if f is p times continuously differentiable near a point of a solution y of y' = f(t, y), one step from any nearby point of y ends within C*|h|^(p+1) of y, with one constant C for all starting points near it and all small steps, whatever the number of rejected attempts. The error estimates of the pairs are O(h^3) and O(h^5).", "quantifier": "every smooth right-hand side (any dimension, time dependent), solution, starting point, step size, options; exact real arithmetic", "why_tests_cant": "All right-hand sides and step sizes; convergence plots sample a few problems.", "anchors": ["nbkode/runge_kutta/explicit.py", "nbkode/euler.py:ForwardEuler"]}
{"id": "C66", "title": "The methods converge with their advertised order", "statement": "If f is p times continuously differentiable and y solves y' = f(t, y) on an interval around [t0, T], then the states visited by any number of steps of ForwardEuler, Runge2, Runge3, Heun3, RungeKutta4, RungeKutta3_8, RungeKutta23 or RungeKutta45 from (t0, y(t0)) up to T stay within C*H^p of y, where H is the largest step and C depends on the problem only. f need not be globally Lipschitz.", "quantifier": "every smooth problem with a solution on [t0, T], every number and choice of steps below a threshold; exact real arithmetic", "why_tests_cant": "Unbounded number of steps and all problems.", "anchors": ["nbkode/runge_kutta/explicit.py", "nbkode/euler.py:ForwardEuler", "nbkode/core.py:Solver.step"]}
{"id": "C67", "title": "DOP853 has order 8 up to the rounding of its coefficients", "statement": "The decimal coefficients of DOP853 satisfy the order condition of every rooted tree with at most 8 vertices within 3e-29, the rows of A sum to the nodes within 6e-29, and the third- and fifth-order estimates vanish within 2e-29 and 5e-28; on y' = g(y) with g smooth the local error of a step is at most C*|h|^9 plus 3e-29 times the sum of |h|^|tau| times the elementary differentials of the trees tau.", "quantifier": "all rooted trees up to order 8; every smooth autonomous right-hand side, solution, starting point, step size; exact real arithmetic", "why_tests_cant": "200 order conditions and all problems; the defects are below double precision.", "anchors": ["nbkode/runge_kutta/explicit.py:DOP853", "nbkode/runge_kutta/dop853_coefficients.py"]}
{"id": "C68", "title": "run converges with the advertised order at every requested time", "statement": "If f is p times continuously differentiable and y solves y' = f(t, y) around [t0, T], then every value that run returns, on a solver just constructed at (t0, y(t0)), for a time up to T is within C*H^p of y at that time, where p is the advertised order of ForwardEuler, Runge2, Runge3, Heun3, RungeKutta4, RungeKutta3_8, RungeKutta23 or RungeKutta45, H bounds the steps (h for the fixed-step classes, first_step if max_factor <= 1), and C depends on the problem only: dense output loses nothing against the order of the method.", "quantifier": "every smooth problem, list of requested times (any order, any number), options, step size below a threshold; exact real arithmetic", "why_tests_cant": "All problems, times and numbers of steps; tests compare with a tolerance on a few problems.", "anchors": ["nbkode/core.py:Solver.run", "nbkode/core.py:Solver.interpolate", "nbkode/runge_kutta/explicit.py", "nbkode/runge_kutta/core.py"]}
{"id": "C69", "title": "Exceptions come from your function, your arguments or a documented cause", "statement": "An exception out of step, skip, interpolate or run is one the user's right-hand side raised, or ValueError for an argument out of range (negative n, a time beyond t_bound or before the history), or RuntimeError when n steps do not fit below t_bound, or IndexError from run for an empty list or for unsorted times cut by t_bound, or one of the method's own: none for explicit multistep and Runge-Kutta methods and RungeKutta23/45, failure to converge or np.linalg.solve's for implicit methods, ZeroDivisionError for DOP853. So an unbounded explicit solver on a right-hand side that does not raise answers every run.", "quantifier": "every library method, right-hand side, argument, state, history", "why_tests_cant": "The absence of an exception is over all inputs and all numbers of steps.", "anchors": ["nbkode/core.py:Solver.step", "nbkode/core.py:Solver.skip", "nbkode/core.py:Solver.interpolate", "nbkode/core.py:Solver.run", "nbkode/multistep/core.py", "nbkode/runge_kutta/core.py"]}
{"id": "C70", "title": "Multistep methods converge with the order their name states", "statement": "If f is q times continuously differentiable and y solves y' = f(t, y) around [t0, T], then any number of steps of the q-th order method, from a history of values within E of y at evenly spaced times h apart, stays within C*(E + h^q) of y up to T for all small h: ForwardEuler and AdamsBashforth1 to 5, and with an additional tol/h for the tolerance of the equation solver (and f Lipschitz in y) AdamsMoulton1 to 5 and BDF1 to 6. As coded this holds for AdamsBashforth1, AdamsMoulton1 to 3 and BDF1 to 6; AdamsBashforth2 to 5 and AdamsMoulton4, 5 converge with order 1 and not with order 2.", "quantifier": "every smooth problem with a solution on [t0, T], dimension, history, step size below a threshold, number of steps; exact real arithmetic", "why_tests_cant": "Unbounded number of steps and all problems; stability of the recursion cannot be seen from single steps.", "anchors": ["nbkode/multistep/core.py", "nbkode/multistep/adams_bashforth.py", "nbkode/multistep/adams_moulton.py", "nbkode/multistep/bdf.py"]}
{"id": "C71", "title": "A multistep solver constructed from an initial value converges", "statement": "Constructing a multistep solver at (t0, y(t0)) with step h and stepping it up to T gives values within C*h^q of the solution y (plus C*tol/h for implicit methods), where q is the order of the method and C depends on the problem only, if the missing history is made by fixed steps of a Runge-Kutta method of order q - 1 or more; ForwardEuler, BackwardEuler, AdamsMoulton2 and BDF1 need no history. With RungeKutta4 as starter: AdamsMoulton3, BDF2 to BDF5 have their own order, BDF6 has order 5, AdamsBashforth2 to 5 and AdamsMoulton4, 5 as coded have order 1.", "quantifier": "every smooth problem with a solution on [t0, T], dimension, step size below a threshold, number of steps; exact real arithmetic", "why_tests_cant": "All problems and numbers of steps; the accuracy of the starting values interacts with the order of the method.", "anchors": ["nbkode/multistep/core.py:Multistep.__init__", "nbkode/multistep/core.py", "nbkode/runge_kutta/explicit.py"]}
{"id": "C72", "title": "Implicit multistep steps succeed when the step is small", "statement": "If f is Lipschitz in y and h is small enough for it, a step of an implicit multistep solver does not raise: the equation solver finds the new value within its iteration limit, in one or several components, unless the current value misses the method's equation by an astronomical amount. Therefore, on a smooth problem y' = f(t, y), constructing AdamsMoulton1 to 5 or BDF1 to 6 at (t0, y(t0)) with a small step h (and a tolerance tol with h^48 <= tol and tol/h small) succeeds, and so does every one of the steps up to T, with values within C*(h^q + tol/h) of y, where C and the bounds on h and tol/h depend on the problem only.", "quantifier": "every Lipschitz problem, dimension, state with a bounded residual; every smooth problem with a solution on [t0, T], step size in the stated range, number of steps; exact real arithmetic with an exact linear solver", "why_tests_cant": "Convergence of the secant and Newton iterations within 50 rounds must hold for all problems and all states met during an integration of any length.", "anchors": ["nbkode/multistep/core.py:ImplicitMultistep", "nbkode/nbcompat/zeros.py:newton", "nbkode/nbcompat/zeros.py:newton_hd", "nbkode/nbcompat/zeros.py:j_newton"]}
{"id": "C73", "title": "Step sizes are chosen by the order of the error estimate", "statement": "After a step of size x whose error norm is e, RungeKutta23, RungeKutta45 and DOP853 propose x*safety/e^(1/(q+1)) for the next step, within [min_factor, max_factor] times x, where q is the order of the error estimate (2, 4 and 7); hence if e behaves like c*x^(q+1), the proposed size is the one whose error norm is safety^(q+1). Along a smooth solution, steps of RungeKutta23 and RungeKutta45 and the sizes they leave do not fall below a constant times atol^(1/3), atol^(1/5) (or the size they began with), where the constant depends on the problem and on safety_factor only.", "quantifier": "every right-hand side, state, options and accepted step; for the sizes: every smooth problem, starting point near a given one, tolerances and factors; exact real arithmetic", "why_tests_cant": "A wrong exponent still gives accepted steps within tolerance and only changes how many there are; the lower bound concerns all tolerances and all smooth problems.", "anchors": ["nbkode/runge_kutta/core.py:AdaptiveRungeKutta._step_update", "nbkode/runge_kutta/core.py:AdaptiveRungeKutta.error_exponent", "nbkode/runge_kutta/explicit.py:RungeKutta23", "nbkode/runge_kutta/explicit.py:RungeKutta45", "nbkode/runge_kutta/explicit.py:DOP853"]}
{"id": "C74", "title": "Answers do not depend on the choice of variables", "statement": "Write a problem in other variables: time in other units and counted from another origin, the state replaced by an affine image of it (such as other units, a permutation of the components, or leaving out components on which the others do not depend). If the right-hand side, the initial values, the given step size (or first_step), t_bound, the requested times, the bounds and the events are rewritten accordingly, then every call to the solver returns the same points in the new variables, raises the same exceptions, or fails to end, exactly as in the old variables. For fixed-step explicit methods (multistep ones without a starter or with a fixed-step one) this holds for every affine change; for adaptive methods for permutations, sign changes and a common rescaling with atol rescaled along; for implicit methods for changes of the time.", "quantifier": "every change of variables, right-hand side (raising or not), initial values, step size, t_bound, every sequence of calls of step, skip, interpolate, run and run_events with events, every content of uninitialised memory", "why_tests_cant": "A test compares a problem in two systems of units; the claim is about all changes of variables, problems and call sequences.", "anchors": ["nbkode/core.py:Solver.step", "nbkode/core.py:Solver.run", "nbkode/core.py:Solver.run_events", "nbkode/core.py:Solver.interpolate", "nbkode/runge_kutta/core.py", "nbkode/runge_kutta/explicit.py", "nbkode/multistep/core.py", "nbkode/event_handler.py"]}
{"id": "C75", "title": "Uninitialised memory never reaches the user", "statement": "Constructors allocate arrays without filling them (np.empty). Two solvers constructed with the same arguments give the same answers, exceptions, history and step size for every sequence of calls, whatever that memory happened to contain.", "quantifier": "every explicit Runge-Kutta, adaptive, explicit or implicit multistep method and starter, every right-hand side, initial values and call sequence, every two contents of uninitialised memory; adaptive methods with positive first step and step factors", "why_tests_cant": "Uninitialised memory is usually zero or left over from the previous test, so that a read of it goes unnoticed.", "anchors": ["nbkode/buffer.py:AlignedBuffer", "nbkode/runge_kutta/core.py:RungeKutta.__init__", "nbkode/runge_kutta/explicit.py:RkInterpolator", "nbkode/runge_kutta/explicit.py:DOP853Interpolator", "nbkode/multistep/core.py:Multistep.__init__"]}
{"id": "C76", "title": "Invariant subspaces and linear conservation laws", "statement": "If the derivative lies in a linear space W at every state of y0 + W (for instance because the total of some components is conserved, because a component is constant, or because equal components stay equal), then every state a user of an explicit method ever sees lies in y0 + W exactly: returned by step, run, run_events or interpolate, recorded for an event, or in the history. Implicit methods keep a linear conserved quantity up to the tolerance of Newton's method at every step.", "quantifier": "every subspace, right-hand side, initial values, method with its starter, t_bound, call sequence with events and uninitialised memory; for the implicit methods every system of two or more equations and number of steps", "why_tests_cant": "Conservation along a trajectory is checked in tests for one problem and a few times; it must hold for all problems and at all points, also interpolated ones.", "anchors": ["nbkode/core.py:Solver.interpolate", "nbkode/core.py:Solver.run_events", "nbkode/runge_kutta/explicit.py", "nbkode/multistep/core.py", "nbkode/event_handler.py"]}
{"id": "C77", "title": "Backward Euler, the trapezoidal rule and BDF2 are stable on dissipative problems for every step size", "statement": "For a system y' = f(t, y) whose solutions never move apart ((f(t,y) - f(t,z)) . (y - z) <= 0 for all t, y, z), two runs of BackwardEuler with the same step size h >= 0, however large, are after N successful steps at most their starting distance plus 2 N tol apart, where tol is the tolerance of Newton's method; a run is at most its starting distance plus N tol away from any equilibrium. The same holds for AdamsMoulton2 with the starting distance increased by h/2 times the distance of the starting slopes, and for BDF2 with the bound formed from its two starting points and 12 N tol. No growth in h, in the stiffness of f or in the length of the run. For a single equation with f Lipschitz in y with constant L, tol is to be replaced by 2 (1 + h b L) tol, where b is the weight of the new derivative in the formula.", "quantifier": "every dissipative right-hand side, dimension, step size, tolerance, pair of starting points, number of steps", "why_tests_cant": "Unconditional stability is a claim about all stiff problems and all step sizes; a test tries a few.", "anchors": ["nbkode/euler.py: BackwardEuler", "nbkode/multistep/adams_moulton.py: AdamsMoulton2", "nbkode/multistep/bdf.py: BDF2", "nbkode/multistep/core.py: ImplicitMultistep._step_builder", "nbkode/nbcompat/zeros.py: newton_hd"]}
{"id": "C78", "title": "Recorded event times are those of the true solution, up to the order of the method", "statement": "Let y solve y' = f(t, y), f and the event function g be smooth, and let no step made before T be longer than H. For ForwardEuler, Runge2, Runge3, Heun3, RungeKutta4, RungeKutta3_8, RungeKutta23 and RungeKutta45 (order p), every time tau < T which run_events records satisfies |g(tau, y(tau))| <= tol + C (H^p + H/2^maxiter). If g(t, y(t)) has a zero z in (c, d) and a derivative without zeros on [c, d], and the run gets to d, an event whose direction does not exclude the crossing gets a record in [c, d]; and every record in [c, d] is within C (tol + H^p + H/2^maxiter) of z. C and the bound on H depend on the problem only. For fixed-step methods H is h.", "quantifier": "every smooth problem in any dimension, smooth event function, list of events and of requested times, search options, step sizes below a threshold depending on the problem, adaptive options", "why_tests_cant": "A test compares a few event times with known ones; that no crossing is missed and no spurious one recorded for small steps is a statement about all problems and all sufficiently small steps.", "anchors": ["nbkode/core.py: Solver.run_events", "nbkode/event_handler.py:EventHandler", "nbkode/event_handler.py:Event", "nbkode/nbcompat/zeros.py: bisect", "nbkode/core.py: Solver.interpolate", "nbkode/runge_kutta/explicit.py"]}
{"id": "C79", "title": "Where a run leaves the solver", "statement": "After a run (or run_events without terminal events) that returns, the solver cannot be told apart, by its history or by any later calls, from one that was only stepped from where it stood to the first state whose time is not before the latest requested time; in particular it makes no step if it stood there already, and never one step more. If not every time was answered, it was stepped to the last state whose next step does not fit below t_bound. Its time is at or after the latest requested time exactly if every time was answered.", "quantifier": "every method, right-hand side, t_bound, history of earlier calls, list of requested times in any order, events", "why_tests_cant": "Tests compare the returned values; the state left behind matters only for later calls, of which there are infinitely many sequences.", "anchors": ["nbkode/core.py: Solver.run", "nbkode/core.py: Solver.run_events", "nbkode/core.py: Solver._run_eval", "nbkode/core.py: Solver._run_eval_events"]}
{"id": "C80", "title": "The arguments of a constructor are the ones used", "statement": "cls(rhs, t0, y0, params, **keywords): every keyword a class documents (params, h, t_bound; for variable-step classes also first_step and the seven options; for multistep classes also first_stepper_cls) takes effect with exactly the value given, and a keyword left out has its documented default; the solver (and the starter of a multistep solver) integrates rhs(t, y, params); the order of the keywords does not matter; params may be given by position or by keyword, not both. Any other call - an unknown keyword, an option of another family of solvers, params twice - is a TypeError raised before rhs is evaluated; an unknown starter is an AttributeError.", "quantifier": "every class, every set of keyword arguments in every order, every value, every right-hand side", "why_tests_cant": "There are 2^11 subsets of keywords for a variable-step class, each in every order and with every value; tests call constructors with two or three of them.", "anchors": ["nbkode/core.py:Solver.__init__", "nbkode/core.py:VariableStep.__init__", "nbkode/core.py:VariableStepOptions", "nbkode/runge_kutta/core.py:RungeKutta.__init__", "nbkode/multistep/core.py:Multistep.__init__"]}
{"id": "C81", "title": "run converges with the order of a multistep method at every requested time", "statement": "If f is q times continuously differentiable (and, for an implicit method, Lipschitz in y) and y solves y' = f(t, y) around [t0, T], then every value that run returns, on a multistep solver just constructed at (t0, y(t0)) with step size h and a fixed-step starter, for a time up to T - including times inside the start-up steps - is within C*h^q of y at that time (C*(h^q + tol/h) for an implicit method with root finder tolerance tol), where q is the order of the method and C depends on the problem only.", "quantifier": "every smooth problem, list of requested times (any order, any number), small enough step size, root finder tolerance; every multistep class; exact real arithmetic", "why_tests_cant": "All problems, times, step sizes and numbers of steps; tests compare with a tolerance on a few problems and never ask how the error shrinks.", "anchors": ["nbkode/core.py:Solver.run", "nbkode/core.py:Solver.interpolate", "nbkode/core.py:Solver._interpolate", "nbkode/multistep/core.py:Multistep.__init__", "nbkode/multistep/adams_bashforth.py", "nbkode/multistep/adams_moulton.py", "nbkode/multistep/bdf.py"]}
{"id": "C82", "title": "Multistep solvers keep their order when constructed with the default starter", "statement": "If f is smooth (and Lipschitz in y) and y solves y' = f(t, y) around [t0, T], then a multistep solver constructed at (t0, y(t0)) with step size h and without naming a first_stepper_cls (so that RungeKutta45 makes the history) is constructed without an exception, and every sequence of its steps stays within C*h^q of y up to T (C*(h^q + tol/h) for an implicit method with root finder tolerance tol), where q is the order of the method and C depends on the problem only.", "quantifier": "every initial time, smooth problem, small enough step size, number of steps, root finder tolerance, automatically selected first step and content of uninitialised arrays; every multistep class; exact real arithmetic", "why_tests_cant": "All problems, initial times, step sizes and numbers of steps; the tests pass first_stepper_cls explicitly or start at t0 = 0 and compare with a loose tolerance.", "anchors": ["nbkode/multistep/core.py:Multistep.__init__", "nbkode/multistep/core.py:Multistep.FIRST_STEPPER_CLS", "nbkode/runge_kutta/explicit.py:RungeKutta45", "nbkode/core.py:Solver.run", "nbkode/core.py:VariableStep.__init__"]}
{"id": "C83", "title": "Event times found with a multistep method are those of the true solution", "statement": "If f is q times and the event function g once continuously differentiable (and, for an implicit method, f Lipschitz in y) and y solves y' = f(t, y) around [t0, T], then on a multistep solver just constructed at (t0, y(t0)) with a small step h and a fixed-step starter, every event time tau < T that run_events reports is almost a zero of g(t, y(t)): |g(tau, y(tau))| <= tol + C*(h^q + h/2^maxiter); and every isolated simple zero z of g(t, y(t)) that the run passes is reported, at a time within C*(tol + h^q + h/2^maxiter) of z (plus tol_root/h for an implicit method), where q is the order of the method and C depends on the problem only.", "quantifier": "every smooth problem and event function, direction, list of requested times, other events, small enough step size, root finder tolerance, tolerance and number of halvings of the search; every multistep class; exact real arithmetic", "why_tests_cant": "All problems, events, step sizes and tolerances; tests check a few events of one problem at a fixed tolerance.", "anchors": ["nbkode/core.py:Solver.run_events", "nbkode/core.py:Solver._run_eval_events", "nbkode/event_handler.py:EventHandler.evaluate", "nbkode/multistep/core.py:Multistep.__init__", "nbkode/multistep/adams_bashforth.py", "nbkode/multistep/adams_moulton.py", "nbkode/multistep/bdf.py"]}
{"id": "C84", "title": "Rounded arithmetic does not break order, bounds or resumability", "statement": "With floating-point numbers in place of exact ones - any rounding which keeps order and leaves representable numbers alone, IEEE double precision in particular - a step never decreases the time nor passes t + h, the step size stays positive, no sequence of calls leads beyond t_bound, step() returns its times in order, every state run() returns is the dense output of the solver at the first step not before the requested time and does not depend on which other times were requested, and run(a) followed by run(b) returns bit for bit what run(a + b) returns.", "quantifier": "every rounding, solver class, right-hand side, session and list of times; for variable-step classes every rounding without underflow to zero; no overflow", "why_tests_cant": "All right-hand sides, step sizes and times, with the rounding of every single operation.", "anchors": ["nbkode/core.py:Solver.step", "nbkode/core.py:Solver.run", "nbkode/core.py:Solver._steps", "nbkode/core.py:Solver._run_eval", "nbkode/runge_kutta/core.py"]}
{"id": "C85", "title": "The clock of a fixed-step solver in floating-point arithmetic", "statement": "A step of a fixed-step solver advances the time by h, step(upto_t=U) makes floor((U - t)/h) steps and returns, and after any calls the time is t + m*h for the number m of steps made, up to the rounding errors of m additions.", "quantifier": "every rounding accurate to a relative error u and an absolute error eta (IEEE double precision: u = 2^-53), fixed-step class, right-hand side, session, U; no overflow", "why_tests_cant": "All times and step sizes, including those for which t + h rounds to t or m*h rounds across U.", "anchors": ["nbkode/core.py:Solver.step", "nbkode/core.py:Solver._steps", "nbkode/core.py:Solver._nsteps", "nbkode/multistep/core.py", "nbkode/runge_kutta/core.py", "nbkode/euler.py"]}
{"id": "C86", "title": "Events in floating-point arithmetic", "statement": "With rounded arithmetic, run_events records an event exactly on the steps on which its computed value goes to or through zero in the requested direction, at increasing times within these steps; each time is the end of the step, where the value is zero, or has a value below the tolerance, or is within (b - a)/2^maxiter plus a few roundings of a change of sign of the computed value, hence of a zero of any continuous function close to it; a terminal event ends the output with its time and state.", "quantifier": "every rounding accurate to a relative error u and an absolute error eta, solver class, right-hand side, clean session, list of events and times for which run_events returns; for variable-step classes no underflow to zero; no overflow", "why_tests_cant": "All events, times and tolerances with the rounding of every operation of the search.", "anchors": ["nbkode/core.py:Solver.run_events", "nbkode/core.py:Solver._run_eval_events", "nbkode/event_handler.py:Event.evaluate", "nbkode/event_handler.py:EventHandler.evaluate", "nbkode/nbcompat/zeros.py:bisect"]}
{"id": "C87", "title": "Accuracy with rounding errors", "statement": "With floating-point numbers and a right-hand side computed with an error kappa, the states a solver computes for a smooth problem stay within C*(H^p + (u + eta)/m + kappa + epsilon) of the true solution as long as it exists, where p is the order of the method, m and H the smallest and largest step, u and eta the relative and absolute rounding error and epsilon the error of the initial state. C depends on the problem only, not on the machine, the options or the number of steps.", "quantifier": "every p times continuously differentiable problem of any dimension, every rounding, every right-hand side function close to it, every sequence of steps small enough; ForwardEuler (order 1), Runge2 (2), Runge3, Heun3 (3), RungeKutta4, RungeKutta3_8 (4), RungeKutta23 (3), RungeKutta45 (5)", "why_tests_cant": "All smooth problems, roundings and step sequences; the error bound is asymptotic in the step size and in the precision together.", "anchors": ["nbkode/euler.py:ForwardEuler", "nbkode/multistep/core.py:ExplicitMultistep", "nbkode/runge_kutta/core.py:RungeKutta", "nbkode/runge_kutta/explicit.py"]}
{"id": "C88", "title": "With floating-point numbers a call with events raises only what a step raises", "statement": "A call of run with events and floating-point numbers raises an exception only if a step of the solver raises it; the search for the time of an event itself never raises and ends after at most max_iterations halvings.", "quantifier": "every rounding, method, right-hand side, event list, session before the call and requested times", "why_tests_cant": "Depends on the rounded values at the ends of every step in every run; failures need values whose product underflows, a step whose dense output ends a rounding beside the state, or a clock that does not move.", "anchors": ["nbkode/nbcompat/zeros.py:bisect", "nbkode/event_handler.py:EventHandler", "nbkode/core.py:Solver.run", "nbkode/core.py:Solver.interpolate"]}
{"id": "C89", "title": "The error follows the tolerances", "statement": "With RungeKutta23 and RungeKutta45 the error of every computed point up to a fixed time, and of every value run returns, is at most a constant times atol + rtol, where the constant depends on the problem and not on the tolerances, the number of steps or the number of rejected attempts.", "quantifier": "every smooth problem, all tolerances below a threshold, all safety and step factors, all first steps below a threshold, all sequences of steps", "why_tests_cant": "A statement about the limit of small tolerances for all smooth problems; step sizes are chosen by the solver from estimates along the run, and whether the estimate sees the error depends on the problem.", "anchors": ["nbkode/runge_kutta/core.py:_scaled_error_norm", "nbkode/runge_kutta/core.py:_step_update", "nbkode/runge_kutta/explicit.py:RungeKutta23", "nbkode/runge_kutta/explicit.py:RungeKutta45"]}
{"id": "C90", "title": "The work follows the tolerances", "statement": "With RungeKutta23 and RungeKutta45 on a smooth problem the number of steps up to a fixed time is at most 1 + (T - t0)/m, where m is the smallest of the first step, a size given by the problem and safety_factor * (atol/C)^(1/3) (1/5 for RungeKutta45), with C and that size independent of all options; and the number of rejected attempts is at most proportional to the number of steps plus a logarithm. So halving the tolerance multiplies the work by a fixed factor, and no problem makes the solver spend an unbounded number of rejections. The same holds for the steps a run makes.", "quantifier": "every right-hand side with continuous derivatives up to the order of the estimate that either grows at most linearly or keeps the computed states bounded, all tolerances, safety and step factors, all first steps, all requested times, every number of steps", "why_tests_cant": "A bound for all problems and all tolerances at once; the sizes and rejections depend on estimates along the run, so each test shows the cost of one problem with one tolerance only.", "anchors": ["nbkode/runge_kutta/core.py:_step_update", "nbkode/runge_kutta/core.py:_scaled_error_norm", "nbkode/runge_kutta/explicit.py:RungeKutta23", "nbkode/runge_kutta/explicit.py:RungeKutta45", "nbkode/core.py:Solver.run"]}
{"id": "C91", "title": "The root finders converge near simple roots, newton at the documented rates", "statement": "newton started near enough to a simple root finds it: it raises nothing, and with maxiter = m + 1 it succeeds as soon as 2/C * 2^-(2^m) <= tol with fprime (quadratic), 2/C * 2^-(3^m) <= tol with fprime and fprime2 (cubic), 2/C * 2^-fib(m+2) <= tol without derivatives (secant, with or without x1). Each iteration multiplies the error as the docstring says: |p - x| <= C |x0 - x|^2, <= C^2 |x0 - x|^3, <= C |x0 - x| |x1 - x|. The returned value is within C (2 (tol + rtol (|x| + r)))^2 of the root, the third power for Halley, and within tol + rtol (|x| + r) for the secant method. For systems newton_hd, whose Jacobian is made of difference quotients with spacing eps, started near a regular root with small eps multiplies the error in each update by at most C (error + |eps|) and at most 1/2, succeeds once C 2^-maxiter <= tol, and returns a point within C tol of the root.", "quantifier": "every function with a simple root near which its derivative (second derivative for Halley) satisfies a Lipschitz condition, every system with a regular root near which its Jacobian satisfies a Lipschitz condition, every start within a radius that depends on the function only, all tol > 0, rtol >= 0 and maxiter", "why_tests_cant": "A rate is a statement about all starting points near a root and all tolerances; a test shows a finite number of iterations on one function.", "anchors": ["nbkode/nbcompat/zeros.py:newton", "nbkode/nbcompat/zeros.py:_newton", "nbkode/nbcompat/zeros.py:j_newton", "nbkode/nbcompat/zeros.py:newton_hd"]}
{"id": "C92", "title": "The event times of RungeKutta23 and RungeKutta45 follow the tolerances", "statement": "Along a solution on which the error estimate of the pair is sharp (for example every solution of a regular linear system with constant coefficients that is not at rest), run_events with small atol, rtol and first step records for the event g only times tau with |g(tau, y(tau))| <= tol + C (atol + rtol + 2^-maxiter), where y is the true solution and tol and maxiter belong to the bisection. Every crossing of g along the true solution which the solver passes, and which the direction asked for does not exclude, is recorded, and the recorded time is within C (tol + atol + rtol + 2^-maxiter) of the true one.", "quantifier": "every right hand side with enough derivatives, every solution on which the estimate is sharp, every continuously differentiable event, all options with 0 < atol, 0 <= rtol, sane factors, small tolerances and a small first step, all requested times and all further events", "why_tests_cant": "The user chooses tolerances, not steps: that the event times inherit them holds for all tolerances below a threshold and all runs; a test fixes one tolerance and cannot see a constant.", "anchors": ["nbkode/core.py:Solver.run_events", "nbkode/event_handler.py:EventHandler.evaluate", "nbkode/runge_kutta/core.py:AdaptiveRungeKutta", "nbkode/core.py:VariableStep", "nbkode/nbcompat/zeros.py:bisect"]}
{"id": "C93", "title": "Polynomial solutions are followed exactly, the pairs' steps grow by max_factor on them, and the documented cannon lands", "statement": "On a linear problem with constant coefficients or an integration whose solution is a polynomial of degree at most the order of the method, every step of an explicit Runge-Kutta method lands on the solution whatever the step size, and run returns exact values up to the degree of the dense output. On such solutions the pairs RungeKutta23 (degree 2) and RungeKutta45 (degree 4) reject no attempt and multiply the step by max_factor every time. The example of the documentation comes out right: the cannonball thrown up from the ground at speed v under gravity g, run to a later time with the events hit_ground (terminal, direction -1) and apex, is stopped at the landing at 2v/g, the landing is recorded once and returned with the true state, and apex is recorded at v/g, all up to the tolerance of the bisection; the first step must be shorter than the flight.", "quantifier": "every polynomial solution of every such system of every dimension, every step size, every starting time, all tolerances and factors of the pairs; every speed, every gravity, every later end time and every bisection option", "why_tests_cant": "The example in the documentation is run for one speed and one gravity with one automatically chosen step; that it comes out right for all of them, and that no choice of step or tolerance disturbs a polynomial of low degree, is a statement about all inputs.", "anchors": ["docs/events.rst", "nbkode/core.py:Solver.run_events", "nbkode/event_handler.py:EventHandler.evaluate", "nbkode/runge_kutta/core.py:AdaptiveRungeKutta", "nbkode/runge_kutta/explicit.py:RungeKutta45"]}
{"id": "C94", "title": "A one-step solver can be replaced by a new one constructed where it stands", "statement": "After any sequence of calls, some of which may have raised, a one-step solver (every explicit Runge-Kutta method, RungeKutta23, RungeKutta45, DOP853, and the multistep methods of order one) can be given up for a new solver of the same class constructed from its t, y and step size (h, or first_step for the variable-step classes). That construction succeeds, and every sequence of calls that does not ask for a time at or before the current one returns or raises exactly the same with both, and leaves the same t, y, f and step size. For the multistep methods of order two and more it is false, as docs/migration.rst warns: the new solver starts at a later time, or takes a different next step.", "quantifier": "every class of one-step methods, every right-hand side (raising or not), every history of calls before, every sequence of calls after, every content of uninitialised memory", "why_tests_cant": "The claim compares two solvers over all continuations of all histories, including those that raise; a test compares a few steps after a few others.", "anchors": ["docs/migration.rst", "nbkode/core.py:Solver.__init__", "nbkode/core.py:Solver.run_events", "nbkode/core.py:Solver.interpolate", "nbkode/runge_kutta/core.py:AdaptiveRungeKutta", "nbkode/multistep/core.py:Multistep.__init__"]}
{"id": "C95", "title": "Where the integration stops", "statement": "The integration has stopped when step() returns None. It never goes on after that: no call of any kind moves the solver or changes its step size. With a fixed step it stops after exactly the steps that fit below t_bound, at or less than a step before t_bound, as documented. The documentation also says that variable-step methods stop at t_bound; that is false: they stop at a time not after t_bound and less than the proposed step before it, and with the default options that can be after a tenth of the way only.", "quantifier": "every class, right-hand side, history of calls before and after; the fixed-step count for every step size and bound; the refutation for every interval", "why_tests_cant": "That a stopped solver stays where it is ranges over all later calls; where it stops depends on the step sizes chosen on the way.", "anchors": ["nbkode/core.py:Solver", "nbkode/core.py:Solver.step", "nbkode/core.py:Solver._step", "nbkode/core.py:Solver.skip"]}
{"id": "C96", "title": "Events are watched independently of each other", "statement": "Whenever run_events returns, the same call also returns when events that are not terminal are left out, repeated or listed in another order (with at least one event left). It gives the same times and states, the same recorded times and states for each event, and leaves a solver that cannot be told apart by later calls. In particular an event watched alone has the records it has among others that are not terminal. The order of the terminal events must be kept: it decides where the run ends.", "quantifier": "every class, right-hand side, history of calls, list of events, selection from it, and list of times", "why_tests_cant": "Events share the lazily refreshed interpolator and the loop over the members; independence ranges over all lists of events and all runs.", "anchors": ["nbkode/event_handler.py:EventHandler.evaluate", "nbkode/event_handler.py:Event.evaluate", "nbkode/core.py:Solver._run_eval_events", "nbkode/core.py:Solver.run_events"]}
{"id": "C97", "title": "The right-hand side is called only at times from t0 to t_bound", "statement": "Two right-hand sides that return and raise the same at every time from t0 to t_bound, and may differ or raise elsewhere, give solvers that no sequence of calls can tell apart: construction, steps, rejected attempts, interpolation, runs and events never evaluate the right-hand side before t0 or after t_bound. It holds for the Runge-Kutta methods (the variable-step ones with a positive first_step), for the multistep methods of order one and for the others if the start-up stays below t_bound. It fails if the start-up of a multistep method passes t_bound: the constructor then evaluates the right-hand side beyond it.", "quantifier": "every pair of right-hand sides equal on the interval, every method, t0, y0, step size, t_bound not before t0, and list of calls", "why_tests_cant": "It is about where an arbitrary right-hand side is evaluated over all histories of calls, including rejected steps, root finding and interpolation.", "anchors": ["nbkode/core.py:Solver._step", "nbkode/core.py:Solver.step", "nbkode/core.py:Solver.run", "nbkode/core.py:Solver.run_events", "nbkode/runge_kutta/core.py:RungeKutta._step_builder", "nbkode/multistep/core.py:Multistep.__init__", "nbkode/runge_kutta/explicit.py:DOP853"]}
{"id": "C98", "title": "Time may be made a component of the state", "statement": "A time-dependent problem y' = f(t, y) can be given in autonomous form, (y, u)' = (f(u, y), 1) from (y0, t0). With every explicit fixed-step method (Runge2, Runge3, Heun3, RungeKutta4, RungeKutta3_8, ForwardEuler, AdamsBashforth2-5 with or without a Runge-Kutta starter of these) nothing changes: every sequence of calls, with events that do not look at the additional component, returns or raises what it does for the problem itself, with an additional component in every state. With a variable-step method it is not so: the additional component brings down the error norm, and other steps are accepted.", "quantifier": "every right-hand side, t0, y0, step size, t_bound and list of calls; every tableau whose nodes are the row sums and whose weights add up to one; every Adams-Bashforth coefficients that add up to one", "why_tests_cant": "It compares two solvers over all problems and histories of calls; it rests on the nodes of every stage being the row sums.", "anchors": ["nbkode/runge_kutta/core.py:RungeKutta._step_builder", "nbkode/runge_kutta/explicit.py:RungeKutta4", "nbkode/runge_kutta/explicit.py:Heun3", "nbkode/multistep/core.py:ExplicitMultistep", "nbkode/multistep/adams_bashforth.py:AdamsBashforth3", "nbkode/core.py:Solver.run"]}
{"id": "C99", "title": "RungeKutta23, RungeKutta45 and DOP853 make SciPy's steps", "statement": "The migration guide replaces SciPy's RK23, RK45 and DOP853 by RungeKutta23, RungeKutta45 and DOP853. From the same time, state and positive step size, a step() that fits below t_bound tries the same sizes as SciPy's solver with the same tolerances, accepts the same attempt and goes to the same point, and interpolate returns what its dense output does; the size kept for the next step is the same if no attempt was rejected. So as long as no attempt is rejected whole sequences of steps are the same. After a rejection it is not so: SciPy does not let the step size grow then, nbkode does. (DOP853 raises ZeroDivisionError where SciPy goes on, see C40.)", "quantifier": "every right-hand side, state, step size, t_bound, rtol and atol, and number of steps", "why_tests_cant": "The tests compare a few trajectories to a tolerance; this compares every attempt of every step on every problem.", "anchors": ["docs/migration.rst", "nbkode/core.py:VariableStep", "nbkode/runge_kutta/core.py:AdaptiveRungeKutta", "nbkode/runge_kutta/explicit.py:RungeKutta23", "nbkode/runge_kutta/explicit.py:RungeKutta45", "nbkode/runge_kutta/explicit.py:DOP853", "nbkode/testsuite/test_against_scipy.py"]}
{"id": "C100", "title": "Parts of a system that do not look at the rest are integrated as if they were alone", "statement": "If the derivatives of some components depend on these components (and time) only, then an explicit fixed-step solver for the whole system answers for these components exactly what a solver for them alone answers: in every call, in the recorded history, and with the same exceptions. So uncoupled systems can be integrated together, and quantities that are only accumulated can be added to a system. The variable-step methods choose their steps by all components, so this is not so for them; but several copies of a system are integrated like the system.", "quantifier": "every right-hand side, every choice of components that do not depend on the others, every initial state, step size, bound and sequence of API calls", "why_tests_cant": "It compares two runs for every pair of systems and every sequence of calls.", "anchors": ["nbkode/runge_kutta/explicit.py:ERK", "nbkode/multistep/core.py:ExplicitMultistep", "nbkode/runge_kutta/core.py:AdaptiveRungeKutta", "nbkode/core.py:Solver"]}
{"id": "C101", "title": "Nothing is reported after the end of a run", "statement": "When a terminal event ends a run_events at time T, no returned time and no recorded event time is later than T.", "quantifier": "every list of events, requested times, right-hand side and run length", "why_tests_cant": "The tests use one event at a time; this ranges over all combinations of events within the last step.", "anchors": ["nbkode/event_handler.py:EventHandler.evaluate", "nbkode/core.py:Solver.run_events", "nbkode/core.py:Solver._run_eval_events"]}
{"id": "C102", "title": "Which step sizes keep the explicit fixed-step methods stable", "statement": "On a linear problem y' = L y + g(t) each step of a fixed-step explicit one-step solver multiplies the difference of two solutions by R(h L), R the textbook stability polynomial. So on a damped problem (L symmetric with eigenvalues from -c to 0) two numerical solutions never move apart if h c is at most 2 for ForwardEuler, Runge2 and Runge3, at most 2.51 for Heun3 and 2.78 for RungeKutta4 and RungeKutta3_8, and beyond the exact limit (below 2.52 and 2.79) differences along a fast direction grow exponentially. On an undamped oscillation of frequency w ForwardEuler and Runge2 grow with every step size, Runge3 grows if (h w)^2 < 2, Heun3 does not grow if (h w)^2 <= 3, RungeKutta4 and RungeKutta3_8 if (h w)^2 <= 8.", "quantifier": "every dimension, linear map L, forcing g, initial values, step size and number of steps", "why_tests_cant": "The tests run a few problems with small steps; the limits separate two regimes over all problems, steps and run lengths.", "anchors": ["nbkode/euler.py:ForwardEuler", "nbkode/runge_kutta/explicit.py:Runge2", "nbkode/runge_kutta/explicit.py:Runge3", "nbkode/runge_kutta/explicit.py:Heun3", "nbkode/runge_kutta/explicit.py:RungeKutta4", "nbkode/runge_kutta/explicit.py:RungeKutta3_8"]}
{"id": "C103", "title": "Each solver behaves as if it were alone", "statement": "In a program that makes several solvers, calls them in any order and writes into its own arrays in between, each solver returns, raises and records what it would if it were the only one, constructed from the values that y0 and params had at that moment.", "quantifier": "every program of constructor calls, solver calls and writes into the arrays of initial values and parameters, every solver class, right-hand side and values", "why_tests_cant": "The tests make one solver at a time and never write into its arguments afterwards; interleavings of calls and writes are unbounded.", "anchors": ["nbkode/core.py:Solver.__init__", "nbkode/buffer.py:AlignedBuffer", "nbkode/runge_kutta/core.py:RungeKutta.__init__", "nbkode/nbcompat/numbasub.py:njit"]}
{"id": "C104", "title": "An exception leaves the dense output as it was", "statement": "If step() raises, interpolate gives at every time what it gave before the call; and once a step completes, interpolate gives the dense output of that step, whatever exceptions came before.", "quantifier": "every solver class, right-hand side raising at any evaluation, history of calls and time of interpolation", "why_tests_cant": "The right-hand sides of the tests never raise; the point of failure within a step and the history before it are unbounded.", "anchors": ["nbkode/core.py:Solver.interpolate", "nbkode/core.py:Solver.step", "nbkode/runge_kutta/explicit.py:RkInterpolator", "nbkode/runge_kutta/explicit.py:DOP853Interpolator", "nbkode/runge_kutta/explicit.py:FSAL"]}
{"id": "C105", "title": "The automatic first step suits the problem", "statement": "Without first_step a variable-step solver chooses a first step that is positive, that at the initial rate moves the state by no more than its own size and (to the order of the error estimate) by no more than the tolerances allow, that is the same for a system and for several copies of it, and that lets the integration begin.", "quantifier": "every right-hand side, initial state, tolerances and t_bound", "why_tests_cant": "The tests construct solvers for a handful of problems of size about 1; the first step depends on the scales of state, derivative and tolerances.", "anchors": ["nbkode/core.py:VariableStep", "nbkode/core.py:Solver.step", "nbkode/runge_kutta/explicit.py:RungeKutta23", "nbkode/runge_kutta/explicit.py:RungeKutta45", "nbkode/runge_kutta/explicit.py:DOP853"]}
{"id": "C106", "title": "A region that the equations do not leave is not left by the solver", "statement": "If the equations are such that a short step in the direction of the derivative never leads out of a convex region (amounts stay non-negative, probabilities stay between 0 and 1), then a solver that starts in the region with a step no longer than that keeps its states, and the values it interpolates, in the region.", "quantifier": "every right-hand side, convex region, initial state in it, step size up to the given one, tolerances and sequence of calls", "why_tests_cant": "The tests look at a few problems whose states stay far from any limit; a solver that leaves a region does so only for particular right-hand sides and step sizes.", "anchors": ["nbkode/euler.py:ForwardEuler", "nbkode/euler.py:BackwardEuler", "nbkode/runge_kutta/explicit.py:Runge2", "nbkode/runge_kutta/explicit.py:RungeKutta4", "nbkode/runge_kutta/explicit.py:RungeKutta45", "nbkode/runge_kutta/explicit.py:DOP853", "nbkode/core.py:Solver.interpolate"]}
{"id": "C107", "title": "Nearby problems get nearby answers", "statement": "If two problems differ by at most \u03b5 in their initial state and in their derivative, the answers of solvers constructed with the same options differ by at most a constant times \u03b5, at every requested time within a given span. The constant depends only on the span and on how fast the derivative changes with the state, not on the step size.", "quantifier": "every pair of problems with a Lipschitz right-hand side, every \u03b5, step size, time span and list of requested times", "why_tests_cant": "A test compares one problem with itself; the claim is about all pairs of problems, arbitrarily close, and a discontinuity shows only at particular initial states.", "anchors": ["nbkode/core.py:Solver.run", "nbkode/core.py:Solver.interpolate", "nbkode/runge_kutta/explicit.py:RungeKutta4", "nbkode/runge_kutta/explicit.py:RungeKutta23", "nbkode/runge_kutta/explicit.py:RungeKutta45", "nbkode/euler.py:ForwardEuler", "nbkode/multistep/adams_bashforth.py:AdamsBashforth2", "nbkode/multistep/adams_bashforth.py:AdamsBashforth5"]}
{"id": "C108", "title": "Watching for events can be resumed", "statement": "Calling run_events for some times and then again, with the same non-terminal events, for later times reports what one call for all the times reports: the same times and states, and for each event the same records, each once.", "quantifier": "every history of calls, every two lists of requested times one after the other, every list of events that are not terminal", "why_tests_cant": "Whether a record falls on the join depends on the event, the steps taken and the history; the claim is about every way of splitting a run.", "anchors": ["nbkode/core.py:Solver.run_events", "nbkode/core.py:Solver._run_eval_events", "nbkode/event_handler.py:Event.evaluate", "nbkode/event_handler.py:build_handler"]}
{"id": "C109", "title": "Step sizes for which the two-step methods are stable", "statement": "On y' = -lam y + g(t) the difference of any two runs of a two-step method with step size h decays exponentially as long as h lam is below the limit of the method's formula: 1 for AdamsBashforth2, 6 for AdamsMoulton3, and no limit for BDF2. Above the limit it grows exponentially.", "quantifier": "every lam, every forcing g, every step size h, every two histories the runs start from, every number of steps", "why_tests_cant": "Decay is a claim about infinitely many steps, uniform over all step sizes below the limit and over all starting histories; near the limit the rate is arbitrarily close to one.", "anchors": ["nbkode/multistep/adams_bashforth.py:AdamsBashforth2", "nbkode/multistep/adams_moulton.py:AdamsMoulton3", "nbkode/multistep/bdf.py:BDF2", "nbkode/multistep/core.py:ExplicitMultistep", "nbkode/multistep/core.py:ImplicitMultistep"]}
{"id": "C110", "title": "The implicit methods are stable on stiff decays at every step size", "statement": "On y' = -lam y + g(t), lam > 0, a step of BackwardEuler, BDF1 to BDF6 or AdamsMoulton2 is possible from every history and with every step size h > 0, however large h lam, and the difference of two runs decays exponentially with the number of steps, as that of the exact solutions does, with a rate and a constant that depend on h lam only.", "quantifier": "every lam, every forcing g, every step size, every two histories, every number of steps", "why_tests_cant": "Stability at every step size is a claim about all step sizes and infinitely many steps.", "anchors": ["nbkode/multistep/bdf.py:BDF1", "nbkode/multistep/bdf.py:BDF2", "nbkode/multistep/bdf.py:BDF3", "nbkode/multistep/bdf.py:BDF4", "nbkode/multistep/bdf.py:BDF5", "nbkode/multistep/bdf.py:BDF6", "nbkode/euler.py:BackwardEuler", "nbkode/multistep/adams_moulton.py:AdamsMoulton2", "nbkode/multistep/core.py:ImplicitMultistep"]}
{"id": "C111", "title": "A time that is not a number is refused", "statement": "interpolate(t), run(t), step(upto_t=t) and skip(upto_t=t), with or without n, raise ValueError and change nothing when t is NaN, since NaN is not inside any valid range.", "quantifier": "every solver, right-hand side, state, t_bound and number of steps", "why_tests_cant": "That a call never comes back, or that t_bound is not respected for any number of steps, cannot be seen in a finite test; and the claim is about every state of every solver.", "anchors": ["nbkode/core.py:Solver.interpolate", "nbkode/core.py:Solver.run", "nbkode/core.py:Solver.step", "nbkode/core.py:Solver.skip", "nbkode/core.py:Solver._check_time"]}
{"id": "C112", "title": "The units of an event function do not matter", "statement": "An event occurs where its function is zero, so multiplying an event function by a non-zero number (and reversing its direction if the number is negative) changes nothing in what run_events does or returns.", "quantifier": "every solver, state, list of requested times, list of events and non-zero factor; for the factor -1 also every machine arithmetic", "why_tests_cant": "The claim compares two executions for every event function, solver, history and factor, including those that raise or never return.", "anchors": ["nbkode/core.py:Solver.run_events", "nbkode/event_handler.py:Event.evaluate", "nbkode/event_handler.py:build_handler", "nbkode/nbcompat/zeros.py:bisect", "nbkode/nbcompat/common.py:isclose"]}
{"id": "C113", "title": "Answers to linear problems superpose", "statement": "Suppose three problems are related by w(t, a y + c z) = a f(t, y) + c g(t, z), as when a linear system is started from a combination of two initial states, or is pushed by a combination of two forcings. Then for an explicit fixed-step method everything that calls of step, skip, interpolate and run show of the solver for w, started from a y0 + c z0 with the same times and step, is a times what they show of the solver for f plus c times what they show of the solver for g, call by call, with the same exceptions.", "quantifier": "every three right-hand sides so related, every two numbers a and c, every two initial states, every step size, every list of calls, every explicit Runge-Kutta table, every explicit linear multistep method with weights that sum as consistency asks", "why_tests_cant": "A test compares a few combinations after a few calls; the claim ranges over all linear problems, all combinations and all histories of calls.", "anchors": ["nbkode/core.py:Solver.step", "nbkode/core.py:Solver.skip", "nbkode/core.py:Solver.interpolate", "nbkode/core.py:Solver.run", "nbkode/euler.py:ForwardEuler", "nbkode/runge_kutta/core.py:RungeKutta", "nbkode/multistep/core.py:ExplicitMultistep"]}
{"id": "C114", "title": "An event that does not happen leaves no trace", "statement": "Events whose function does not have both signs (positive everywhere, negative everywhere, or not a number), terminal or not, in any direction, may be added to a call of run_events or left out: the points, the lists of the other events, the state of the solver, the exceptions and whether the call comes back do not change, and the lists of those events are empty. If none of the events happens, the call does what run does with the same times when these lie ahead.", "quantifier": "every solver, state, list of requested times and list of events, every way to choose some of them to be left out, every arithmetic", "why_tests_cant": "The claim compares executions with and without the event for all solvers, histories and lists of events, including those that raise or never return.", "anchors": ["nbkode/core.py:Solver.run_events", "nbkode/event_handler.py:Event.evaluate", "nbkode/event_handler.py:EventHandler.evaluate", "nbkode/event_handler.py:build_handler"]}
{"id": "C115", "title": "Solutions of one scalar equation do not cross", "statement": "Two solvers of an explicit fixed-step one-step class for the same scalar equation, constructed at the same time with the same step size, one with a smaller initial value than the other, never change order: at every time both are asked for, run gives the first a smaller value than the second.", "quantifier": "every scalar right-hand side with bounded slope, every two initial values, every step size, every two lists of requested times however late", "why_tests_cant": "It is a claim about all pairs of solutions for all time.", "anchors": ["nbkode/core.py:Solver.run", "nbkode/runge_kutta/explicit.py:ERK", "nbkode/euler.py:ForwardEuler"]}
{"id": "C116", "title": "A larger derivative gives a larger solution", "statement": "Two solvers of an explicit fixed-step one-step class are constructed at the same time with the same step size for two scalar equations. If the second equation has the larger derivative everywhere and the larger initial value, then after any number of steps the state of the second solver is at least that of the first, and so is every answer of run, provided the steps are short.", "quantifier": "every two scalar right-hand sides of which the first has bounded slope, every two initial values, every short step size, every number of steps", "why_tests_cant": "It is a claim about all pairs of equations and for all time.", "anchors": ["nbkode/core.py:Solver.step", "nbkode/runge_kutta/explicit.py:RungeKutta4", "nbkode/runge_kutta/explicit.py:Runge2", "nbkode/euler.py:ForwardEuler"]}
{"id": "C117", "title": "A component does not move faster than its derivative allows", "statement": "If a component of the derivative is at least a (at most a) at all times and states, then between any two points that a solver with an explicit method reaches one after the other, that component of the state rises by at least (at most) a times the time between them. In particular a component whose derivative is never negative never falls from one step to a later one.", "quantifier": "every right-hand side, every bound on a component of it, every initial value, every step size or tolerance, every two points reached", "why_tests_cant": "It is a claim about all right-hand sides and all step sizes; a test meets only a few, and the classes for which it is false fail only on special ones.", "anchors": ["nbkode/core.py:Solver.step", "nbkode/runge_kutta/explicit.py:ERK", "nbkode/runge_kutta/explicit.py:RungeKutta23", "nbkode/runge_kutta/explicit.py:RungeKutta45", "nbkode/runge_kutta/explicit.py:DOP853", "nbkode/euler.py:ForwardEuler"]}
