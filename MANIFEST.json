{"claims": [
{"property": "C01", "status": "proved", "theorems": ["Nbkode.C01_step_split"], "note": ""},
{"property": "C02", "status": "proved", "theorems": ["Nbkode.C02_skip_eq_step", "Nbkode.C02_negative_n_differs"], "note": "Holds for n >= 0, as stated; for n < 0 they differ (second theorem)."},
{"property": "C03", "status": "proved", "theorems": ["Nbkode.C03_step_records_every_step"], "note": ""},
{"property": "C04", "status": "proved", "theorems": ["Nbkode.C04_times_fixed", "Nbkode.C04_times", "Nbkode.C04_step_upto"], "note": ""},
{"property": "C05", "status": "proved", "theorems": ["Nbkode.C05_step_n_upto", "Nbkode.C05_step_n_upto_path", "Nbkode.C05_no_runtimeError"], "note": ""},
{"property": "C06", "status": "proved", "theorems": ["Nbkode.C06_past_is_noop"], "note": ""},
{"property": "C07", "status": "proved", "theorems": ["Nbkode.C07_bound_fixed", "Nbkode.C07_bound", "Nbkode.C07_refuted_safety_factor"], "note": "For every registered class with sane options (safety_factor and min_factor at most 1); the last theorem shows an insane option breaks it."},
{"property": "C08", "status": "proved", "theorems": ["Nbkode.C08_runtimeError_iff", "Nbkode.C08_progress_kept", "Nbkode.C08_skip_runtimeError_iff"], "note": ""},
{"property": "C09", "status": "partial", "theorems": ["Nbkode.C09_differs_at_bound", "Nbkode.C09_refuted", "Nbkode.C09_step_default_partial"], "note": "False at t_bound: step() returns None where step(n=1) raises."},
{"property": "C10", "status": "proved", "theorems": ["Nbkode.C10_run_out_of_range", "Nbkode.C10_step_beyond", "Nbkode.C10_step_beyond_bound", "Nbkode.C10_interpolate_outside"], "note": "step, skip, interpolate and run, for a solver whose clock is not past t_bound (which C07 guarantees)."},
{"property": "C11", "status": "proved", "theorems": ["Nbkode.C11_step_increases", "Nbkode.C11_step_times", "Nbkode.C11_session"], "note": ""},
{"property": "C12", "status": "proved", "theorems": ["Nbkode.C12_step_n", "Nbkode.C12_step_n_times", "Nbkode.C12_step_upto", "Nbkode.C12_skip_upto"], "note": ""},
{"property": "C13", "status": "proved", "theorems": ["Nbkode.C13_window_of_pushes", "Nbkode.C13_history_window"], "note": ""},
{"property": "C14", "status": "proved", "theorems": ["Nbkode.C14_f_is_derivative", "Nbkode.C14_construction", "Nbkode.C14_construction_fsal", "Nbkode.C14_construction_dop853", "Nbkode.C14_construction_multistep"], "note": ""},
{"property": "C15", "status": "proved", "theorems": ["Nbkode.C15_only_completed_steps", "Nbkode.C15_session", "Nbkode.C15_step_raises", "Nbkode.C15_step_upto_raises"], "note": ""},
{"property": "C16", "status": "proved", "theorems": ["Nbkode.C16_run_times", "Nbkode.C16_run_complete", "Nbkode.C16_unsorted_complete"], "note": ""},
{"property": "C17", "status": "partial", "theorems": ["Nbkode.C17_same_solver", "Nbkode.C17_same_answers_partial", "Nbkode.C17_refuted"], "note": "Proved for runs that are not cut short by t_bound; when cut short the unsorted order raises IndexError (refuted)."},
{"property": "C18", "status": "partial", "theorems": ["Nbkode.C18_resume", "Nbkode.C18_resume_unsorted_partial", "Nbkode.C18_refuted"], "note": "Proved for times in order, including runs cut short and exceptions; for times out of order when all are answered. Refuted when times are out of order and run(b) is cut short."},
{"property": "C19", "status": "partial", "theorems": ["Nbkode.C19_unanswered_partial", "Nbkode.C19_unbounded_partial", "Nbkode.C19_refuted"], "note": "False: times in the last, refused step get no state. Partial: an unanswered time is within one step of t_bound, and without a bound every time is answered."},
{"property": "C20", "status": "proved", "theorems": ["Nbkode.C20_interpolant", "Nbkode.C20_alone", "Nbkode.C20_independent"], "note": ""},
{"property": "C21", "status": "partial", "theorems": ["Nbkode.C21_cut_short_indexError", "Nbkode.C21_empty_indexError", "Nbkode.C21_refuted", "Nbkode.C21_only_valueError_partial"], "note": "False: empty list and unsorted times with a run cut short raise IndexError. Partial: otherwise only ValueError."},
{"property": "C22", "status": "partial", "theorems": ["Nbkode.C22_succeeds_iff", "Nbkode.C22_ends", "Nbkode.C22_recorded_partial", "Nbkode.C22_refuted"], "note": "Success exactly within the recorded history: proved. Recorded states: proved at the oldest and newest recorded time of every solver; refuted for the inner times of methods which keep more than two points (AdamsBashforth3)."},
{"property": "C23", "status": "proved", "theorems": ["Nbkode.C23_reproduces_cubics", "Nbkode.C23_matches_ends"], "note": ""},
{"property": "C24", "status": "proved", "theorems": ["Nbkode.C24_of", "Nbkode.C24_RungeKutta23", "Nbkode.C24_RungeKutta45"], "note": "For any constructed solver after any history of calls without exceptions."},
{"property": "C25", "status": "proved", "theorems": ["Nbkode.C25_dop853"], "note": "For any coefficients of the dense output."},
{"property": "C26", "status": "proved", "theorems": ["Nbkode.C26_fsal", "Nbkode.C26_dop853"], "note": "Histories without exceptions, as stated. For the other methods dense output has no state of its own."},
{"property": "C27", "status": "proved", "theorems": ["Nbkode.C27_erk_step", "Nbkode.C27_fsal_step", "Nbkode.C27_dop853_step"], "note": ""},
{"property": "C28", "status": "proved", "theorems": ["Nbkode.C28_Runge2", "Nbkode.C28_Runge3", "Nbkode.C28_Heun3", "Nbkode.C28_RungeKutta4", "Nbkode.C28_RungeKutta3_8", "Nbkode.C28_RungeKutta23", "Nbkode.C28_RungeKutta45"], "note": ""},
{"property": "C29", "status": "partial", "theorems": ["Nbkode.C29_explicit_formula", "Nbkode.C29_AB1", "Nbkode.C29_AB2_refuted", "Nbkode.C29_AB3_refuted", "Nbkode.C29_AB4_refuted", "Nbkode.C29_AB5_refuted", "Nbkode.C29_AB2_misses", "Nbkode.C29_AB2_partial", "Nbkode.C29_AB3_partial", "Nbkode.C29_AB4_partial", "Nbkode.C29_AB5_partial", "Nbkode.C29_steps_partial", "Nbkode.C29_AB3_misses", "Nbkode.C29_AB4_misses", "Nbkode.C29_AB5_misses", "Nbkode.C29_AB2_reversed", "Nbkode.C29_AB3_reversed", "Nbkode.C29_AB4_reversed", "Nbkode.C29_AB5_reversed"], "note": "AB1 proved. AB2-AB5 refuted: the coefficient arrays are applied in reversed order; the _reversed theorems show the documented formulas have the order, the _partial ones what still holds."},
{"property": "C30", "status": "partial", "theorems": ["Nbkode.C30_AM1", "Nbkode.C30_AM2", "Nbkode.C30_AM3", "Nbkode.C30_AM4_refuted", "Nbkode.C30_AM5_refuted", "Nbkode.C30_AM4_partial", "Nbkode.C30_AM5_partial", "Nbkode.C30_steps_partial", "Nbkode.C30_AM4_misses", "Nbkode.C30_AM4_reversed", "Nbkode.C30_AM5_reversed"], "note": "AM1-AM3 proved; AM4, AM5 refuted (reversed coefficients)."},
{"property": "C31", "status": "proved", "theorems": ["Nbkode.C31_BDF1", "Nbkode.C31_BDF2", "Nbkode.C31_BDF3", "Nbkode.C31_BDF4", "Nbkode.C31_BDF5", "Nbkode.C31_BDF6", "Nbkode.C31_steps"], "note": ""},
{"property": "C32", "status": "proved", "theorems": ["Nbkode.C32_residual", "Nbkode.C32_or_raises", "Nbkode.C32_scalar"], "note": "Systems: residual norm at most tol (C32). One component: residual bounded through the distance of the last two secant iterates (C32_scalar)."},
{"property": "C33", "status": "proved", "theorems": ["Nbkode.C33_linear_exact", "Nbkode.C33_value", "Nbkode.C33_backwardEuler", "Nbkode.C33_linear_system"], "note": ""},
{"property": "C34", "status": "partial", "theorems": ["Nbkode.C34_fixed_starter", "Nbkode.C34_erk_starter", "Nbkode.C34_erk_starter_succeeds", "Nbkode.C34_variable_starter_times", "Nbkode.C34_variable_starter_partial", "Nbkode.C34_variable_starter_refuted", "Nbkode.C34_variable_starter_late"], "note": "Fixed-step starters whose constructor starts at (t0, y0) with step h: proved (a starter that is itself a multistep method of order > 1 with its own starter comes out ahead of t0 and is outside the hypothesis). Variable-step starters (the default): true for t0 = 0 only, refuted for every other t0; for t0 > h the constructor raises ValueError."},
{"property": "C35", "status": "partial", "theorems": ["Nbkode.C35_erk_partial", "Nbkode.C35_fsal_partial", "Nbkode.C35_dop853_partial", "Nbkode.C35_multistep_no_start_partial", "Nbkode.C35_fixed_starter_partial", "Nbkode.C35_refuted"], "note": "False for multistep methods of order at least two with a starter: start-up ignores t_bound. Partial: one-step methods, order one and no starter do not integrate; start-up that fits is within the bound."},
{"property": "C36", "status": "proved", "theorems": ["Nbkode.C36_fsal_iff", "Nbkode.C36_dop853_iff", "Nbkode.C36_accepted", "Nbkode.C36_accepted_dop853"], "note": ""},
{"property": "C37", "status": "proved", "theorems": ["Nbkode.C37_factors", "Nbkode.C37_rejections_shrink", "Nbkode.C37_step", "Nbkode.C37_step_dop853", "Nbkode.C37_positive"], "note": ""},
{"property": "C38", "status": "partial", "theorems": ["Nbkode.C38_no_effect", "Nbkode.C38_max_step_partial", "Nbkode.C38_max_step_refuted", "Nbkode.C38_min_step_refuted"], "note": "False: the options have no effect on any step. Partial: non-positive max_step is refused."},
{"property": "C39", "status": "partial", "theorems": ["Nbkode.C39_erk", "Nbkode.C39_multistep", "Nbkode.C39_fixed_step", "Nbkode.C39_first_step", "Nbkode.C39_h_ignored", "Nbkode.C39_h_ignored_fsal", "Nbkode.C39_h_ignored_dop853", "Nbkode.C39_refuted"], "note": "Proved for fixed-step h and for first_step; false for keyword h of variable-step classes (ignored)."},
{"property": "C40", "status": "partial", "theorems": ["Nbkode.C40_explicit", "Nbkode.C40_implicit", "Nbkode.C40_erk", "Nbkode.C40_fsal", "Nbkode.C40_dop853_refuted", "Nbkode.C40_registered_partial", "Nbkode.C40_initial", "Nbkode.C40_steps"], "note": "Proved for all classes except DOP853, where the error norm divides by zero."},
{"property": "C41", "status": "proved", "theorems": ["Nbkode.C41_records", "Nbkode.C41_strict"], "note": ""},
{"property": "C42", "status": "proved", "theorems": ["Nbkode.C42_one_per_step", "Nbkode.C42_ordered"], "note": ""},
{"property": "C43", "status": "proved", "theorems": ["Nbkode.C43_located", "Nbkode.C43_located_std", "Nbkode.C43_true_zero"], "note": ""},
{"property": "C44", "status": "partial", "theorems": ["Nbkode.C44_ends_partial", "Nbkode.C44_any_order_partial", "Nbkode.C44_refuted", "Nbkode.C44_refuted_indexError"], "note": "Proved for times in order. Out of order: what is returned is a rearrangement; the event's pair may come anywhere, or IndexError is raised (refuted). t_bound cuts the output as in C19."},
{"property": "C45", "status": "partial", "theorems": ["Nbkode.C45_single_partial", "Nbkode.C45_last_listed_partial", "Nbkode.C45_refuted"], "note": "False: the last terminal event in the list wins. Partial: with one terminal event it ends the run."},
{"property": "C46", "status": "partial", "theorems": ["Nbkode.C46_undisturbed_partial", "Nbkode.C46_returns_partial", "Nbkode.C46_refuted"], "note": "False as stated: run_events raises where run returns when a past time is among those requested. Partial: whenever run_events with non-terminal events returns, run returns the same and the solvers are alike afterwards; it returns for two-point methods and future times."},
{"property": "C47", "status": "partial", "theorems": ["Nbkode.C47_before_last_step_partial", "Nbkode.C47_refuted"], "note": "False: requested times within the last step are dropped. Partial: all times up to the start of that step are returned."},
{"property": "C48", "status": "partial", "theorems": ["Nbkode.C48_past_refuted", "Nbkode.C48_future_partial", "Nbkode.C48_refuted"], "note": "False: any requested time not after the current one makes every call with events fail (AttributeError). Partial: future times in order are accepted."},
{"property": "C49", "status": "partial", "theorems": ["Nbkode.C49_copy_partial", "Nbkode.C49_refuted"], "note": "False: a record at a time in the solver's history is a view, overwritten later. Partial: every other record is a copy."},
{"property": "C50", "status": "partial", "theorems": ["Nbkode.C50_search_total_partial", "Nbkode.C50_refuted"], "note": "False for methods which keep more than two points (ValueError from bisect). Partial: methods with two points."},
{"property": "C51", "status": "proved", "theorems": ["Nbkode.C51_plain_map", "Nbkode.C51_only_answers"], "note": ""},
{"property": "C52", "status": "proved", "theorems": ["Nbkode.C52_groups", "Nbkode.C52_all", "Nbkode.C52_partition"], "note": "For classes that declare IMPLICIT and FIXED_STEP as bool and whose step functions can be built, as stated."},
{"property": "C53", "status": "partial", "theorems": ["Nbkode.C53_inverted_partial", "Nbkode.C53_refuted"], "note": "False: the filter is inverted for every multistep class. Partial: right for Runge-Kutta classes, and exactly inverted for multistep ones."},
{"property": "C54", "status": "partial", "theorems": ["Nbkode.C54_checked", "Nbkode.C54_accepted", "Nbkode.C54_once", "Nbkode.C54_taken", "Nbkode.C54_rejected_partial", "Nbkode.C54_refuted", "Nbkode.C54_refuted_no_group"], "note": "False: a definition that raises can leave the class registered under some of its names (taken alias, missing group). Partial: what a rejected definition leaves alone; the conditions of acceptance and its effect are proved in full."},
{"property": "C55", "status": "proved", "theorems": ["Nbkode.C55_get_solver"], "note": ""},
{"property": "C56", "status": "proved", "theorems": ["Nbkode.C56_newton_derivative", "Nbkode.C56_newton_secant", "Nbkode.C56_jNewton", "Nbkode.C56_newton", "Nbkode.C56_refuses", "Nbkode.C56_returns", "Nbkode.C56_returns_secant"], "note": ""},
{"property": "C57", "status": "proved", "theorems": ["Nbkode.C57_newtonHd", "Nbkode.C57_newtonHd_fails", "Nbkode.C57_affine"], "note": ""},
{"property": "C58", "status": "partial", "theorems": ["Nbkode.C58_bare", "Nbkode.C58_called_partial", "Nbkode.C58_package", "Nbkode.C58_refuted"], "note": "False for options given as one positional callable, as in @vectorize(float64). Partial: every other use."},
{"property": "C59", "status": "partial", "theorems": ["Nbkode.C59_step_partial", "Nbkode.C59_run", "Nbkode.C59_run_events", "Nbkode.C59_step_live", "Nbkode.C59_refuted"], "note": "False for step(): its state array is a view of the live history and always shows the solver's current state (C59_step_live). Partial: step(n), step(upto_t), step(n, upto_t); run and run_events in full, over the memory model of core.py."},
{"property": "C60", "status": "proved", "theorems": ["Nbkode.C60_list", "Nbkode.C60_once", "Nbkode.C60_groups"], "note": ""},
{"property": "C61", "status": "partial", "theorems": ["Nbkode.C61_first_partial", "Nbkode.C61_frozen", "Nbkode.C61_refuted"], "note": "False: the first answer is kept for ever. Partial: the first call."},
{"property": "C62", "status": "proved", "theorems": ["Nbkode.C62_getattr"], "note": ""},
{"property": "C63", "status": "proved", "theorems": ["Nbkode.C63_args_unmodified", "Nbkode.C63_run_events"], "note": "Over the memory model of core.py, in which arrays are addresses."},
{"property": "C64", "status": "partial", "theorems": ["Nbkode.C64_refuted_step_size", "Nbkode.C64_refuted_step_size_erk", "Nbkode.C64_refuted_blowup", "Nbkode.C64_fixed_counted", "Nbkode.C64_fixed", "Nbkode.C64_forever", "Nbkode.C64_step_partial", "Nbkode.C64_step_dop853_partial", "Nbkode.C64_calls_partial", "Nbkode.C64_calls_dop853_partial", "Nbkode.C64_continuous", "Nbkode.C64_calls_growth_partial", "Nbkode.C64_calls_growth_dop853_partial", "Nbkode.C64_lipschitz", "Nbkode.C64_refuted_singular", "Nbkode.C64_refuted_nan"], "note": "False in general: a right-hand side that returns NaN, or is unbounded near the current point, makes a variable step reject for ever (C64_refuted_nan, C64_refuted_singular), and on y' = y^2 a run past the blow-up time never ends (C64_refuted_blowup). Fixed-step solvers: all calls (C64_fixed). Partial: variable-step step() for locally bounded (C64_continuous: all continuous) right-hand sides; all calls for bounded right-hand sides and for those that grow at most linearly with y (C64_lipschitz: all that are continuous in t and Lipschitz in y). In between, growth faster than linear, the answer depends on the right-hand side. The constructors accept step sizes that are not positive; a fixed-step solver with one never comes back from a call to a later time (C64_refuted_step_size, C64_refuted_step_size_erk)."},
{"property": "C65", "status": "proved", "theorems": ["Nbkode.C65_ForwardEuler", "Nbkode.C65_Runge2", "Nbkode.C65_Runge3", "Nbkode.C65_Heun3", "Nbkode.C65_RungeKutta4", "Nbkode.C65_RungeKutta3_8", "Nbkode.C65_RungeKutta23", "Nbkode.C65_RungeKutta45", "Nbkode.C65_RungeKutta23_estimate", "Nbkode.C65_RungeKutta45_estimate"], "note": "Order p local error on every C^p problem, uniform in the base point, via rooted trees; real arithmetic."},
{"property": "C66", "status": "proved", "theorems": ["Nbkode.C66_ForwardEuler", "Nbkode.C66_Runge2", "Nbkode.C66_Runge3", "Nbkode.C66_Heun3", "Nbkode.C66_RungeKutta4", "Nbkode.C66_RungeKutta3_8", "Nbkode.C66_RungeKutta23", "Nbkode.C66_RungeKutta45"], "note": "Global error C*H^p over any number of steps, without a global Lipschitz condition."},
{"property": "C67", "status": "proved", "theorems": ["Nbkode.C67_conditions", "Nbkode.C67_nodes", "Nbkode.C67_step", "Nbkode.C67_estimate3", "Nbkode.C67_estimate5"], "note": "Order conditions of the decimal coefficients with explicit defects; the step theorem is for y' = g(y)."},
{"property": "C68", "status": "proved", "theorems": ["Nbkode.C68_ForwardEuler", "Nbkode.C68_Runge2", "Nbkode.C68_Runge3", "Nbkode.C68_Heun3", "Nbkode.C68_RungeKutta4", "Nbkode.C68_RungeKutta3_8", "Nbkode.C68_RungeKutta23", "Nbkode.C68_RungeKutta45", "Nbkode.C68_RungeKutta23_first_step", "Nbkode.C68_RungeKutta45_first_step"], "note": "Values returned by run, at any requested times; H is h for fixed-step classes; for RungeKutta23/45 it bounds the steps made before T, or is first_step when max_factor <= 1."},
{"property": "C69", "status": "proved", "theorems": ["Nbkode.C69_step", "Nbkode.C69_skip", "Nbkode.C69_interpolate", "Nbkode.C69_run", "Nbkode.C69_answers", "Nbkode.C69_answers_fixed", "Nbkode.C69_answers_variable", "Nbkode.C69_answers_lipschitz"], "note": "Exceptions are classified for each call; corollaries: unbounded fixed-step explicit solvers, and RungeKutta23/45 on bounded or Lipschitz right-hand sides, answer every run."},
{"property": "C70", "status": "partial", "theorems": ["Nbkode.C70_explicit", "Nbkode.C70_implicit", "Nbkode.C70_AB1", "Nbkode.C70_AB_partial", "Nbkode.C70_AM", "Nbkode.C70_AM_partial", "Nbkode.C70_BDF", "Nbkode.C70_AB_refuted", "Nbkode.C70_AM_refuted"], "note": "AdamsBashforth1, AdamsMoulton1-3, BDF1-6 proved with their orders. AdamsBashforth2-5, AdamsMoulton4-5 as coded have order 1 and not 2 (reversed coefficients): C70_AB_refuted, C70_AM_refuted."},
{"property": "C71", "status": "partial", "theorems": ["Nbkode.C71_explicit", "Nbkode.C71_implicit", "Nbkode.C71_single_explicit", "Nbkode.C71_single_implicit", "Nbkode.C71_AB1", "Nbkode.C71_AB_partial", "Nbkode.C71_single", "Nbkode.C71_started", "Nbkode.C71_started_partial", "Nbkode.C71_refuted"], "note": "Fixed-step Runge-Kutta starters, any order; instances for RungeKutta4. BDF6 with RungeKutta4 has order 5 and order 6 is refuted (C71_refuted). Missing: the variable-step default starter (C82), and the orders refuted in C70."},
{"property": "C72", "status": "proved", "theorems": ["Nbkode.C72_step", "Nbkode.C72_steps", "Nbkode.C72_from_start", "Nbkode.C72_from_start_single", "Nbkode.C72_single", "Nbkode.C72_started"], "note": "Proved for Lipschitz problems; orders q as in C71 (AdamsMoulton4, 5: 1; BDF6: 5)."},
{"property": "C73", "status": "proved", "theorems": ["Nbkode.C73_RungeKutta23", "Nbkode.C73_RungeKutta45", "Nbkode.C73_DOP853", "Nbkode.C73_target", "Nbkode.C73_sizes"], "note": "The lower bound on sizes is for RungeKutta23 and RungeKutta45; the rule and its aim for all three."},
{"property": "C74", "status": "proved", "theorems": ["Nbkode.C74_erk", "Nbkode.C74_explicit_multistep", "Nbkode.C74_implicit_multistep", "Nbkode.C74_fsal", "Nbkode.C74_dop853"], "note": "Fixed-step explicit Runge-Kutta and explicit multistep methods (no starter or a fixed-step starter): all affine changes; adaptive methods with a given first_step: permutations, signs, common scaling; implicit methods: changes of time. Not covariant, and not covered: the default step size h = 1 (it is 1 in any units), the automatic first step (SciPy), and the default starter of the multistep methods, which does not start from t0 (C34). np.argsort is assumed to depend on comparisons only."},
{"property": "C75", "status": "proved", "theorems": ["Nbkode.C75_erk", "Nbkode.C75_fsal", "Nbkode.C75_dop853", "Nbkode.C75_explicit_multistep", "Nbkode.C75_implicit_multistep"], "note": "Exact arithmetic; NaNs in uninitialised memory are outside the model. Adaptive methods: first step and factors positive."},
{"property": "C76", "status": "proved", "theorems": ["Nbkode.C76_erk", "Nbkode.C76_fsal", "Nbkode.C76_dop853", "Nbkode.C76_explicit_multistep", "Nbkode.C76_implicit_step", "Nbkode.C76_adams_moulton"], "note": "Explicit methods: exact, for all API calls. Implicit methods: linear invariants up to the Newton tolerance per step, for systems of at least two equations (a scalar equation has no nontrivial linear invariant)."},
{"property": "C77", "status": "proved", "theorems": ["Nbkode.C77_BackwardEuler", "Nbkode.C77_BackwardEuler_scalar", "Nbkode.C77_BackwardEuler_equilibrium", "Nbkode.C77_BackwardEuler_equilibrium_scalar", "Nbkode.C77_AdamsMoulton2", "Nbkode.C77_AdamsMoulton2_scalar", "Nbkode.C77_BDF2", "Nbkode.C77_BDF2_scalar"], "note": "Exact arithmetic and exact square root. A single equation is solved by the secant iteration, which bounds the last move and not the residual, so the right-hand side is Lipschitz there and the constant enters the remainder (the _scalar theorems; relative tolerance 0 as in the code). Steps are assumed to succeed (C72, C33, C110)."},
{"property": "C78", "status": "proved", "theorems": ["Nbkode.C78_fixed_step", "Nbkode.C78_Runge2_zeros", "Nbkode.C78_Runge2_crossings", "Nbkode.C78_Runge3_zeros", "Nbkode.C78_Runge3_crossings", "Nbkode.C78_Heun3_zeros", "Nbkode.C78_Heun3_crossings", "Nbkode.C78_RungeKutta4_zeros", "Nbkode.C78_RungeKutta4_crossings", "Nbkode.C78_RungeKutta3_8_zeros", "Nbkode.C78_RungeKutta3_8_crossings", "Nbkode.C78_ForwardEuler_zeros", "Nbkode.C78_ForwardEuler_crossings", "Nbkode.C78_RungeKutta23_zeros", "Nbkode.C78_RungeKutta23_crossings", "Nbkode.C78_RungeKutta45_zeros", "Nbkode.C78_RungeKutta45_crossings"], "note": "Exact arithmetic; smooth f and g. Not covered: DOP853 and the multistep methods of higher order, whose dense output order is not analysed."},
{"property": "C79", "status": "proved", "theorems": ["Nbkode.C79_run", "Nbkode.C79_time", "Nbkode.C79_run_events"], "note": "run_events: with events none of which is terminal; the terminal case is C44."},
{"property": "C80", "status": "proved", "theorems": ["Nbkode.C80_fixed", "Nbkode.C80_fixed_refuses", "Nbkode.C80_variable", "Nbkode.C80_variable_refuses", "Nbkode.C80_dop", "Nbkode.C80_dop_refuses", "Nbkode.C80_multistep", "Nbkode.C80_multistep_refuses", "Nbkode.C80_multistep_starter", "Nbkode.C80_order_fixed", "Nbkode.C80_order_variable", "Nbkode.C80_order_dop", "Nbkode.C80_order_multistep"], "note": "rhs, t0 and y0 are given by position; a value of the wrong kind counts as a TypeError of the call."},
{"property": "C81", "status": "partial", "theorems": ["Nbkode.C81_explicit", "Nbkode.C81_implicit", "Nbkode.C81_single_implicit", "Nbkode.C81_AB_partial", "Nbkode.C81_single", "Nbkode.C81_started", "Nbkode.C81_started_partial", "Nbkode.C81_refuted"], "note": "Orders 1 to 4 for the classes whose formula has that order, with a fixed-step starter. The dense output is a cubic over the whole history, so BDF5 and BDF6 lose their orders 5 and 6 in run (C81_refuted; order 4 proved); the reversed Adams classes have order 1 only (C70). ForwardEuler is in C68."},
{"property": "C82", "status": "partial", "theorems": ["Nbkode.C82_explicit", "Nbkode.C82_implicit", "Nbkode.C82_AB_partial", "Nbkode.C82_BDF2", "Nbkode.C82_order_two_partial", "Nbkode.C82_AM_partial", "Nbkode.C82_constructs", "Nbkode.C82_refuted", "Nbkode.C82_before_refuted", "Nbkode.C82_late"], "note": "Holds from t0 = 0 for BDF2 (order 2), as order 2 for AdamsMoulton3 and BDF3-BDF6 and order 1 for AdamsBashforth2-5 and AdamsMoulton4-5 (whose own orders fail by C70). Refuted: AdamsMoulton3 and BDF3-BDF6 do not have order 3 with the default starter (C82_refuted); from t0 < 0 BDF2-BDF6 do not converge at all (C82_before_refuted); from t0 > h the construction raises ValueError (C82_late)."},
{"property": "C83", "status": "partial", "theorems": ["Nbkode.C83_explicit", "Nbkode.C83_implicit", "Nbkode.C83_single_implicit", "Nbkode.C83_AB_partial", "Nbkode.C83_single", "Nbkode.C83_started", "Nbkode.C83_started_partial", "Nbkode.C83_startup_refuted"], "note": "Proved with the order of the method for AdamsMoulton1-3, BDF1-BDF4 (C83_single, C83_started); with order 1 for AdamsBashforth2-5 and AdamsMoulton4-5, whose own orders fail by C70, and with order 4 for BDF5-6, whose dense output has order 4 (C81_refuted). For a given h, events during the start-up steps are never reported (C83_startup_refuted)."},
{"property": "C84", "status": "proved", "theorems": ["Nbkode.C84_step", "Nbkode.C84_session", "Nbkode.C84_bound", "Nbkode.C84_step_times", "Nbkode.C84_run", "Nbkode.C84_resume"], "note": "Proved for every rounding that keeps order; double precision is an instance (without overflow, infinities and NaN). Variable-step solvers need that no positive number rounds to zero."},
{"property": "C85", "status": "partial", "theorems": ["Nbkode.C85_times", "Nbkode.C85_session", "Nbkode.C85_count_partial", "Nbkode.C85_returns_partial", "Nbkode.C85_refuted_stall", "Nbkode.C85_refuted_count"], "note": "The full property is refuted in double precision (C85_refuted_stall, C85_refuted_count). Proved: the times are t + i h up to i roundings (C85_times, C85_session); the number of steps and termination when a rounding is smaller than the step (C85_count_partial, C85_returns_partial)."},
{"property": "C86", "status": "proved", "theorems": ["Nbkode.C86_records", "Nbkode.C86_located", "Nbkode.C86_true_zero", "Nbkode.C86_ends"], "note": "Proved for calls that return, for every rounding that keeps order and is accurate to u and eta; double precision is an instance."},
{"property": "C87", "status": "proved", "theorems": ["Nbkode.C87_ForwardEuler", "Nbkode.C87_Runge2", "Nbkode.C87_Runge3", "Nbkode.C87_Heun3", "Nbkode.C87_RungeKutta4", "Nbkode.C87_RungeKutta3_8", "Nbkode.C87_RungeKutta23", "Nbkode.C87_RungeKutta45"], "note": "Proved for the explicit one-step classes except DOP853, whose decimal coefficients satisfy the order conditions approximately only. numpy may sum dot products in another order than the model; the bound does not depend on it beyond the constant."},
{"property": "C88", "status": "partial", "theorems": ["Nbkode.C88_search_total_partial", "Nbkode.C88_variable_partial", "Nbkode.C88_refuted_product", "Nbkode.C88_refuted_end", "Nbkode.C88_refuted_stall"], "note": "Refuted in full: bisect tests yl * yr < 0 on the product, which underflows to zero for small event values (C88_refuted_product), the dense output of ForwardEuler in double precision does not end at the state (C88_refuted_end), and the clock may stall (C88_refuted_stall). Proved under those three conditions being excluded; C88_variable_partial removes the condition on the dense output for variable-step Runge-Kutta methods."},
{"property": "C89", "status": "partial", "theorems": ["Nbkode.C89_RungeKutta23_partial", "Nbkode.C89_RungeKutta45_partial", "Nbkode.C89_RungeKutta23_run_partial", "Nbkode.C89_RungeKutta45_run_partial", "Nbkode.C89_refuted", "Nbkode.C89_RungeKutta23_sharp", "Nbkode.C89_RungeKutta45_sharp", "Nbkode.C89_RungeKutta23_linear", "Nbkode.C89_RungeKutta45_linear", "Nbkode.C89_RungeKutta23_run_linear", "Nbkode.C89_RungeKutta45_run_linear"], "note": "Refuted in full (C89_refuted): for any tolerances there is a smooth problem whose first step of size 1 is accepted with an arbitrarily large error. Proved for the steps and for the values returned by run of RungeKutta23 and RungeKutta45 along solutions where the error estimate is sharp (bounded below by a multiple of h^p), which holds whenever the first term of its expansion does not vanish (C89_*_sharp), and without any condition for linear systems y' = M y + c (C89_*_linear). DOP853 and nonlinear problems where the estimate degenerates at isolated points are missing."},
{"property": "C90", "status": "proved", "theorems": ["Nbkode.C90_RungeKutta23_bounded", "Nbkode.C90_RungeKutta45_bounded", "Nbkode.C90_RungeKutta23", "Nbkode.C90_RungeKutta45", "Nbkode.C90_RungeKutta23_run", "Nbkode.C90_RungeKutta45_run"], "note": "For RungeKutta23 and RungeKutta45, over the real numbers. DOP853 is not part of the claim: its coefficients satisfy the conditions for its estimates only up to their sixteen digits."},
{"property": "C91", "status": "proved", "theorems": ["Nbkode.C91_newton", "Nbkode.C91_halley", "Nbkode.C91_secant", "Nbkode.C91_newtonHd"], "note": "Over the real numbers; C may depend on the function and the root only, not on the start or the options. For newton_hd the linear solver is assumed to be exact."},
{"property": "C92", "status": "proved", "theorems": ["Nbkode.C92_RungeKutta23_zeros", "Nbkode.C92_RungeKutta23_crossings", "Nbkode.C92_RungeKutta45_zeros", "Nbkode.C92_RungeKutta45_crossings", "Nbkode.C92_RungeKutta23_linear", "Nbkode.C92_RungeKutta45_linear", "Nbkode.C92_condition_needed"], "note": "Over the real numbers; C depends on the problem and on a bound for max_factor only. The sharpness condition is part of the property (C89_refuted shows what happens without it). C92_condition_needed: without it crossings of y' = 1 are missed for arbitrarily small tolerances and first steps, since the steps grow by max_factor (C93)."},
{"property": "C93", "status": "proved", "theorems": ["Nbkode.C93_first_step_needed", "Nbkode.C93_Runge2", "Nbkode.C93_Runge3", "Nbkode.C93_Heun3", "Nbkode.C93_RungeKutta4", "Nbkode.C93_RungeKutta3_8", "Nbkode.C93_ForwardEuler", "Nbkode.C93_RungeKutta23", "Nbkode.C93_RungeKutta45", "Nbkode.C93_Runge2_cannon", "Nbkode.C93_Runge3_cannon", "Nbkode.C93_Heun3_cannon", "Nbkode.C93_RungeKutta4_cannon", "Nbkode.C93_RungeKutta3_8_cannon", "Nbkode.C93_RungeKutta23_cannon", "Nbkode.C93_RungeKutta23_grows", "Nbkode.C93_RungeKutta45_cannon", "Nbkode.C93_RungeKutta45_grows"], "note": "Over the real numbers. The cannon is stated for every first step shorter than the flight; the automatic first step is SciPy's select_initial_step, which is a parameter of the model. C93_first_step_needed: with a longer first step the landing is recorded at the start."},
{"property": "C94", "status": "proved", "theorems": ["Nbkode.C94_erk", "Nbkode.C94_explicit_order_one", "Nbkode.C94_implicit_order_one", "Nbkode.C94_fsal", "Nbkode.C94_dop853", "Nbkode.C94_refuted_multistep", "Nbkode.Demo.C94_refuted_no_start"], "note": "In exact arithmetic, for a positive step size (and sane options for the variable-step classes). The refutation for ORDER at least two holds for every method and right-hand side with a Runge-Kutta starter; without starting steps it is shown for AdamsBashforth2."},
{"property": "C95", "status": "partial", "theorems": ["Nbkode.C95_for_ever", "Nbkode.C95_within_a_step_partial", "Nbkode.C95_fixed", "Nbkode.C95_refuted_RungeKutta45", "Nbkode.C95_refuted_RungeKutta23"], "note": "Proved for the fixed-step classes. The documented claim that variable-step methods stop at t_bound is false (C95_refuted_RungeKutta45, C95_refuted_RungeKutta23); what holds is C95_within_a_step_partial."},
{"property": "C96", "status": "proved", "theorems": ["Nbkode.C96_drawn", "Nbkode.C96_alone", "Nbkode.C96_order", "Nbkode.C96_terminal_order"], "note": "C96_drawn is the general statement, C96_alone and C96_order the usual cases; C96_terminal_order shows the condition on terminal events is needed."},
{"property": "C97", "status": "partial", "theorems": ["Nbkode.C97_erk_partial", "Nbkode.C97_fsal_partial", "Nbkode.C97_dop853_partial", "Nbkode.C97_explicit_no_start_partial", "Nbkode.C97_implicit_no_start_partial", "Nbkode.C97_explicit_started_partial", "Nbkode.C97_implicit_started_partial", "Nbkode.C97_registered_partial", "Nbkode.C97_refuted", "Nbkode.C97_refuted_fsal", "Nbkode.C97_refuted_dop853"], "note": "The full claim is false: the start-up of a multistep method ignores t_bound (C97_refuted), and so does the choice of the first step when first_step is not given (C97_refuted_fsal, C97_refuted_dop853). C97_registered_partial: the nodes of all registered Runge-Kutta methods lie in [0, 1]."},
{"property": "C98", "status": "proved", "theorems": ["Nbkode.C98_erk", "Nbkode.C98_adams_bashforth", "Nbkode.C98_adams_bashforth_started", "Nbkode.C98_registered", "Nbkode.C98_differs_RungeKutta23"], "note": ""},
{"property": "C99", "status": "proved", "theorems": ["Nbkode.C99_scipy_unique", "Nbkode.C99_fsal", "Nbkode.C99_dop853", "Nbkode.C99_session", "Nbkode.C99_registered", "Nbkode.C99_dense", "Nbkode.C99_registered_dense", "Nbkode.C99_refuted"], "note": "The statement says both where the steps agree and where they do not (C99_refuted). SciPy's algorithm is transcribed in Spec/SciPy.lean and is part of what has to be read; SciPy itself is not available here. The tables of DOP853 are taken to be SciPy's."},
{"property": "C100", "status": "proved", "theorems": ["Nbkode.C100_erk", "Nbkode.C100_explicit_multistep", "Nbkode.C100_fsal_copies", "Nbkode.C100_dop853_copies", "Nbkode.C100_differs_RungeKutta23"], "note": "C100_differs_RungeKutta23 shows why the first part leaves out the variable-step methods. Implicit methods solve for all components at once to a joint tolerance and are not covered. The starter of a multistep method is none or a fixed-step Runge-Kutta method."},
{"property": "C101", "status": "partial", "theorems": ["Nbkode.C101_last_step_partial", "Nbkode.C101_alone_partial", "Nbkode.C101_refuted"], "note": "False as stated: an event that triggers in the last step after the terminal one is recorded too (C101_refuted). Proved: no returned time is later, a later record is the last one of its event, made on the last step by an event that triggers there, and with one event there is none."},
{"property": "C102", "status": "proved", "theorems": ["Nbkode.C102_factor_ForwardEuler", "Nbkode.C102_factor_Runge2", "Nbkode.C102_factor_Runge3", "Nbkode.C102_factor_Heun3", "Nbkode.C102_factor_RungeKutta4", "Nbkode.C102_factor_RungeKutta3_8", "Nbkode.C102_limit_ForwardEuler", "Nbkode.C102_limit_Runge2", "Nbkode.C102_limit_Runge3", "Nbkode.C102_limit_Heun3", "Nbkode.C102_limit_RungeKutta4", "Nbkode.C102_limit_RungeKutta3_8", "Nbkode.C102_turn_ForwardEuler", "Nbkode.C102_turn_Runge2", "Nbkode.C102_turn_Runge3", "Nbkode.C102_turn_Heun3", "Nbkode.C102_turn_RungeKutta4", "Nbkode.C102_turn_RungeKutta3_8"], "note": "Exact arithmetic. The limits of Heun3, RungeKutta4 and RungeKutta3_8 are given as existing numbers in intervals of length 0.01; below them stability, above them growth. The implicit methods are in C77."},
{"property": "C103", "status": "partial", "theorems": ["Nbkode.C103_alone_partial", "Nbkode.C103_failed", "Nbkode.C103_refuted"], "note": "Proved unless the program writes into a C-contiguous array it passed as params. `np.ascontiguousarray` does not copy such an array, so without Numba the solver goes on with the new values (`C103_refuted`). With Numba, which is not modelled, an array in a closure is a constant of the compiled function."},
{"property": "C104", "status": "partial", "theorems": ["Nbkode.C104_history", "Nbkode.C104_fixed", "Nbkode.C104_used_partial", "Nbkode.C104_recovers", "Nbkode.C104_used_dop853_partial", "Nbkode.C104_recovers_dop853", "Nbkode.C104_refuted"], "note": "Proved for the fixed-step classes, and for RungeKutta23, RungeKutta45 and DOP853 if the dense output was used since the last completed step. Otherwise the interpolator is brought up to date from the stages, of which the failed step has overwritten some (`C104_refuted`). That the next completed step mends it is proved (`C104_recovers`, `C104_recovers_dop853`)."},
{"property": "C105", "status": "partial", "theorems": ["Nbkode.C105_positive", "Nbkode.C105_positive_fsal", "Nbkode.C105_positive_dop853", "Nbkode.C105_moderate", "Nbkode.C105_copies", "Nbkode.C105_fsal_copies", "Nbkode.C105_dop853_copies", "Nbkode.C105_refuted_fsal", "Nbkode.C105_refuted_dop853"], "note": "Positive, moderate and the same for copies: proved. That the integration can begin is false: the step does not know t_bound, and if it is longer than the interval no step is ever made (`C105_refuted_fsal`, `C105_refuted_dop853`: y' = 1.001e-7, y(0) = 1, default options, t_bound = 1). SciPy's function is modelled as it was before SciPy 1.11, with which version the call in the code agrees."},
{"property": "C106", "status": "partial", "theorems": ["Nbkode.C106_ForwardEuler", "Nbkode.C106_BackwardEuler_linear", "Nbkode.C106_refuted_dense", "Nbkode.C106_refuted_Runge2", "Nbkode.C106_refuted_Runge3", "Nbkode.C106_refuted_Heun3", "Nbkode.C106_refuted_RungeKutta4", "Nbkode.C106_refuted_RungeKutta3_8", "Nbkode.C106_refuted_RungeKutta23", "Nbkode.C106_refuted_RungeKutta45", "Nbkode.C106_refuted_DOP853"], "note": "True of the recorded states of ForwardEuler, for every region, and of BackwardEuler on scalar linear problems with any step size. False of all Runge-Kutta classes, whatever the step size and tolerances (C106_refuted_Runge2 ... C106_refuted_DOP853), and of interpolated values even with ForwardEuler (C106_refuted_dense). Multistep classes of higher order are not treated."},
{"property": "C107", "status": "partial", "theorems": ["Nbkode.C107_erk", "Nbkode.C107_Runge2", "Nbkode.C107_Runge3", "Nbkode.C107_Heun3", "Nbkode.C107_RungeKutta4", "Nbkode.C107_RungeKutta3_8", "Nbkode.C107_ForwardEuler", "Nbkode.C107_refuted_RungeKutta45", "Nbkode.C107_refuted_RungeKutta23", "Nbkode.C107_adams", "Nbkode.C107_AdamsBashforth2", "Nbkode.C107_AdamsBashforth3", "Nbkode.C107_AdamsBashforth4", "Nbkode.C107_AdamsBashforth5"], "note": "True of all fixed-step Runge-Kutta classes, ForwardEuler and AdamsBashforth2-5 (as coded, with a fixed-step Runge-Kutta starter), with a constant independent of the step size. False of RungeKutta23 and RungeKutta45 with the default options (C107_refuted_RungeKutta23, C107_refuted_RungeKutta45): the decision to accept a step makes the dense output jump. DOP853 and implicit classes are not treated."},
{"property": "C108", "status": "partial", "theorems": ["Nbkode.C108_resume_partial", "Nbkode.C108_apart_partial", "Nbkode.C108_refuted"], "note": "Times, states and the solver afterwards are always the same, and so are the records except for one at the join (C108_resume_partial); nothing is lost or moved, and the records are exactly those of both calls when none is at the time the first call ends (C108_apart_partial). An event which occurs exactly there is reported by both calls (C108_refuted). The second call must ask for times after the solver's current time, otherwise it raises (C48)."},
{"property": "C109", "status": "partial", "theorems": ["Nbkode.C109_AdamsBashforth2_partial", "Nbkode.C109_AdamsBashforth2_documented", "Nbkode.C109_BDF2", "Nbkode.C109_AdamsMoulton3", "Nbkode.C109_refuted"], "note": "BDF2 and AdamsMoulton3 as claimed (C109_BDF2, C109_AdamsMoulton3). AdamsBashforth2 as coded is stable only below 2/3 and explodes above it (C109_AdamsBashforth2_partial, C109_refuted); with its coefficients in the documented order the limit is 1 (C109_AdamsBashforth2_documented). One component, exact arithmetic; the run starts with a consistent history (which the start-up makes only up to its time offset, see C34)."},
{"property": "C110", "status": "proved", "theorems": ["Nbkode.C110_BDF1", "Nbkode.C110_BDF2", "Nbkode.C110_BDF3", "Nbkode.C110_BDF4", "Nbkode.C110_BDF5", "Nbkode.C110_BDF6", "Nbkode.C110_BackwardEuler", "Nbkode.C110_AdamsMoulton2"], "note": "One component, exact arithmetic; systems of two or more equations are in C77. AdamsMoulton2 assumes that the recorded slope at the start belongs to the state, and gives the exact factor of each step."},
{"property": "C111", "status": "partial", "theorems": ["Nbkode.C111_interpolate_partial", "Nbkode.C111_refuted_counted", "Nbkode.C111_refuted_hangs", "Nbkode.C111_refuted_run"], "note": "Holds for interpolate (C111_interpolate_partial). False for the others: run([nan]) evaluates the interpolating polynomial at NaN and returns it (C111_refuted_run); step(upto_t=nan) and skip(upto_t=nan) never come back (C111_refuted_hangs); step(n, upto_t=nan) and skip(n, upto_t=nan) ignore t_bound (C111_refuted_counted). Lists with NaN among other times are not covered: the propagation of NaN by np.max is not modelled."},
{"property": "C112", "status": "partial", "theorems": ["Nbkode.C112_opposite_partial", "Nbkode.C112_units_partial", "Nbkode.C112_refuted"], "note": "True of the factor -1, for any choice of the events, in exact and in machine arithmetic, for every outcome including exceptions and non-termination (C112_opposite_partial). False of other factors (C112_refuted): bisect stops where the value is below 1.48e-8, so 1e-8 * g gets the middle of the step. What a positive factor does is exactly to divide that tolerance (C112_units_partial)."},
{"property": "C113", "status": "proved", "theorems": ["Nbkode.C113_erk", "Nbkode.C113_explicit_multistep", "Nbkode.C113_differs_RungeKutta23"], "note": "Exact arithmetic; calls without events. The multistep classes with start-up turned off or made by an explicit fixed-step method. The variable-step methods are outside the statement, since the size of the error decides their steps: C113_differs_RungeKutta23 has a linear problem where doubling the data changes the first accepted step."},
{"property": "C114", "status": "proved", "theorems": ["Nbkode.C114_kept", "Nbkode.C114_none"], "note": "Nothing is assumed of the arithmetic for events beside others. The comparison with run assumes a linear order (no NaN), at least one requested time, and times ahead up to t_bound."},
{"property": "C115", "status": "partial", "theorems": ["Nbkode.C115_erk_partial", "Nbkode.C115_ForwardEuler_partial", "Nbkode.C115_ForwardEuler_steps_partial", "Nbkode.C115_refuted"], "note": "True for ever if the step is below a bound that depends on the slope of the right-hand side and on the class only; for the steps of ForwardEuler the bound is h L < 1 (C115_ForwardEuler_steps_partial). False of every larger step (C115_refuted: y' = -lam y with h lam > 1). Exact arithmetic."},
{"property": "C116", "status": "partial", "theorems": ["Nbkode.C116_erk_partial", "Nbkode.C116_RungeKutta4_partial", "Nbkode.C116_RungeKutta3_8_partial", "Nbkode.C116_ForwardEuler_partial", "Nbkode.C116_refuted_Runge2", "Nbkode.C116_refuted_Heun3", "Nbkode.C116_refuted_Runge3", "Nbkode.C116_refuted_run"], "note": "True for ForwardEuler, RungeKutta4, RungeKutta3_8 and every explicit tableau with positive weights, below a step size that depends on the slope and the class only. False of Runge2, Heun3 and Runge3 at every step size (C116_refuted_...), as each has a weight of zero. Proved for the states after the steps; false of what run answers between the steps with every class at every step size (C116_refuted_run). Exact arithmetic."},
{"property": "C117", "status": "partial", "theorems": ["Nbkode.C117_erk_partial", "Nbkode.C117_RungeKutta_partial", "Nbkode.C117_ForwardEuler_partial", "Nbkode.C117_RungeKutta23_partial", "Nbkode.C117_refuted_RungeKutta45", "Nbkode.C117_refuted_DOP853", "Nbkode.C117_refuted_AdamsBashforth"], "note": "True of ForwardEuler, Runge2, Runge3, Heun3, RungeKutta4, RungeKutta3_8 and RungeKutta23 at every step size. False of RungeKutta45, DOP853 and AdamsBashforth2 to 5 at every step size and tolerance (C117_refuted_...), as they have negative weights. For the points of steps; between them see C116_refuted_run. Exact arithmetic."}
]}
