{
 "C01": {
  "note": "All horizons, dimensions, knots; exact field arithmetic. Hypotheses: symmetric Q,R,(Gth) and Gv theta = 0 (the solver ignores Gv, see C05). Instantiated with the modelled Bunch-Kaufman solver over the reals.",
  "status": "proved"
 },
 "C02": {
  "note": "Uniqueness of the KKT point whenever backward returns.",
  "status": "proved"
 },
 "C03": {
  "note": "Global minimality on convex problems, and success of backward on strictly convex ones.",
  "status": "proved"
 },
 "C04": {
  "note": "Gains are valid for every state and every tail of the horizon; cost-to-go.",
  "status": "proved"
 },
 "C05": {
  "note": "Proved when Gv = 0 at every knot; C05_Gv_breaks_parametric_solution shows the code violates the property when Gv is non-zero.",
  "status": "partial"
 },
 "C08": {
  "note": "Equality with the serial solution for all horizons, dimensions, thread counts (2..N+1) and thresholds whenever both backward passes go through and maxRefinementSteps != 1; success on strictly convex problems. C08_parallel_fails_where_serial_succeeds: the condensed system can be unfactorable where the serial solver succeeds (code ignores the failure).",
  "status": "partial"
 },
 "C09": {
  "note": "All horizons and thread counts, for the mathematical integers and, without overflow, the 32/64-bit ones; C09_overflow_breaks_partition gives the wrap-around witness.",
  "status": "proved"
 },
 "C11": {
  "note": "All block counts and sizes; exact; success iff all trailing principal block submatrices are invertible.",
  "status": "proved"
 },
 "C12": {
  "note": "Refinement keeps the solution for all step counts other than 1; negation proved for maxRefinementSteps = 1.",
  "status": "partial"
 },
 "C13": {
  "note": "Collapsing with the U factor gives the serial gain for all problems; the code collapses with another block and C13_collapseFeedback_wrong is the counterexample.",
  "status": "partial"
 },
 "C14": {
  "note": "Unblocked and blocked factorisation, all sizes, all matrices, exact arithmetic over an ordered field with 0 < alpha < 1 (the real constant of the code satisfies this).",
  "status": "proved"
 },
 "C16": {
  "note": "Tolerances and iteration limits for all problems, solvers and parameters. That the recorded primal infeasibility belongs to the returned iterate is proved without NaN; C16_NaN_run_reports_convergence shows a NaN at the initial guess leads to reported convergence. C16_requested_tolerances_partial: the tolerances in force are those last set by the client, on used solvers too; C16_dual_tolerance_settings: getDualTolerance is stale before run and setDualTolerance cannot be undone.",
  "status": "partial"
 },
 "C17": {
  "note": "At any point of any run; the only alternative outcome is the non-terminating tightening loop of C19.",
  "status": "proved"
 },
 "C18": {
  "note": "Invariant over all runs, recorded at each inner loop start and each LQ solve.",
  "status": "proved"
 },
 "C19": {
  "note": "Exact arithmetic: every run ends whenever the inner criterion is never exactly zero, and hangs at a start with criterion zero. Rounding to nearest on any grid, ties in any way: every run ends, also at criterion zero, when the factor min(mu, 0.99)^dual_beta stays below one half (default parameters: mu_init below 0.5); with a factor above one half a run started where the criterion is below the least positive number never returns (binary64 with mu_init = 1). Rounding is modelled in the tightening loop only.",
  "status": "partial"
 },
 "C20": {
  "note": "Iteration bound for every environment; regularisation bounds when reg_init is inside them (it is not clamped: witness). A true flag has one of two reasons; the slope-threshold exit and NaN norms refute the full claim (witnesses).",
  "status": "partial"
 },
 "C21": {
  "note": "Accepted pairs are consistent and within bounds, the search terminates; exhausted and throwing searches return inconsistent pairs (witnesses).",
  "status": "partial"
 },
 "C22": {
  "note": "Lower bound on the step, contraction bounds, evaluation count and termination for every merit function; the full claim for finite merits with bisection or quadratic interpolation; four counterexamples for throwing, NaN and cubic cases.",
  "status": "partial"
 },
 "C23": {
  "note": "Quadratic: unique interpolant and minimiser over the contraction interval. Cubic: right-hand side is swapped, interpolates iff the residuals agree (witness); the step is a local minimiser of the code's own cubic. The 2x2 QR solve is a parameter, exact on regular systems.",
  "status": "partial"
 },
 "C24": {
  "note": "Every merit function and every history of runs and resets; exceptions leave the search only from the evaluation at alpha_min. Exact arithmetic; the values phi0 are finite.",
  "status": "proved"
 },
 "C25": {
  "note": "Pareto-front/antichain/rejection/coverage proved for all histories without throwing merit evaluations and with beta = 0 for the antichain; negations proved with witnesses for positive margins and throwing merits.",
  "status": "partial"
 },
 "C06": {
  "note": "Every horizon >= 1, all dimensions, every parameter value, any Gv; equality with the serial solver and equivalence of success when the terminal knot has nx2 = 0. C06_terminal_with_next_state_never_factors: a terminal knot with nx2 > 0 and controls or constraints always makes the dense terminal factorisation singular (failure not reported). Horizon 0 reads out of bounds in the code (modelled as an error outcome).",
  "status": "proved"
 },
 "C07": {
  "note": "False of the code: the terms pt + Ptt theta of all later knots are never accumulated. Proved: the exact defect for every problem; correctness when only the first knot is parametrised; the negation on a concrete problem where the serial solver is right.",
  "status": "partial"
 },
 "C55": {
  "note": "Closed form of the primal tolerance at every outer iteration of every run; one-step laws for penalty and inner tolerance. After a reset of the penalty the tolerances keep the values computed with the old, small penalty.",
  "status": "proved"
 },
 "C15": {
  "note": "lqrComputeKktError: exact violation measure, zero iff KKT (Gv theta = 0; C15_error_ignores_Gv otherwise). Sparse assembly: equivalent, for all problems and vectors, to the KKT system with the sign of the next state flipped; C15_sparse_system_wrong_sign shows it is not the KKT system. Splitting and concatenation inverse. evaluate: exact up to the terminal control terms, which it omits.",
  "status": "partial"
 },
 "C10": {
  "status": "proved",
  "note": "Evaluation and derivatives: for every distribution of the iterations over threads and every interleaving of the elementary steps the memory and the cost equal those of the sequential loop, given private data objects, which createData provides; with a shared object the result depends on the schedule (counterexample). The parallel regions of the LQ solver are race free in the same sense, and what they leave behind is the recursion of each leg (C10_parallel_forward_values, C10_parallel_backward_values). Assumes that OpenMP grants the requested number of threads."
 },
 "C32": {
  "status": "proved",
  "note": "For every problem, trajectory and schedule: wrong lengths throw; otherwise every data object holds the result of its own callback at its own point and the cost is the sum. The data must have been created for this problem: with longer data stale costs are added, with shorter data the accesses are out of range (both shown)."
 },
 "C29": {
  "status": "partial",
  "note": "Full decision table proved. The property fails in three ways, shown: a state guess without controls is silently ignored; a rejected guess may be partially written; wrong-size multipliers are partly used. A warm start that violates the forced initial condition is never corrected, for any number of iterations."
 },
 "C30": {
  "status": "proved",
  "note": "For every sequence of calls and horizon >= 1; the integrity check is equivalent to a separate chaining specification, and the shift preserves it exactly when the new stage fits."
 },
 "C31": {
  "status": "partial",
  "note": "Results: exact contents after the shift for all dimensions; dimensions right for any number of shifts if the control and next-state dimension stay; otherwise wrong (shown, and guesses are then rejected). Workspace: identical to a new workspace for any number of shifts when state and control dimensions are uniform and horizon >= 2; horizon one is undefined behaviour and mixed control dimensions give wrong buffers (shown). Serial LQ solver: factor dimensions right. Parallel LQ solver: for any number of shifts with knots of any dimensions equal to a newly built solver, on two to N+1 threads. Dense LQ solver: value functions and factorisations right, but the factor blocks keep the sizes of the knot that left (equal to a new solver exactly when the new knot has the same dimensions)."
 },
 "C33": {
  "status": "proved",
  "note": "For every sequence of pushBack and clear. A moved-from stack is shown to be unusable until clear."
 },
 "C34": {
  "status": "proved",
  "note": "For all dimension lists, on the flat column-major buffer with outer stride: unique block of every entry, block writes change only their block, row/column views, top rows share the buffer. Data of another shape is silently discarded or reinterpreted (shown)."
 },
 "C35": {
  "status": "proved",
  "note": "Every set of the library and nested products of them (also of user-defined projections), every dimension and vector; independent of the previous content of the output buffer. With lower > upper the result violates the bounds (shown)."
 },
 "C36": {
  "status": "proved",
  "note": "Unique minimiser, complementary projection on the ball, Moreau envelope is the attained infimum. With the default parameter (never set by the solvers) the operator is the identity (shown). Products of penalties: right if the parameter of every component was set before the product was built (C36_product_of_penalties); the parameter of the product reaches no component (C36_product_parameter_ignored, C36_product_parameter_negation). In the solver the parameter m of a set stays as it was: kept multipliers are exactly the subgradients of (m / mu)|.|, so the weight of the penalty is m / mu (C36_weight_in_solver), 0 if it was never set (C36_unset_in_solver)."
 },
 "C37": {
  "status": "partial",
  "note": "Row identities for every set and point. The derivative statement is proved for regular parameters (lower < upper, mu > 0), including one-sided behaviour at kinks, and refuted for a box with lower = upper and for the l1 set with its default parameter 0."
 },
 "C38": {
  "status": "proved",
  "note": "For every list of components, including the component order, empty blocks and the constructor's size check. Vectors longer than the blocks are not refused, their end is not written (C38_longer_vectors)."
 },
 "C26": {
  "status": "proved",
  "note": "For every set on which the library projects (C35), every penalty > 0: formula, residual = value - point of the set, residual zero iff feasible and multiplier in the normal cone; multiplier residual zero iff the multiplier is the estimate."
 },
 "C27": {
  "status": "proved",
  "note": "Every horizon, every stage dimension, every list of constraints; the computed gradient is paired with every direction and equals the derivative of the Lagrangian written from the problem functions. Vector-space states; without multipliers the gradient is the one of the cost plus constraint terms only."
 },
 "C28": {
  "status": "partial",
  "note": "The exact derivative of the merit function is proved for every direction and compared with the returned value: they agree when the multiplier direction is zero and differ by mu*lam+ . dlam otherwise; the defect is exhibited on a concrete problem. Missing: agreement for a nonzero multiplier direction, which is false."
 },
 "C41": {
  "status": "partial",
  "note": "For every history of add/scale/constructor calls with arbitrary components and any iteration order, value, gradient and Hessian are the weighted sums over the stored components, and a history without repeated keys stores exactly what was added. Missing: a repeated key silently drops the new component (witness), data created before a later addition is undefined (witness)."
 },
 "C48": {
  "status": "partial",
  "note": "Explicit rollouts: every length, states satisfy the dynamics, arguments checked (after the first state is written). Implicit rollouts: residual at most the tolerance at every knot when Newton converges. Missing: a failing Newton solve is not reported, the list overload returns 2N+1 entries (both shown). List of implicit models: C48_implicit_list_partial (given an output of at least N + 1 states of the right length, the first N + 1 are the rollout and N neutral elements follow)."
 },
 "C49": {
  "status": "proved",
  "note": "For every residual function and linear solver: reported convergence implies the bound, the residual norm never increases over accepted steps, the search ends for every contraction factor < 1 (28 rounds by default) and not for 1; the direction uses a stale residual when the line search ends on its bound (shown); the default search takes the first of 27 steps 0.7071^k that lowers the norm to 99 %; an exact step ends the procedure after one iteration."
 },
 "C50": {
  "status": "partial",
  "note": "Programs of any length over construction, copy, move, assignment, resize, conservativeResize, destruction: no bad free, no null access, no sharing, no leak for careful clients (defined by the client's own bookkeeping); C50_shapes: dimensions, for all clients. C50_move_across_resources: a move to another resource leaks the block of its argument, in every state. Missing, with witnesses: shrinking by conservativeResize, moves between allocators, reuse of moved-from matrices."
 },
 "C51": {
  "status": "partial",
  "note": "For every sequence of calls: lookups agree with a list of named contacts while names are distinct. Missing: duplicate names and removal indices are not checked (witnesses)."
 },
 "C53": {
  "status": "proved",
  "note": "For every sequence of registrations and removals; each invocation calls every registered callback exactly once in any table order; the history callback grows by one entry per call."
 },
 "C39": {
  "status": "partial",
  "note": "Vector spaces, Cartesian products and tangent bundles over components given by their methods: laws, parts, split/merge, neutral elements, block Jacobians and transport proved. Missing: the Lie groups themselves (SO, SE, multibody spaces come from Pinocchio and are taken as components satisfying the laws). The end points of the interpolation on tangent bundles fail (C39_bundle_interpolation), and multiplying from the left appends at the right (C39_left_factor_goes_right). A wrong argument number of the Jacobian of the difference is refused on vector spaces and products with one; Jacobians of vector spaces, products and bundles ignore the previous content of the output; on groups a wrong number is not noticed and Python receives uninitialised memory (proved)."
 },
 "C40": {
  "status": "partial",
  "note": "Only one direction holds: normalised points are accepted. The converse is refuted for products: every vector of the right size is accepted (C40_accepts_everything, C40_witness)."
 },
 "C42": {
  "status": "partial",
  "note": "Quadratic and quadratic-residual costs: values for all weights and histories; gradients after an evaluation at the same point, right everywhere iff the weights are symmetric (iff proved); Hessians. The code violates the rest: non-symmetric weights, gradients from stale buffers, Hessian fixed at createData, and gauss_newton=false overwrites the Gauss-Newton term (witnesses proved)."
 },
 "C43": {
  "status": "partial",
  "note": "Constructor checks, values and gradients of log and relaxed barriers, C1 smoothness at the threshold, for all residuals and histories. The code violates the Hessian part: the log barrier's has the opposite sign, the relaxed one's is not the second derivative (proved)."
 },
 "C44": {
  "status": "partial",
  "note": "On vector spaces, for every ODE whose own derivatives are right: formulas of Euler, semi-implicit Euler, RK2 and midpoint on any data; Jacobians of Euler and semi-implicit Euler on any data, of RK2 and midpoint after an evaluation at the same point (missing otherwise: both use the stored midpoint, negation proved). Linear ODEs and ODEs as implicit dynamics included. On arbitrary manifolds, after an evaluation at the same point and any earlier calls: Euler, semi-implicit Euler (tangent bundles), RK2 where Jacobians do not depend on the base point (negation elsewhere), midpoint if and only if its transports change nothing (negation on a curved group)."
 },
 "C45": {
  "status": "partial",
  "note": "For every function, step and calling history: perturbation buffers are zero after every call, values are right, columns are difference quotients after an evaluation at the same point, exact for affine functions, tending to the derivative as the step tends to zero; gradients of the cost helper on any data. The code violates the rest: Jacobians compare with the value of the last evaluation, wherever it was (C45_stale); the stage-function helper sizes a buffer with an uninitialised member (C45_create)."
 },
 "C46": {
  "status": "partial",
  "note": "For every function, index list (repeated, permuted), matrix and data: values and Jacobians of slices and compositions, also as derivatives of the sliced and composed functions; out-of-range indices. The code violates the part on vector-Hessian products: a slice zeroes the selected multipliers instead of the others, indexes them by output, and never reports the result; a composition does nothing (negations proved)."
 },
 "C47": {
  "status": "proved",
  "note": "For all pairs of costs and of dynamics, dimensions and calling histories from new data: each component's data evolve as if called alone on its block; value, next state, gradients stacked, Hessians and Jacobians block diagonal; they are the derivatives of the sum and product functions when those of the components are. Derivatives on vector spaces; dynamics with one state space each, as the constructor builds them."
 },
 "C52": {
  "status": "partial",
  "note": "For every number of contacts, contact pattern, force size of at least three, state, control and calling history: values equal to the mechanics (Newton-Euler, cross products), Jacobians are the Fréchet derivatives; cone residuals nonpositive exactly on the friction cone and on the contact wrench cone. The code violates the property for the angular-momentum residual on states larger than nine (negation proved for every such state). Second derivatives (left at zero by these functions) and force sizes below three are not covered."
 },
 "C54": {
  "status": "proved",
  "note": "Every horizon, dimensions, constraint lists over products of library sets, penalty, regularisation, Hessian option: KKT points of the assembled subproblem are exactly the semismooth Newton steps (true Newton steps off the kinks); residuals at zero step; zero step iff proximal stationarity; the modelled linear solver returns such a step. With a forced initial condition the same up to the multiplier of the initial condition. Vector-space states; curvature is whatever the callbacks returned."
 },
 "C56": {
  "status": "partial",
  "note": "False of the code for inequality constraints: C56_converged_not_optimal exhibits a strictly convex quadratic program on which the solver, with default parameters and exact solutions of all subproblems, reports convergence after one iteration at cost 0.49 while the optimum is 0. The test of convergence looks at the gradient of the Lagrangian at the new multipliers and at the infeasibility, never at the residual of the multipliers themselves, so a multiplier of the wrong sign passes. Proved: stationarity with the returned multipliers, feasibility, and complementarity with other multipliers at distance crit/mu (C56_converged_partial, C56_approximate_KKT_partial); the full claim for equality-constrained problems (C56_equality_constrained_KKT). C56_primal_dual_multipliers_bounded: with PRIMAL_DUAL updates (whose buffer nothing fills) every multiplier returned with true is at most (tolerance + last inner criterion)/mu."
 },
 "C57": {
  "status": "partial",
  "note": "False of the code: no call of the solver computes vector-Hessian products, and no callback receives the multipliers. EXACT assembles the same subproblem as GAUSS_NEWTON for all callbacks that leave the second-order buffers alone, which all of the library's do (C57_exact_is_gauss_newton); no callbacks whatsoever can make it exact (C57_no_callbacks_are_exact). Proved: the curvature is the Hessian of the Lagrangian iff the weighted second-order terms of initial condition, dynamics and constraints vanish (C57_exact_iff_no_curvature_partial), so for affine problems always (C57_affine_problems). Vector-space states."
 },
 "C58": {
  "status": "partial",
  "note": "False of the code away from feasible iterates: the rollout closes the full defects at every step length and feeds the unscaled initial step back into the first control and multiplier, so a step of length zero is the iterate iff the dynamics hold and the first gains do not see the initial step (C58_zero_step; C58_initial_step_unscaled for affine dynamics). It never evaluates the initial condition: inside one inner loop the recorded infeasibility stays at the violation at its entry (C58_initial_residual_stale), the loop can only succeed by a vanishing directional derivative (C58_inner_loop_cannot_converge), and without a forced initial condition every step corrects the violation at the entry again (C58_initial_state_overshoots); a whole run reports convergence at a trajectory that violates the initial condition by twice the tolerance (C58_run_converged_violates_initial_condition). Proved: dynamics hold for all trials (C58_trial_satisfies_dynamics, C58_no_defects), earlier trials do not matter (C58_history_independent), full agreement with the linear step for affine dynamics when a = 1 or the iterate is feasible (C58_affine_agrees_with_linear_step), first-order agreement and slope of the merit at feasible iterates with fixed initial state (C58_first_order, C58_merit_slope), and the directions of the Riccati solver are of the required form (C58_solver_directions_follow). For whole runs: with a forced initial condition a reported convergence means what it means with linear rollouts, with exact dynamics after the first iteration (C58_run_converged_partial); without, the violation of an affine initial condition is 1 minus the sum of the last step lengths times a vector within the tolerance (C58_run_converged_free_partial); the line search sees the merit of the problem with the held initial value (C58_merit_values). Vector-space states for the first-order results and runs; no NaN."
 },
 "C59": {
  "status": "partial",
  "note": "Proved: gaps contract by 1 - a on any manifold whose integrate/difference obey the stated laws, for all gains, and along every run (C59_gaps_contract, C59_full_step_feasible, C59_gaps_along_run); the gains are the unique minimiser of the regularised quadratic model (C59_gains_optimal; C59_convex_posDef gives the positive definiteness for convex models); slope of the cost in terms of the backward pass (C59_slope); convex linear-quadratic problems: full step accepted and proximal optimum (C59_lq_step), bound for every run with any regularisation (C59_lq_run), optimum in two iterations without (C59_lq_two_iterations). False of the code: the predicted decrease is wrong for partial steps with gaps by (1 - a)^2 dv (C59_prediction_error, C59_prediction_wrong; exact for a = 1 or no gaps); true is returned at a trajectory that is not stationary when the predicted slope vanishes (C59_converged_not_stationary; bound proved for the other exit in C59_converged_partial); the reported cost uses the last control in the terminal cost (C59_reported_cost_wrong; right when the terminal cost ignores its control). Exact arithmetic, no exceptions in callbacks, one tangent dimension for all nodes; the Cholesky solver is any function that solves positive definite systems."
 },
 "C60": {
  "status": "partial",
  "note": "Pinocchio is a universally quantified family of functions assumed to obey Spec.Lawful (placements move with the body velocity given by the LOCAL Jacobian, the other Jacobians are its images, derivatives are derivatives). Proved after every history of calls: translation, placement, equality, collision, centre of mass, momentum rate on states of any width; frame velocity, centre-of-mass velocity, divergent component, fly-high and centroidal momentum when the state is configuration and velocity only (_partial); gravity compensation exactly when the uninitialised buffer is zero at pairs of joints on different branches (_iff_partial). Where the full statement fails: wider states (theorems _wide_negation: the derivative in the velocity goes to the last columns), frames changed to one that some joint does not move (_change_negation: stale columns), Jacobians asked at another point than evaluated (_point_negation). C60_frame_equality_zero: the residual vanishes exactly at the reference, unlike the documented formula. Examples: a robot with two joints for which all laws are proved. Pinocchio's own algorithms and the meaning of its data fields are trusted."
 },
 "C61": {
  "status": "partial",
  "note": "Pinocchio's constrained dynamics is a universally quantified family of functions obeying Spec.DynLaw. Proved after every history of calls, for the default solver settings and when all contacts before the named one have its size (_partial): value and Jacobians of the contact force, the wrench cone (17 half-spaces = Spec.InWrenchCone) and the friction cone where the tangential force is not zero. Full statement fails: C61_settings_negation (the settings given to the constructor are never used: the data object has default ones), C61_mixed_sizes_negation and C61_out_of_range (row = contact index times own size: another contact's force, or out of bounds), C61_friction_cone_nan (zero tangential force: the Jacobian is 0/0). C61_contact_lookup: name lookup and rejections."
 },
 "C62": {
  "status": "proved",
  "note": "Pinocchio's forward dynamics (ABA, constrained, centroidal) are universally quantified families obeying Spec.FreeLaw, DynLaw, KinoLaw; PartialPivLU::inverse is assumed to invert invertible matrices, FullPivLU::rank to be the rank. Histories of calls are arbitrary. C62_kinodynamics: the rate of the state is the unique solution of the equations of motion (IsMotion) and both Jacobians are its derivatives, for any number of contacts, activation pattern and force size of at least three. Examples: damped pendulum, point held by a proximal method with non-default settings, body with flywheels and a swinging arm standing on a foot."
 },
 "C63": {
  "status": "partial",
  "note": "Proved for every manifold obeying Track.Lawful and every history of calls, including changes of target. Missing, each with a theorem: the Jacobian of the control error is undefined on control spaces with more coordinates than tangent directions (C63_control_manifold); a gradient call after setTarget without a new evaluation uses the old error (C63_set_target_stale); with gauss_newton off the Hessian is zero (C63_exact_mode_zero); targets of wrong size on vector spaces and the number of rows of the weights are not checked (C63_target_size, C63_weights)."
 },
 "C64": {
  "status": "partial",
  "note": "Values and Jacobians proved for all sizes and histories of calls. Missing: matrices of inconsistent sizes are accepted by the constructors of the linear function (assertion only) and the linear dynamics (nothing), later calls are undefined (C64_linear_function_sizes, C64_linear_dynamics_sizes)."
 },
 "C65": {
  "status": "partial",
  "note": "Crocoddyl's models are universally quantified (ActionLaw, TerminalLaw). Proved after every history of calls: value, next state, gradients, Jacobians, Hessian blocks, trajectory cost (C65_stage, C65_terminal, C65_convert). Full statement fails: constraints added to a wrapped stage are never evaluated (C65_constraints_ignored, C65_constraint_negation), rolling out its dynamics model stays at the neutral state (C65_dynamics_negation), wrapped cost models throw when data is made (C65_cost_model_negation), a problem without running models cannot be converted (C65_empty), and the lower mixed Hessian block is never written (C65_lower_block_zero; no solver of the library reads it)."
 },
 "C66": {
  "status": "partial",
  "note": "Pinocchio's nonlinear effects and Jacobian are universally quantified; QR solves least squares (LeastSquares, instances exist: leastSquares_exists). Proved when the memory of the work matrix is zero in the entries Pinocchio leaves alone, or there are none (C66_balance_partial, C66_static_partial). C66_uninitialised: otherwise the torque is any number, the matrix is never zeroed; that Pinocchio writes only columns of joints supporting a constraint is taken from its documentation. C66_cannot_hold: the two side conditions are necessary, and nothing reports their failure."
 },
 "C67": {
  "status": "proved",
  "note": "C67_refines: programs of any length refine a store of trees, including which statements throw or are undefined; C67_total, C67_independent, C67_copy, C67_move, C67_stage_is_copied, C67_exception, C67_ownership are consequences read on memory. Default allocator only, as everywhere in the library; the branches for unequal allocators are not modelled. Undefined although they look harmless, proved for all cases: C67_take_own_member (x = std::move(x->member)), C67_add_own_function (addConstraint with a function of the same stack, when its vector is full); C67_add_constraint_throws: a throwing set copy leaves the stack with one function too many. Shared pointers occur only in the Crocoddyl wrappers and are part of the payload."
 },
 "C68": {
  "status": "partial",
  "note": "Proved for the serial solver (C68_serial_gains, C68_serial_gains_of_last_subproblem): control, multiplier and next state of every solution from every state, at every stage, for any horizon. The code violates the property otherwise: the dense solver's gains have nx2 more rows than the results' matrices (abort with assertions, C68_dense_gains_size_mismatch; without them control and multiplier rows are right and the third block is the costate); the parallel solver's gains of all legs but the last ignore the rest of the horizon (C68_parallel_gains_partial says exactly what they are, C68_parallel_gains_wrong is a witness); a run whose guess already meets the tolerances leaves the gains untouched, zero after setup (C68_converged_guess_leaves_gains, C68_feedbacks_zero_before_first_solve)."
 },
 "C69": {
  "status": "partial",
  "note": "Proved: after setup nothing of the past matters, whatever the strategy (C69_after_setup_partial); with the Armijo search never (C69_armijo, any history of calls); with the nonmonotone search after histories whose runs all converged (C69_nonmonotone_partial); FDDP never (C69_fddp_partial). Each for problems whose callbacks neither throw nor give NaN. Missing because false: the filter is never reset by run or cycleProblem, so for every problem whose first full step is taken a second run from the same guess takes another step (C69_filter_never_forgets, C69_filter_rerun_differs; C69_filter_rerun_fails: it does not converge where the first run did); the moving average of a run that did not converge is used by the next (C69_nonmonotone_stale_average); a NaN guess reports infeasibilities, and a throwing line search returns trajectories, left by an earlier run (C69_nan_guess_reports_stale_values, C69_throwing_returns_stale_trajectory); a changed strategy is ignored or raises until setup (C69_strategy_change_ignored, C69_switch_from_filter_raises); FDDP whose rollouts all fail returns the stale trial buffers, and true or false depending on the slope left by an earlier run (C20_C69_fddp_failed_rollouts, C69_fddp_flag_depends_on_history). C16_C69_run_is_loop: each such run refines the loops of C16, so the guarantees of C16 also hold on used solvers (C16_used_solver_partial). The same for FDDP: C20_C69_fddp_run_is_loop, C20_fddp_used_solver_partial. Settings and guesses: alpha_min lowered after setup switches the regularisation increase off for good (C69_alpha_min_lowered_after_setup, C69_alpha_min_example); multipliers not given are those of the last run (C69_omitted_multipliers_are_stale; given: C69_given_multipliers). The trial points left by a search are those it evaluated (C69_calls_are_evaluations)."
 },
 "C70": {
  "status": "partial",
  "note": "Proved for all dimensions, coefficients, allocators: new knots (C70_new_knot, C70_short_constructors), copies, assignments and moves of knots and problems (C70_copy_knot, C70_assign_knot, C70_move_knot, C70_move_knot_to, C70_copy_problem, C70_move_problem, C70_move_assign_problem, C70_problem_of_knots), addParameterization (C70_add_parameterization, C70_problem_add_parameterization), the queries isInitialized, horizon, ntheta, isParameterized (C70_problem_queries), comparison of knots (C70_isApprox_iff, C70_isApprox_refl_symm). Missing because false: the comparison of problems ignores the terminal knot (C70_problem_isApprox_ignores_terminal, C70_problem_isApprox_wrong), reads out of range without knots (C70_problem_isApprox_empty) and trips an assertion on different nc0 (C70_problem_isApprox_sizes); equality of knots is relative block by block and not transitive (C70_isApprox_zero_block, C70_isApprox_not_transitive); G0 and g0 of a new problem and the dimensions of a default knot are not initialised (C70_initial_constraint_uninitialised, C70_default_knot_dims); the documented allocator rules fail (C70_copy_ignores_allocator, C70_move_assign_copies); copying a moved-from knot and assigning the initial constraint of a moved-from problem are undefined (C70_moved_from, C70_moved_from_initial_constraint)."
 },
 "C71": {
  "status": "partial",
  "note": "Proved for Q-functions (C71_value_semantics, C71_rotation): refinement of a program on values, for all programs and dimensions, with definedness on both sides. Missing because false: cost data has the implicit copy constructor, whose blocks stay those of the original (C71_cost_data_copy_shares_blocks) and dangle when it is destroyed (C71_cost_data_copy_dangles); of cost data only the gradient blocks are modelled here (all blocks, and function and dynamics data, in C85)."
 },
 "C72": {
  "status": "partial",
  "note": "Proved for problems with uniform state sizes whose terminal cost takes a control of the size of the last one (C72_runs_in_its_memory), and shown necessary: one iteration with one trial needs all of that (C72_needs_uniform_states), while set up accepts more (C72_setup_accepts_more). The C++ cycleLeft gives the workspace of a new set up exactly if the new control has the size of the old first one (C72_cycleLeft_iff). Missing because false: cycleAppend rotates the base class only, so it does so exactly if all controls have the same size (C72_cycleAppend_iff) and otherwise the next iteration is undefined (C72_cycleAppend_varying). Only sizes are modelled; guesses are taken to have the sizes of the results; a call with a wrong size counts as undefined even if a user's model would tolerate it. The sizes that each part of an iteration relies on are listed in C72_infeasibility_reads, C72_backward_stage_reads, C72_improvement_reads and C72_forward_stage_reads."
 },
 "C73": {
  "status": "partial",
  "note": "Proved for programs that use literal names and add no column after a row with an empty cell (C73_prints_the_table), for all sequences of ProxDDP runs (C73_prox_prints_iterations), and for a first verbose FDDP run, with what it really prints: an empty column \"cost\", and the last row twice if the convergence test ends the run (C73_fddp_first_run_partial). Missing because false: FDDP declares its columns in every run, so they pile up (C73_fddp_columns_pile_up), and, with vectors that double their capacity, the second verbose run looks up a key whose characters have been freed (C73_fddp_second_run_undefined); a name owned by the caller must outlive the logger (C73_borrowed_name_undefined). The characters printed for a number are a parameter."
 },
 "C74": {
  "status": "partial",
  "note": "Proved exactly: a problem that setup accepts can be run (any loops, turns, trials, either rollout) if and only if all tangent spaces have one size, the state sizes fit together and the horizon is not empty, and then no buffer changes its size (C74_runs_exactly_in_uniform_tangent_spaces); every other problem is undefined by the first trial (C74_other_problems_undefined), although setup accepts some, also with another tangent size of the next state (C74_setup_accepts_other_sizes) or no stage (C74_empty_horizon). For each part of an iteration the sizes that an execution relies on are listed (C74_evaluation_reads, C74_multipliers_read, C74_lagrangian_reads, C74_criterion_reads, C74_projection_reads, C74_backward_reads, C74_forward_reads, C74_gains_reads, C74_slope_reads, C74_linear_step_reads, C74_rollout_reads). Solves and shifts in any order keep the memory of a fresh setup if all stages have the same state, tangent and control sizes and the horizon has at least two (C74_controller_partial). Missing because false: a new stage with another control size makes the next run undefined (C74_other_control_size_undefined), and a horizon of one cannot be shifted (C74_shift_horizon_one_undefined). Only sizes are modelled, for the serial solver; guesses are taken to have the sizes of the results; a call with a wrong size counts as undefined even if a user's model would tolerate it."
 },
 "C75": {
  "status": "partial",
  "note": "Proved: every program either behaves as the value semantics in which copying is what copy.deepcopy makes of the class (C75_refines), or is undefined, and then its first undefined statement uses an object that was read back from a problem and replaced there (C75_ub); programs without such an assignment are never undefined (C75_safe). With a class whose copies are faithful and without deleting attributes, it is the ideal semantics (C75_values_partial). Dropping all names destroys everything but the objects and problems of reads (C75_left_over, C75_no_leak). Missing because false: an object read back and its problem keep each other alive for ever (C75_read_leaks, C75_leak_witness); an object read back dangles when the problem gets another (C75_replaced_dangles, C75_stale_ub); copy.deepcopy does not copy the C++ part unless the class rebuilds it (C75_deepcopy_loses); a deleted attribute is back in the stored copy (C75_deleted_returns); a class whose instances cannot be deep-copied cannot be stored (C75_unstorable). Boost.Python, reference counts and copy.deepcopy are modelled from their documentation; attribute values are not shared between objects."
 },
 "C76": {
  "status": "partial",
  "note": "Proved for every LQ problem without path constraints: the full step along a solution of the linear system satisfies initial condition and dynamics exactly and leaves a Lagrangian gradient of minus the regularisation times the step (C76_full_step); a feasible trajectory with gradient at most eps is optimal up to eps times the distance (C76_near_optimal); closed forms for the slope and the change of the merit function over the full step (C76_merit_of_full_step); the run reports convergence after exactly one iteration when a control gradient exceeds the first tolerance, the step is a descent direction and passes the Armijo test (C76_one_iteration_partial); from a guess that satisfies the dynamics, the exact condition for the test to pass, an inequality between step, multipliers and penalty parameter (C76_feasible_guess_test), descent for every step that moves (C76_feasible_guess_descent), and the run with that condition (C76_feasible_guess_run_partial). Missing, because false: the conditions on the guess. Started at an optimal trajectory with multipliers that are not optimal the run never moves and never reports convergence (C76_optimal_start_stalls); the same where only the last dynamics constraint is violated (C76_last_defect_stalls, also for nonlinear problems); multiplying the cost by 2001 makes the merit function refuse the exact step (C76_full_step_rejected); from guesses that satisfy the dynamics, with zero multipliers, every accepted step length is bounded by the excess of the guess's cost over the optimum (C76_feasible_guess_step_length, C76_good_guess_short_steps, C76_good_guess_witness)."
 },
 "C77": {
  "status": "partial",
  "note": "Proved for every linear-quadratic problem with equality path constraints: the full step (C77_full_step), the exact energy balance with respect to any first-order point (C77_energy), monotonicity for convex problems (C77_closer) the linear contraction under an error bound (C77_contraction), that an error bound holds if and only if trajectory and multipliers of the first-order point are unique (C77_error_bound, by a left inverse of the linearised conditions), and hence contraction by any wanted factor for small parameters on every convex problem with a unique first-order point (C77_contraction_unique); by induction over outer iterations with both branches (multiplier update, penalty decrease) the run reports convergence after at most M + 1 iterations with r^M times the initial error below the squared tolerance (C77_run_converges_partial; an example with the default parameters and either line search, three iterations). Slope and change of the merit function over a full step are given in closed form at every iterate (C77_merit_of_full_step); at iterates that satisfy the dynamics the test of the line search is equivalent to an inequality between step, change of the constraint values and multipliers of the dynamics (C77_feasible_test, C77_full_step_iff), every step on a convex problem is a descent direction, and it is accepted when the multipliers of the dynamics do not grow (C77_feasible_descent). Missing: acceptance of the full steps by the line search at the states reached is a hypothesis (false in general, C76_full_step_rejected), as is that the penalty stays above its lower bound for M decreases; inequality constraints are in C78 and C79."
 },
 "C78": {
  "status": "partial",
  "note": "Proved for every linear-quadratic problem with path constraints in the sets of the library: the full step and the rows of the multipliers (C78_full_step, also for the l1 set), the energy balance, monotonicity, the certificate in the reported infeasibility, the rate along sequences of full steps with multiplier updates, the effect of an exact inner solution; what 'no constraint changes side' means (C78_same_side) and that it holds exactly when the constraint part of the inner criterion vanishes after the step (C78_inner); that it cannot be dropped (C78_side_change). Missing: a bound on the number of inner iterations until no constraint changes side, and hence global convergence of whole runs with inequalities (C79 has runs that start with the active constraints of the solution); the l1 set in the distance statements."
 },
 "C79": {
  "status": "partial",
  "note": "Proved for every linear-quadratic problem with path constraints in the sets of the library: monotonicity and contraction of full steps from states on the sides of the solution (C79_closer, C79_contraction); the error bound this needs from uniqueness and strict complementarity (C79_error_bound), the neighbourhood in which the active constraints can be told (C79_told), and hence contraction by any wanted factor (C79_contraction_unique); convergence of whole runs (C79_run_converges_partial) by the induction over outer iterations of C77, with two examples (active lower bound, three iterations; no active bound, one iteration) with the default parameters and line searches. Missing: the guess must have the active constraints of the solution and zero multipliers on the inactive ones (runs that first have to find the active constraints are not covered); acceptance of the full steps by the line search at the states reached is a hypothesis (false in general, C76_full_step_rejected), as is that the penalty stays above its lower bound for M decreases."
 },
 "C80": {
  "status": "partial",
  "note": "Programs of one thread. Proved: a zone restores the flag iff what its body leaves in the one saved variable is the flag at entry (C80_restores_iff); programs whose zones are not nested behave as with a stack of saved flags, including exceptions (C80_flat_programs_as_intended); a zone that ends with an inner zone leaves allocation forbidden (C80_nested_zone_forbids, negative); runs of ProxDDP with the serial and the dense linear solver restore the flag and call user code with it, for all iteration and trial counts (C80_proxddp_restores); with the parallel linear solver the first step leaves allocation forbidden for the trial steps, the callbacks and the caller (C80_parallel_solver_forbids, negative); FDDP's explicit BEGIN/END pair: an exception (NaN) between them leaves allocation forbidden, and without one END allows allocation even if the caller had forbidden it (C80_fddp_trial, C80_fddp_turn); the quadratic cost (C80_quadratic_hessian). Not modelled: other threads (the flag is thread local, workers have their own), user code that changes the flag itself."
 },
 "C81": {
  "status": "partial",
  "note": "Functions are represented by their dimensions. Proved for all programs that keep the initial condition of its kind and the control dimension of the terminal cost: every operation is defined and returns or throws what it would on values (C81_problems_are_values); references follow (C81_view_follows); integrity check with moved-from stages (C81_integrity_valueless); multipliers of initial guesses (C81_multipliers). Negative: an initial state of another length is accepted, unseen by the integrity check (C81_setInit_any), and leaves references dangling (C81_view_dangles); assigning an initial condition of another kind to the public member leaves the cached kind wrong: abort, undefined behaviour or exception on access (C81_replaced_by_other, C81_replaced_by_state); another terminal cost keeps the old control size (C81_terminal_control_stale); without terminal constraints the last multiplier keeps its old contents (C81_multipliers_kept). Not modelled: arguments that alias the problem itself, allocators."
 },
 "C82": {
  "status": "partial",
  "note": "Programs of any length over block matrices that own their data. Proved: programs that do not misuse them are defined in all builds and show what they show on values (C82_block_matrices_are_values), accesses through such an object are defined exactly for the entries of its blocks (C82_access_iff). Violated, with exact statements and witnesses: swap exchanges the matrices and keeps the partitions, so the result is a block matrix exactly if the sums agree, and even then the blocks are cut elsewhere (C82_swap_keeps_partitions, C82_swap_witness); an object moved from keeps its sizes without data (C82_moved_from) or gets the old matrix of the target (C82_moved_into); assigning a matrix of another shape aborts in debug builds and leaves partition and sizes wrong in release builds (C82_assign_other_shape); data of another shape given to a constructor is lost or dealt out again by columns, in all builds (C82_data_of_other_shape). Not modelled: views over Eigen::Ref (C34 covers topBlkRows), row-major storage, isApprox, printing."
 },
 "C83": {
  "status": "partial",
  "note": "Programs of any length over problem data, stage data and their owners, with a memory of objects behind shared pointers and the thread schedules of Model/TrajOptProblem. Proved: programs that copy no problem data and hand stage data over once can be executed, and every execution on any schedule is defined and shows what the program shows on values (C83_data_objects_are_values). Violated, with exact statements and witnesses: a copy shares all objects with the original, so evaluating with the copy changes everything the original shows except its recorded cost, which becomes stale (C83_copy_shares); a shift takes any stage data, and the knots keep data of their own exactly if it is not in use already (C83_shift_iff); stage data handed over twice makes the cost depend on the schedule, and both results are wrong (C83_same_stage_data_twice). Interleavings are of whole callbacks; torn writes are not modelled. Not modelled: weak pointers, data a user's callback keeps elsewhere."
 },
 "C84": {
  "status": "proved",
  "note": "All members of the factors and of the solver as memory, every assignment of the passes writing what it writes in the code; fresh memory, failed factorisations and the caller's vectors hold arbitrary values. By an invariant over all histories: two objects with any histories end a pass in the same way with the same results (C84_history_independent); the pass is exactly the memoryless one of C01-C05 (C84_backward_refines); hence it leads to the only KKT point of the current problem (C84_reused_solver_solves). After the exception the initial stage, parameter derivatives and first gains are those of before (C84_exception_keeps_initial_stage), and a forward pass can contradict the current initial condition (C84_forward_after_exception). Arithmetic is exact; the operator left by a failed factorisation is linear and depends on the matrix only; a shift keeps the state and parameter dimensions at the first knot. The dense solver with its buffers (Model/DenseMem): from any memory, reachable or not, a pass whose factorisations succeed is the memoryless one of C06 (C84_dense_backward_refines, C84_dense_history_independent), and leads to the only KKT point (C84_dense_reused_solver_solves); a pass with a failed factorisation is not covered there (it returns true, C06). The parallel solver with its memory (Model/ParallelMem): after any history of constructions and shifts, new problem contents, passes with any settings and unchecked failures, the knots of the problem hold the current terms and exactly the costates as parameters (C84_parallel_knots_current), a pass is the memoryless one of C08 (C84_parallel_backward_refines), its result does not depend on the history (C84_parallel_history_independent) and is a KKT point of the current problem (C84_parallel_reused_solver_solves), with the hypotheses of C08 (dimensions that fit, symmetric costs, not exactly one refinement step). The client is assumed to write only the non-parametric blocks of the knots. An exception in a leg leaves an OpenMP region, which ends the program, so no state after it exists."
 },
 "C85": {
  "status": "proved",
  "note": "A heap with cells, matrices and views; the constructors allocate, bind the views with the offsets of the code (head, tail, corners, middle and right columns, each with Eigen's range assertion) and set zero. Refinement of all programs to values whose named blocks are given by variables (C85_value_semantics, both directions: a program is undefined exactly when an index is out of range); names disjoint and covering (C85_names_disjoint, C85_names_cover). Copies share and dangle (C85_copy_shares_blocks, C85_copy_dangles). The scalar value of cost data, derived data classes and explicit dynamics data (whose Jx(), Ju() are computed at each call) are not in this model."
 },
 "C86": {
  "status": "partial",
  "note": "Proved: setup accepts exactly what it should (C86_setup_decides); after an accepted setup on a solver with any past, runs use what was selected, for any later calls but rejected ones (C86_after_accepted_setup_partial), and unsupported combinations are not used unless rollout or threads are changed after setup (C86_unsupported_not_used_partial); a problem failing the integrity check is refused without effect (C86_integrity_failure_harmless); an accepted setup repairs everything (C86_accepted_setup_repairs). Missing because false: a first setup refused for its settings leaves allocated results and workspace and a null linear solver, which the next run calls (C86_rejected_first_setup); a later one leaves the linear solver of the old problem on the new subproblem (C86_rejected_later_setup); likewise when user code throws while the workspace is made (C86_throwing_workspace) and for a shift to a problem that fails its integrity check (C86_rejected_shift); rollout changed after setup gives the refused combination (C86_parallel_nonlinear_unchecked), threads set after setup do not reach the linear solver (C86_threads_after_setup). Selecting the parallel solver alone is always refused, the default being one thread (C86_parallel_needs_threads). Four public settings are read by no function (see Model/Settings)."
 },
 "C87": {
  "status": "partial",
  "note": "Proved: block rows, components, costs and callbacks by index or key (C87_block_row, C87_elements); every program on arrays shows what it would show with memory that is never released exactly if it looks at an object only while something holds it (C87_arrays); always so for arrays from jac_buffer, vhp_buffer and the Hessians of the dynamics (C87_tied_arrays) and for the others as long as their object keeps a name (C87_named_owner); no leak (C87_released). Missing because false: blockCol compares its index with the number of row blocks, so it is right for all indices only with as many row as column blocks (C87_block_col, C87_block_col_partial, C87_block_col_wrong); m(i, j) checks nothing (C87_call); Lx… of CostData, value, Jx, Ju… of the function and dynamics data and the blocks of a block matrix do not keep their object alive, so Data(…).Lx dangles (C87_untied_array). Semantics of Boost.Python policies and of eigenpy's arrays trusted; attributes exposed by def_readwrite are not modelled."
 },
 "C88": {
  "status": "partial",
  "note": "Proved for all programs: which sets each run uses (C88_sets_in_use), and that they are those of the problem when the solver is set up again after every change (C88_current_sets_partial). Without that the claim is false: the workspace holds copies made at set up (C88_changes_ignored). Sets are opaque values; the integrity check of cycleAppend and setups that throw are in C86."
 }
}