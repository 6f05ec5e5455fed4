{"id": "C01", "title": "The serial LQ solver returns a KKT point", "statement": "Calling backward(mueq) and, when it does not throw, forward(xs, us, vs, lbdas, theta) on a linear-quadratic problem with symmetric Hessian blocks returns state, control, constraint-multiplier and costate sequences that satisfy every KKT equation of the problem exactly: initial condition, stage stationarity in x and u, dynamics, and the proximal constraint equation Cx+Du+d-mueq*v=0 at every knot including the terminal one.", "quantifier": "every horizon (including 0), every state/control/constraint/parameter dimension at every knot, all problem data with symmetric Q,R, every mueq, every parameter theta", "why_tests_cant": "Tests solve a few random problems of fixed size and compare residuals with a tolerance; they cannot cover every horizon, dimension pattern and data.", "anchors": ["include/aligator/gar/riccati-kernel.hxx: ProximalRiccatiKernel::terminalSolve, stageKernelSolve, forwardImpl", "include/aligator/gar/proximal-riccati.hxx: ProximalRiccatiSolver::backward, forward", "include/aligator/gar/lqr-problem.hpp"]}
{"id": "C02", "title": "The LQ solution is the only one", "statement": "When the serial solver's backward pass and initial-stage factorisation succeed, the KKT system has exactly one solution: any sequences satisfying all KKT equations are equal, component by component, to what forward() returns.", "quantifier": "every problem on which the backward pass succeeds and every candidate solution of its KKT system", "why_tests_cant": "A test can compare with one reference solver, it cannot exclude a second solution.", "anchors": ["include/aligator/gar/riccati-kernel.hxx", "include/aligator/gar/proximal-riccati.hxx"]}
{"id": "C03", "title": "For convex problems the LQ solution is a global minimiser", "statement": "If every stage Hessian [Q S; S^T R] is positive semidefinite and mueq>0, then the (xs, us) returned by the solver minimise the sum of stage costs plus the quadratic constraint penalty |Cx+Du+d|^2/(2 mueq), over all trajectories satisfying the dynamics and the initial condition.", "quantifier": "every feasible trajectory of every convex problem", "why_tests_cant": "Optimality quantifies over all competing trajectories.", "anchors": ["include/aligator/gar/riccati-kernel.hxx", "include/aligator/gar/lqr-problem.hpp: LqrProblemTpl::evaluate"]}
{"id": "C04", "title": "The feedback gains are the sensitivity of the optimal policy", "statement": "After backward(), at every stage t, for every state x (not only the nominal one) the affine law given by feedforward and feedback gains (u = kff + K x, v = zff + Z x, costate and next state likewise) rolled out to the end of the horizon satisfies the KKT equations of the tail problem started at x; and the stored value-function gradient and Hessian give the costate at x.", "quantifier": "every stage and every state reached at that stage", "why_tests_cant": "A policy must be right for all states, a test only checks the nominal trajectory.", "anchors": ["include/aligator/gar/riccati-kernel.hxx: computeInitial, stageKernelSolve, forwardImpl", "include/aligator/gar/proximal-riccati.hpp: getFeedforward, getFeedback"]}
{"id": "C05", "title": "Parametric LQ problems: gradient and Hessian in the parameter", "statement": "For a parametrised problem the solution returned by forward(..., theta) satisfies the parametric KKT equations for every theta, and the reported parameter gradient/Hessian (thGrad + thHess*theta) equal the derivative of the optimal value with respect to theta: sum over knots of gamma + Gx^T x + Gu^T u + Gv^T v + Gth theta.", "quantifier": "every theta, every parametric term (Gx, Gu, Gv, Gth, gamma)", "why_tests_cant": "Tests use a handful of parameters and never the Gv term.", "anchors": ["include/aligator/gar/riccati-kernel.hxx", "include/aligator/gar/lqr-problem.hpp: addParameterization, Gx, Gu, Gv, Gth, gamma", "include/aligator/gar/proximal-riccati.hxx: thGrad, thHess, kkt0"]}
{"id": "C06", "title": "The dense-stage LQ solver returns the same solution", "statement": "The stage-dense solver's backward/forward returns sequences satisfying the same KKT equations as the serial solver, hence the same solution whenever both succeed.", "quantifier": "every horizon >= 1, every dimension, all data", "why_tests_cant": "Same as C01.", "anchors": ["include/aligator/gar/dense-kernel.hpp", "include/aligator/gar/dense-riccati.hpp", "include/aligator/gar/dense-riccati.hxx"]}
{"id": "C07", "title": "The dense-stage LQ solver's parametric derivatives", "statement": "The stage-dense solver reports the same value-function parameter gradient and Hessian (pt, Ptt) as the recursion of the serial solver on problems with parametric terms at several stages.", "quantifier": "every parametrised problem with horizon >= 1", "why_tests_cant": "Only a non-trivial multi-stage parametrisation exposes a missing accumulation.", "anchors": ["include/aligator/gar/dense-kernel.hpp: DenseKernel::stageKernelSolve"]}
{"id": "C08", "title": "The parallel LQ solver returns the solution of the whole problem", "statement": "For every number of legs 2 <= numThreads <= horizon+1, the parallel solver's leg condensation, condensed system solve and forward pass return sequences that satisfy the KKT equations of the undivided problem, i.e. the result does not depend on the number of threads.", "quantifier": "every horizon, every leg count, all data with symmetric Hessians on which the factorisations succeed", "why_tests_cant": "Number of threads and horizon are unbounded; tests fix two or three values.", "anchors": ["include/aligator/gar/parallel-solver.hxx: ParallelRiccatiSolver::backward, assembleCondensedSystem, forward, initialize"]}
{"id": "C09", "title": "Work splitting covers the horizon exactly once", "statement": "The ranges handed to the legs are contiguous, ordered, pairwise disjoint, cover stages 0..horizon exactly, differ in length by at most one, and are all non-empty iff numThreads <= horizon+1.", "quantifier": "every horizon and thread count (within the unsigned arithmetic range; the wrap-around outside of it is characterised)", "why_tests_cant": "Arithmetic over all sizes.", "anchors": ["include/aligator/gar/parallel-solver.hxx: get_work"]}
{"id": "C10", "title": "Parallel stage evaluation does not depend on the schedule", "statement": "Evaluating the problem (costs, constraints, dynamics, derivatives) with any number of threads and any interleaving of stage evaluations leaves the same problem data and the same total cost as the sequential loop, provided stages do not share a data object; with a shared data object it does not hold.", "quantifier": "every assignment of stages to threads and every interleaving", "why_tests_cant": "Schedules cannot be enumerated by tests.", "anchors": ["include/aligator/core/traj-opt-problem.hxx: TrajOptProblemTpl::evaluate, computeDerivatives", "include/aligator/gar/parallel-solver.hxx"]}
{"id": "C11", "title": "Block-tridiagonal solve", "statement": "symmetricBlockTridiagSolve returns true exactly when the block counts agree and every factorisation succeeded, and then the right-hand side buffer holds x with T x = rhs, where T is the block-tridiagonal matrix of the inputs; it returns false without touching the data when the numbers of blocks disagree.", "quantifier": "every number of blocks >= 1, every block dimension, all data", "why_tests_cant": "Number and size of blocks unbounded.", "anchors": ["include/aligator/gar/block-tridiagonal.hpp: symmetricBlockTridiagSolve, symmetricBlockTridiagSolveDownLooking, blockTridiagMatMul"]}
{"id": "C12", "title": "Iterative refinement in the parallel solver preserves the solution", "statement": "Whatever the refinement settings, the condensed solution used by the forward pass solves the condensed system (in exact arithmetic refinement must not change a solved system).", "quantifier": "every maxRefinementSteps and threshold, every condensed system", "why_tests_cant": "Depends on the setting and on state kept from previous calls.", "anchors": ["include/aligator/gar/parallel-solver.hxx: ParallelRiccatiSolver::backward, maxRefinementSteps, condensedThreshold"]}
{"id": "C13", "title": "Feedback gains of the parallel solver", "statement": "After collapseFeedback(), the initial-stage feedback gain of the parallel solver equals the serial solver's one, i.e. the derivative of u0 with respect to x0 of the whole problem.", "quantifier": "every problem and leg count", "why_tests_cant": "Tests compare trajectories, not the gain of the first stage.", "anchors": ["include/aligator/gar/parallel-solver.hpp: collapseFeedback"]}
{"id": "C14", "title": "Symmetric indefinite factorisation decides invertibility and solves", "statement": "The Bunch-Kaufman factorisation of a symmetric matrix reports Success exactly when the matrix is invertible, and then solve(b) returns the unique x with A x = b; only the lower triangle of the input is read.", "quantifier": "every size and every symmetric matrix over an ordered field (exact arithmetic)", "why_tests_cant": "Pivoting paths depend on the entries; sizes unbounded.", "anchors": ["include/aligator/core/bunchkaufman.hpp: bunch_kaufman_in_place_unblocked, bunch_kaufman_solve_in_place, BunchKaufman::compute"]}
{"id": "C15", "title": "LQ problem utilities agree with the KKT system", "statement": "lqrComputeKktError returns zero exactly on KKT points; the matrix and right-hand side assembled by lqrCreateSparseMatrix describe the same system (matrix*z + rhs = 0 iff z, split by lqrDenseSolutionToTraj, is a KKT point); splitting and concatenation are inverse.", "quantifier": "every problem and every candidate solution", "why_tests_cant": "Equivalence of two systems quantifies over all vectors.", "anchors": ["include/aligator/gar/utils.hpp: lqrDenseSolutionToTraj, lqrInitializeSolution", "include/aligator/gar/utils.hxx: lqrComputeKktError, lqrCreateSparseMatrix"]}
{"id": "C16", "title": "ProxDDP reports convergence only at the requested tolerances", "statement": "If run() returns true then the primal infeasibility recorded in the results is <= target_tol and the dual infeasibility is <= target_dual_tol, evaluated at the returned iterate; and the iteration counters never exceed max_iters and max_al_iters.", "quantifier": "every behaviour of the problem functions, line search and linear solver (abstract), every parameter setting", "why_tests_cant": "Quantifies over all iteration histories.", "anchors": ["include/aligator/solvers/proxddp/solver-proxddp.hxx: SolverProxDDPTpl::run, innerLoop"]}
{"id": "C17", "title": "ProxDDP reports convergence whenever the inner loop met the targets", "statement": "If an inner loop stops because the current iterate satisfies both final tolerances, then run() returns true (no late rejection because of the intermediate primal tolerance).", "quantifier": "every history of tolerances and penalties", "why_tests_cant": "Depends on clamping invariants over all outer iterations.", "anchors": ["include/aligator/solvers/proxddp/solver-proxddp.hxx: run, innerLoop, updateTolsOnSuccess, updateTolsOnFailure"]}
{"id": "C18", "title": "Penalty, tolerance and regularisation bounds are never violated", "statement": "During a run the penalty parameter stays within [mu_lower_bound, initial value], the primal tolerance never drops below target_tol, the inner tolerance used by an inner loop never drops below one hundredth of the target dual tolerance, and the regularisation used in the linear subproblem stays >= reg_min and below reg_max times the largest increase factor.", "quantifier": "every sequence of successful and failed outer iterations and inner steps", "why_tests_cant": "Invariant over all histories.", "anchors": ["include/aligator/solvers/proxddp/solver-proxddp.hpp: setAlmPenalty, initializeRegularization, increaseRegularization, updateTolsOnFailure, updateTolsOnSuccess", "include/aligator/solvers/proxddp/solver-proxddp.hxx"]}
{"id": "C19", "title": "run() terminates", "statement": "Every call of run() performs finitely many steps for valid parameters (0<bcl exponents, penalty factor < 1, contraction factors in (0,1), alpha_min > 0).", "quantifier": "every behaviour of the problem functions", "why_tests_cant": "Non-termination cannot be observed by a terminating test.", "anchors": ["include/aligator/solvers/proxddp/solver-proxddp.hxx: run (tolerance-tightening loop), innerLoop", "include/aligator/core/linesearch-armijo.hpp", "include/aligator/core/linesearch-nonmonotone.hpp"]}
{"id": "C20", "title": "FDDP convergence flag, iteration and regularisation bounds", "statement": "If FDDP's run() returns true then the stopping criterion max(primal, dual infeasibility) < target_tol held; the iteration counter is <= max_iters; the regularisation stays in [reg_min, reg_max].", "quantifier": "every behaviour of the problem functions and line search", "why_tests_cant": "Quantifies over all histories.", "anchors": ["include/aligator/solvers/fddp/solver-fddp.hxx: SolverFDDPTpl::run", "include/aligator/solvers/fddp/solver-fddp.hpp: increaseRegularization, decreaseRegularization"]}
{"id": "C21", "title": "FDDP (Goldstein-type) line search returns a consistent pair", "statement": "The step length and merit value returned by the FDDP line search belong together: the returned value is the merit function at the returned step, the step is in [alpha_min, 1], and either the acceptance test holds or the step is alpha_min.", "quantifier": "every merit function (including throwing ones) and every parameter setting", "why_tests_cant": "Quantifies over arbitrary merit functions.", "anchors": ["include/aligator/solvers/fddp/linesearch.hpp: fddp_goldstein_linesearch"]}
{"id": "C22", "title": "Armijo line search", "statement": "The Armijo line search returns a step >= alpha_min; it either satisfies phi(alpha) <= phi0 + c1*alpha*dphi0, or the step is at the lower bound, or the step budget is exhausted; the returned value is phi at the returned step; every interpolated trial step lies within the contraction bounds; the search evaluates phi at most max_num_steps+extra times.", "quantifier": "every merit function (including NaN and throwing ones), every interpolation strategy", "why_tests_cant": "Quantifies over arbitrary functions.", "anchors": ["include/aligator/core/linesearch-armijo.hpp: ArmijoLinesearch::run, minimize_interpolant"]}
{"id": "C23", "title": "Interpolation steps minimise an interpolant of the samples", "statement": "The quadratic (cubic) interpolation used by the Armijo line search builds the unique quadratic (cubic) through the sampled values and initial slope.", "quantifier": "every pair of samples", "why_tests_cant": "Sampling specific functions (e.g. exact quadratics) hides a transposed sample.", "anchors": ["include/aligator/core/linesearch-armijo.hpp: minimize_interpolant, PolynomialTpl"]}
{"id": "C24", "title": "Nonmonotone line search", "statement": "The nonmonotone line search returns a pair (alpha, phi(alpha)) with alpha >= alpha_min such that either the relaxed decrease condition with respect to the reference value holds or alpha is at the lower bound; the reference value is a weighted average of all previous values (between their min and max) until reset().", "quantifier": "every merit function and every history of calls", "why_tests_cant": "The reference depends on the whole history.", "anchors": ["include/aligator/core/linesearch-nonmonotone.hpp: NonmonotoneLinesearch::run, reset"]}
{"id": "C25", "title": "The filter only holds mutually non-dominated pairs", "statement": "After any sequence of filter operations starting from reset() (with margin 0, the value the solver uses), no stored (primal, dual) pair dominates another, a candidate is rejected exactly when some previously accepted pair dominates it, and no accepted information is lost (every pair ever accepted is dominated by a stored pair).", "quantifier": "every sequence of candidate pairs", "why_tests_cant": "Unbounded histories.", "anchors": ["include/aligator/core/filter.hpp: FilterTpl::accept_pair, resetFilter, run"]}
{"id": "C26", "title": "First-order multiplier update and constraint infeasibility", "statement": "The multiplier estimate produced for a constraint (value z, set C, penalty mu, previous estimate v_prev) is the projection onto the normal cone of the shifted constraint divided by mu, the residual mu*(v_plus - v_prev) reported as infeasibility equals z minus a point of C, and it vanishes exactly when z is in C and v_prev is in the normal cone at z.", "quantifier": "every constraint set in the library, every value, multiplier and mu>0", "why_tests_cant": "Complementarity logic over a continuum.", "anchors": ["include/aligator/solvers/proxddp/solver-proxddp.hxx: computeMultipliers", "include/aligator/core/constraint-set.hpp"]}
{"id": "C27", "title": "Lagrangian gradient", "statement": "The computed Lagrangian gradient with respect to states and controls is the adjoint of the linearised problem: its inner product with any direction equals the directional derivative of the Lagrangian, for every horizon.", "quantifier": "every trajectory direction, horizon and data", "why_tests_cant": "Adjoint identity over all directions.", "anchors": ["include/aligator/core/lagrangian.hpp: LagrangianDerivatives::compute"]}
{"id": "C28", "title": "Merit function directional derivative", "statement": "The directional derivative handed to the line search is the derivative at 0 of the merit function along the trial step.", "quantifier": "every step direction (states, controls, multipliers) and every differentiable problem data", "why_tests_cant": "Derivative identity over all directions; finite differences cannot certify it.", "anchors": ["include/aligator/solvers/proxddp/merit-function.hxx: ALFunction::evaluate, directionalDerivative", "include/aligator/solvers/proxddp/solver-proxddp.hxx: forwardPass"]}
{"id": "C29", "title": "The initial guess is honoured or rejected", "statement": "run(problem, xs, us): an empty guess uses the problem's default, a guess with the right lengths becomes the starting point, anything else throws; a warm start's initial state is corrected to the problem's initial condition when the initial condition is forced.", "quantifier": "every combination of given guesses", "why_tests_cant": "Case analysis over all inputs.", "anchors": ["include/aligator/solvers/proxddp/solver-proxddp.hxx: run", "include/aligator/core/traj-opt-problem.hpp: check_initial_guess_and_assign, initializeSolution, assign_no_resize"]}
{"id": "C30", "title": "Receding-horizon shift of the problem", "statement": "After any sequence of replaceStageCircular(new) calls, the stages are the last N elements of (initial stages ++ appended stages), in order, and the dimension-chain integrity check keeps holding when each new stage chains with its neighbours.", "quantifier": "every sequence of appended stages, every horizon >= 1", "why_tests_cant": "Unbounded histories.", "anchors": ["include/aligator/core/traj-opt-problem.hxx: replaceStageCircular, checkIntegrity, addStage", "include/aligator/utils/mpc-util.hpp: rotate_vec_left"]}
{"id": "C31", "title": "Receding-horizon shift of solver memory", "statement": "After cycleProblem/cycleAppend the stored results are the previous results shifted by one stage with a fresh last element, and all buffers have the dimensions a newly set-up solver for the new problem would have.", "quantifier": "every number of cycles and every stage dimensions", "why_tests_cant": "Unbounded histories and dimension patterns.", "anchors": ["include/aligator/solvers/proxddp/results.hpp: cycleAppend", "include/aligator/solvers/proxddp/workspace.hxx: cycleAppend", "include/aligator/solvers/proxddp/solver-proxddp.hxx: cycleProblem", "include/aligator/gar/proximal-riccati.hxx: cycleAppend"]}
{"id": "C32", "title": "Trajectory evaluation rejects wrong sizes and sums stage costs", "statement": "evaluate/computeDerivatives throw when xs or us have the wrong length; otherwise the returned cost is the sum of all stage costs and the terminal cost, each evaluated at its own (x_i,u_i).", "quantifier": "every problem and trajectory", "why_tests_cant": "All lengths.", "anchors": ["include/aligator/core/traj-opt-problem.hxx: evaluate, computeDerivatives, computeTrajectoryCost"]}
{"id": "C33", "title": "Constraint stack bookkeeping", "statement": "After any sequence of pushBack/clear, each constraint's slice of the stacked vector starts at the sum of the previous dimensions, slices are disjoint and tile [0,totalDim()).", "quantifier": "every sequence of operations", "why_tests_cant": "Unbounded histories.", "anchors": ["include/aligator/core/constraint.hpp: ConstraintStackTpl"]}
{"id": "C34", "title": "Block matrix views tile the storage", "statement": "For any row/column dimension lists, blocks (i,j) of a block matrix are pairwise disjoint, cover the storage, writing one block leaves every other block unchanged, and top-row views agree with the originals.", "quantifier": "every list of dimensions", "why_tests_cant": "All layouts.", "anchors": ["include/aligator/core/blk-matrix.hpp: BlkMatrix"]}
{"id": "C35", "title": "Projection operators are the Euclidean projections", "statement": "For each convex set of the library (equality, negative orthant, box with lower<=upper, and products), projection(z) lies in the set, is the closest point to z, is idempotent and nonexpansive; normalConeProjection(z) = z - projection(z) and lies in the normal cone at projection(z).", "quantifier": "every dimension and every vector", "why_tests_cant": "Continuum of inputs.", "anchors": ["include/aligator/modelling/constraints/box-constraint.hpp", "include/aligator/modelling/constraints/constraint-set-product.hpp", "include/aligator/modelling/constraints/equality-constraint.hpp", "include/aligator/modelling/constraints/l1-penalty.hpp", "include/aligator/modelling/constraints/negative-orthant.hpp", "include/aligator/core/constraint-set.hpp"]}
{"id": "C36", "title": "L1 penalty proximal operator", "statement": "The l1 set's projection is the proximal operator of its penalty: it minimises mu*|w|_1 + |w-z|^2/2, and the complementary operator is the projection on the l-infinity ball of radius mu.", "quantifier": "every vector and mu>=0", "why_tests_cant": "Continuum.", "anchors": ["include/aligator/modelling/constraints/l1-penalty.hpp"]}
{"id": "C37", "title": "Active sets and projected Jacobians", "statement": "computeActiveSet flags exactly the components on which the normal-cone projector is locally the identity; applyNormalConeProjectionJacobian keeps exactly those rows and applyProjectionJacobian exactly the others, so the two results sum to the input Jacobian and each row is the derivative of the corresponding projection wherever it is differentiable.", "quantifier": "every set, vector and Jacobian", "why_tests_cant": "Continuum; kinks.", "anchors": ["include/aligator/core/constraint-set.hxx", "include/aligator/modelling/constraints/box-constraint.hpp", "include/aligator/modelling/constraints/constraint-set-product.hpp", "include/aligator/modelling/constraints/equality-constraint.hpp", "include/aligator/modelling/constraints/l1-penalty.hpp", "include/aligator/modelling/constraints/negative-orthant.hpp"]}
{"id": "C38", "title": "Product sets act blockwise", "statement": "A product constraint set's projection, normal-cone projection, active set and Jacobian maps are those of the components on their own blocks with no interference, for every list of components.", "quantifier": "every list of component sets and block sizes", "why_tests_cant": "All layouts.", "anchors": ["include/aligator/modelling/constraints/constraint-set-product.hpp"]}
{"id": "C39", "title": "Manifold laws for products and tangent bundles", "statement": "integrate/difference are mutually inverse and interpolate hits the end points, on vector spaces, and on Cartesian products and tangent bundles whenever they do on the components; component blocks do not interfere; split and merge are inverse.", "quantifier": "every list of components and all points", "why_tests_cant": "All layouts, continuum.", "anchors": ["include/aligator/core/vector-space.hpp", "include/aligator/modelling/spaces/cartesian-product.hxx", "include/aligator/modelling/spaces/tangent-bundle.hxx"]}
{"id": "C40", "title": "Product-manifold point validation", "statement": "isNormalized(x) on a Cartesian product is true exactly when every component's part is normalised.", "quantifier": "every point and component list", "why_tests_cant": "Conjunction over arbitrarily many components.", "anchors": ["include/aligator/modelling/spaces/cartesian-product.hxx: isNormalized"]}
{"id": "C41", "title": "Weighted cost sums", "statement": "A cost stack's value, gradient and Hessian are the weighted sums over all components added so far, independent of the hash-table iteration order; adding a component adds exactly its contribution; scaling scales the total.", "quantifier": "every sequence of addCost/setWeight calls, every iteration order", "why_tests_cant": "Unbounded histories, unspecified order.", "anchors": ["include/aligator/modelling/costs/sum-of-costs.hpp", "include/aligator/modelling/costs/sum-of-costs.hxx"]}
{"id": "C42", "title": "Quadratic costs: gradient and Hessian are derivatives of the value", "statement": "For quadratic costs (Euclidean, and of a residual), computeGradients/computeHessians return the derivative of the value returned by evaluate at the given point.", "quantifier": "every point, weight matrix and calling history", "why_tests_cant": "Continuum, and stale-buffer histories.", "anchors": ["include/aligator/modelling/costs/quad-costs.hpp", "include/aligator/modelling/costs/quad-residual-cost.hxx"]}
{"id": "C43", "title": "Barrier costs: gradient and Hessian are derivatives of the value", "statement": "For log-barrier and relaxed log-barrier costs, gradients are derivatives of the value, the relaxed barrier is continuously differentiable across its threshold, and the Hessian is the (Gauss-Newton) second derivative.", "quantifier": "every residual value, weight and threshold", "why_tests_cant": "Continuum.", "anchors": ["include/aligator/modelling/costs/log-residual-cost.hxx", "include/aligator/modelling/costs/relaxed-log-barrier.hxx"]}
{"id": "C44", "title": "Integrators: step maps and their Jacobians", "statement": "Explicit Euler, semi-implicit Euler, RK2 and implicit midpoint implement their defining formulas, and the reported Jacobians are the derivatives of the step map for every differentiable vector field, on vector spaces and on manifolds (derivatives along steps).", "quantifier": "every manifold, ODE, state, control, time step and calling history", "why_tests_cant": "Continuum and arbitrary vector fields; the tests of the midpoint rule only use y = x.", "anchors": ["include/aligator/modelling/dynamics/integrator-abstract.hxx", "include/aligator/modelling/dynamics/integrator-euler.hxx", "include/aligator/modelling/dynamics/integrator-midpoint.hxx", "include/aligator/modelling/dynamics/integrator-rk2.hxx", "include/aligator/modelling/dynamics/integrator-semi-euler.hxx", "include/aligator/modelling/spaces/tangent-bundle.hxx"]}
{"id": "C45", "title": "Finite-difference helpers", "statement": "Finite-difference Jacobians are exact for affine functions, and in general column i is the difference quotient at the given point; perturbation buffers are restored after each column.", "quantifier": "every function and point, every calling history", "why_tests_cant": "History and continuum.", "anchors": ["include/aligator/modelling/autodiff/finite-difference.hpp", "include/aligator/modelling/autodiff/cost-finite-difference.hxx"]}
{"id": "C46", "title": "Function slicing and linear composition", "statement": "A sliced function returns exactly the selected outputs and Jacobian rows; a linear composition returns A f + b and A J; vector-Hessian products are those of the wrapped function with scattered multipliers.", "quantifier": "every function, index list and matrix", "why_tests_cant": "All index patterns.", "anchors": ["include/aligator/modelling/function-xpr-slice.hxx", "include/aligator/modelling/linear-function-composition.hxx"]}
{"id": "C47", "title": "Direct sums of costs and dynamics", "statement": "A direct sum evaluates each component on its own block of state and control; value, next state, gradients, Hessians and Jacobians are block-structured with no cross terms.", "quantifier": "every pair of components and all inputs", "why_tests_cant": "All dimensions.", "anchors": ["include/aligator/modelling/costs/cost-direct-sum.hpp", "include/aligator/modelling/explicit-dynamics-direct-sum.hxx"]}
{"id": "C48", "title": "Rollout", "statement": "rollout returns N+1 states starting at x0 where each state is the dynamics applied to the previous one, and throws when the numbers of models and controls differ.", "quantifier": "every model list and control sequence", "why_tests_cant": "Unbounded lengths.", "anchors": ["include/aligator/utils/rollout.hpp", "include/aligator/utils/forward-dyn.hpp"]}
{"id": "C49", "title": "Newton-Raphson returns a root or says it did not", "statement": "If the Newton procedure returns true, the norm of the function at the returned point is <= eps; the residual norm never increases; it performs at most max_iters iterations.", "quantifier": "every function and Jacobian", "why_tests_cant": "Arbitrary functions.", "anchors": ["include/aligator/utils/newton-raphson.hpp"]}
{"id": "C50", "title": "Arena matrices never leak, double-free or alias", "statement": "After any sequence of constructions, copies, moves, assignments, resizes and destructions of arena matrices, every live matrix with non-zero size owns a distinct live buffer of its allocated size, no buffer is freed twice or with a wrong size, and after destroying all matrices no buffer remains; every matrix has the rows and columns of the last operation on it.", "quantifier": "every sequence of operations", "why_tests_cant": "Unbounded histories, aliasing.", "anchors": ["include/aligator/core/arena-matrix.hpp: ArenaMatrix", "include/aligator/core/allocator.hpp"]}
{"id": "C51", "title": "Contact maps", "statement": "After any sequence of addContact/removeContact/setContactPose, look-ups return the latest data of the first contact with that name, unknown names throw, and the size equals the number of contacts.", "quantifier": "every sequence of operations", "why_tests_cant": "Unbounded histories.", "anchors": ["include/aligator/modelling/contact-map.hpp: ContactMapTpl"]}
{"id": "C52", "title": "Centroidal and pendulum models: Jacobians are derivatives", "statement": "The Jacobians reported by the centroidal dynamics and residuals (momenta, accelerations, friction and wrench cones) and by the wheeled inverted pendulum are the derivatives of the values.", "quantifier": "every state, control, contact pattern and number of contacts", "why_tests_cant": "Continuum, any number of contacts.", "anchors": ["include/aligator/modelling/centroidal/angular-acceleration.hxx", "include/aligator/modelling/centroidal/angular-momentum.hxx", "include/aligator/modelling/centroidal/centroidal-acceleration.hxx", "include/aligator/modelling/centroidal/centroidal-friction-cone.hxx", "include/aligator/modelling/centroidal/centroidal-translation.hxx", "include/aligator/modelling/centroidal/centroidal-wrapper.hxx", "include/aligator/modelling/centroidal/centroidal-wrench-cone.hxx", "include/aligator/modelling/centroidal/linear-momentum.hxx", "include/aligator/modelling/dynamics/centroidal-fwd.hxx", "include/aligator/modelling/dynamics/continuous-centroidal-fwd.hxx", "include/aligator/modelling/dynamics/wheeled-inverted-pendulum.hpp"]}
{"id": "C53", "title": "Callbacks and history", "statement": "After any sequence of registerCallback/removeCallback/clearCallbacks, invoking callbacks calls exactly the latest callback registered under each live name once; a history callback's records grow by exactly one per invocation and keep order.", "quantifier": "every sequence of operations", "why_tests_cant": "Unbounded histories.", "anchors": ["include/aligator/solvers/proxddp/solver-proxddp.hpp: registerCallback, removeCallback, invokeCallbacks", "include/aligator/core/history-callback.hxx"]}
{"id": "C54", "title": "The LQ subproblem is the linearisation of the problem", "statement": "The linear-quadratic subproblem assembled at each inner iteration linearises the proximal optimality conditions at the iterate: its KKT points are exactly the (semismooth) Newton steps on stationarity of the Lagrangian, dynamics, initial condition and projected constraints; its residuals at zero step are those of the nonlinear problem, with the multipliers of inactive constraints replaced by their new estimates; the zero step solves it exactly when the iterate is stationary for the proximal problem.", "quantifier": "every iterate, horizon, stage dimensions, problem data, product of library constraint sets, penalty and regularisation", "why_tests_cant": "All data, all active sets, a continuum of iterates.", "anchors": ["include/aligator/solvers/proxddp/solver-proxddp.hxx: updateLQSubproblem, computeProjectedJacobians"]}
{"id": "C55", "title": "The tolerance and penalty schedule of the outer loop", "statement": "Before every outer iteration the primal tolerance equals the base tolerance times the power of the penalty set at the last failed outer iteration, tightened by the documented power at every successful one, clamped at the target; the penalty only changes at failed iterations, by its factor down to its bound, or by the reset to the initial value when the bound is reached.", "quantifier": "every sequence of successful and failed outer iterations", "why_tests_cant": "Depends on the whole history of a run.", "anchors": ["include/aligator/solvers/proxddp/solver-proxddp.hpp: updateTolsOnFailure, updateTolsOnSuccess, setAlmPenalty", "include/aligator/solvers/proxddp/solver-proxddp.hxx: run"]}
{"id": "C56", "title": "A converged run returns an approximately optimal trajectory", "statement": "When ProxDDP's run returns true, the returned trajectory and multipliers satisfy the first-order optimality conditions of the problem within the requested tolerances: gradient of the Lagrangian, initial condition, dynamics, constraints, signs and complementarity of the multipliers.", "quantifier": "every problem, constraint sets, multiplier update mode, parameters, linear solver, step acceptance and every execution that returns true", "why_tests_cant": "Tests compare a few converged runs with known solutions; whether the test of convergence implies optimality is a statement about all executions, and the runs that violate it look successful.", "anchors": ["include/aligator/solvers/proxddp/solver-proxddp.hxx: run, innerLoop, computeMultipliers, computeCriterion, tryLinearStep"]}
{"id": "C57", "title": "The EXACT Hessian option uses the Hessian of the Lagrangian", "statement": "With HessianApprox::EXACT the curvature of every linear-quadratic subproblem is the Hessian of the Lagrangian at the current point and multipliers (plus the proximal regularisation), including the second-order terms of dynamics and constraints; with GAUSS_NEWTON it is that of the costs only.", "quantifier": "every problem, callbacks, dimensions, horizon, multipliers and every sequence of evaluation calls the solver makes on the data", "why_tests_cant": "A missing curvature term only changes the speed of convergence; tests still converge.", "anchors": ["include/aligator/solvers/proxddp/solver-proxddp.hxx: updateLQSubproblem", "include/aligator/core/enums.hpp: HessianApprox", "include/aligator/core/traj-opt-problem.hxx: computeDerivatives", "include/aligator/core/stage-model.hxx: computeSecondOrderDerivatives", "include/aligator/core/explicit-dynamics.hpp: ExplicitDynamicsDataTpl"]}
{"id": "C58", "title": "Nonlinear rollouts step along the computed direction and keep the trajectory feasible", "statement": "With the nonlinear rollout every trial trajectory satisfies the dynamics exactly; the trial at step length zero is the current iterate; to first order the trial moves along the direction returned by the linear solver, so the merit function seen by the line search has the slope it was given; for linear dynamics the trial is the linear step; the convergence test looks at the trial's own violation of the initial condition, so that a reported convergence means with nonlinear rollouts what it means with linear ones.", "quantifier": "every problem, dynamics, horizon, iterate, gains and direction of the linear solver, step length, and every sequence of trial steps and inner iterations", "why_tests_cant": "Rollout tests start at a feasible trajectory with the given initial state, where all the differences vanish.", "anchors": ["include/aligator/solvers/proxddp/solver-proxddp.hxx: tryNonlinearRollout, tryLinearStep, forwardPass, innerLoop, computeMultipliers", "include/aligator/core/traj-opt-problem.hxx: evaluate"]}
{"id": "C59", "title": "FDDP steps close the gaps, minimise the local model, and end at an optimum on convex linear-quadratic problems", "statement": "A step of length a of FDDP leaves the fraction 1 - a of every gap, so gaps never grow along a run and the full step is feasible; the gains minimise the regularised quadratic model of the problem; the cost decrease handed to the line search is that of the model; a run that returns true returns a feasible stationary trajectory; the reported cost is the cost of the returned trajectory; on a convex linear-quadratic problem the full step is accepted, two unregularised iterations reach the optimum, and with regularisation the result is within the regularisation times half the squared distance from guess to optimum.", "quantifier": "every problem, manifold with the stated laws, horizon, dimensions, guess, gains, step length, parameters and every run; every convex linear-quadratic problem", "why_tests_cant": "Convergence tests observe a few runs; the relation between prediction, gains, gaps and optimality holds for a continuum of problems or not at all.", "anchors": ["include/aligator/solvers/fddp/solver-fddp.hxx: forwardPass, expectedImprovement, updateExpectedImprovement, computeInfeasibility, computeCriterion, backwardPass, run", "include/aligator/solvers/fddp/linesearch.hpp: fddp_goldstein_linesearch", "include/aligator/solvers/fddp/solver-fddp.hpp: SolverFDDPTpl"]}
{"id": "C60", "title": "Residuals of rigid-body kinematics compute the documented quantity and its derivative", "statement": "For every rigid-body model, evaluating a kinematic residual (position, placement or velocity of a frame, relative placement of two frames, position, velocity and divergent component of the centre of mass, centroidal momentum and its rate under contact forces, distance of two bodies, fly-high, gravity compensation) gives the documented function of the configuration and velocity in the state, and computing its Jacobians afterwards gives the derivatives in tangent vector and control, whatever the data object was used for before, also when frames and references are changed through the setters, and on states with further coordinates.", "quantifier": "every rigid-body model obeying the laws of kinematics, state space moving configuration and velocity, number of joints and contacts, state, control, parameters, and every sequence of earlier calls on the data", "why_tests_cant": "Tests compare with finite differences at random states of one robot, with fresh data and states of configuration and velocity only.", "anchors": ["include/aligator/modelling/multibody/frame-translation.hxx: computeJacobians", "include/aligator/modelling/multibody/frame-placement.hxx: computeJacobians", "include/aligator/modelling/multibody/frame-velocity.hxx: computeJacobians", "include/aligator/modelling/multibody/frame-equality.hxx: computeJacobians", "include/aligator/modelling/multibody/frame-collision.hxx: computeJacobians", "include/aligator/modelling/multibody/center-of-mass-translation.hxx: computeJacobians", "include/aligator/modelling/multibody/center-of-mass-velocity.hxx: computeJacobians", "include/aligator/modelling/multibody/dcm-position.hxx: computeJacobians", "include/aligator/modelling/multibody/centroidal-momentum.hxx: computeJacobians", "include/aligator/modelling/multibody/centroidal-momentum-derivative.hxx: computeJacobians", "include/aligator/modelling/multibody/fly-high.hxx: computeJacobians", "include/aligator/modelling/multibody/gravity-compensation-residual.hxx: computeJacobians", "include/aligator/modelling/multibody/fwd.hpp: setFrameId"]}
{"id": "C61", "title": "Residuals of contact forces use the forces of the named contact under the given solver settings", "statement": "A contact-force, friction-cone or wrench-cone residual of a constrained multibody system, built from an actuation matrix, a list of contacts, solver settings and the name of one contact, evaluates to the force of that contact (minus the reference, or in the half-spaces of the cone) in the constrained dynamics of the given state under the torques of the control, solved with the given settings; its Jacobians are the derivatives of this in tangent vector and control; the value is nonpositive exactly when the force lies in the cone; unknown contact names and actuation matrices with the wrong number of rows are rejected.", "quantifier": "every constrained multibody system obeying its derivative laws, list of contacts of sizes three and six in any order, name, actuation matrix, settings, state, control, reference, and every sequence of earlier calls on the data", "why_tests_cant": "Tests use one or two contacts of one size and the default solver settings, at random states, where the tangential force never vanishes.", "anchors": ["include/aligator/modelling/multibody/contact-force.hxx: evaluate", "include/aligator/modelling/multibody/contact-force.hpp: contact_name", "include/aligator/modelling/multibody/multibody-friction-cone.hxx: computeJacobians", "include/aligator/modelling/multibody/multibody-wrench-cone.hxx: computeJacobians", "include/aligator/modelling/multibody/multibody-wrench-cone.hpp: Acone_"]}
{"id": "C62", "title": "Forward dynamics of multibody systems satisfy the equations of motion, with exact derivatives", "statement": "The rate of the state returned by the forward dynamics of a multibody system is the velocity followed by the acceleration of the system: under the torques of the actuation matrix, free or subject to the constraints; or, for kinodynamics, the only acceleration whose joint part is the one in the control and for which the centroidal momentum changes at the rate of the gravity and contact wrenches. The Jacobians asked for afterwards at the same point are the derivatives of this function in tangent vector and control, whatever the data object was used for before. The system is reported underactuated exactly when some torque is not produced by any control.", "quantifier": "every multibody system obeying the derivative laws of its dynamics, actuation matrix, solver settings, set of active contacts and force size, state with invertible base part of the centroidal momentum matrix (for kinodynamics), control, and every sequence of earlier calls on the data", "why_tests_cant": "Tests compare with finite differences at random states of one robot.", "anchors": ["include/aligator/modelling/dynamics/multibody-free-fwd.hxx: dForward", "include/aligator/modelling/dynamics/multibody-free-fwd.hpp: isUnderactuated", "include/aligator/modelling/dynamics/multibody-constraint-fwd.hxx: dForward", "include/aligator/modelling/dynamics/kinodynamics-fwd.hxx: dForward"]}
{"id": "C63", "title": "Tracking residuals and costs measure the distance to the target in force", "statement": "The state (control) error evaluates to the tangent vector from the target to the state (control), zero exactly at the target, and its Jacobians are the derivatives along steps in state and control; a quadratic state or control cost evaluates to half the weighted square of this error, computeGradients gives its gradient and computeHessians its Gauss-Newton Hessian (the full Hessian with the Gauss-Newton option off), on vector spaces the exact one; setTarget takes effect on all later calls; targets that are no points of the manifold and weights of wrong size are rejected.", "quantifier": "every manifold obeying its laws, target, symmetric weights, state, control, and every sequence of evaluations, derivative calls and changes of target on one data object", "why_tests_cant": "Tests use one target and fresh data; the stale gradient after a change of target, the manifolds with more coordinates than tangent directions and the unchecked sizes never occur in them.", "anchors": ["include/aligator/modelling/state-error.hpp: StateErrorResidualTpl, ControlErrorResidualTpl", "include/aligator/modelling/costs/quad-state-cost.hpp: QuadraticStateCostTpl, QuadraticControlCostTpl, setTarget", "include/aligator/modelling/costs/quad-residual-cost.hxx: computeGradients, computeHessians"]}
{"id": "C64", "title": "Affine functions, linear dynamics, control boxes and constant costs", "statement": "A linear function evaluates to A x + B u + d, linear dynamics step to A x + B u + c, and their Jacobians hold the derivative at any time, also before the first derivative call; a control box is nonpositive exactly when the control lies between the bounds, its Jacobian is the derivative, and bounds of different sizes are rejected; a constant cost has its value and zero derivatives at any time; matrices of inconsistent sizes are rejected.", "quantifier": "every size, matrices, vectors, bounds, state, control, and every sequence of calls on one data object", "why_tests_cant": "Tests check one instance; the data objects rely on values written at creation only, which any call could destroy.", "anchors": ["include/aligator/modelling/linear-function.hpp: LinearFunctionTpl, createData", "include/aligator/modelling/linear-discrete-dynamics.hpp: LinearDiscreteDynamicsTpl, dForward", "include/aligator/modelling/control-box-function.hxx: computeJacobians, createData", "include/aligator/modelling/costs/constant-cost.hpp: ConstantCostTpl"]}
{"id": "C65", "title": "A converted Crocoddyl problem is the same problem", "statement": "convertCrocoddylProblem returns a problem whose evaluation gives, along any trajectory, the total cost of the shooting problem and its next states, and whose derivatives are those of the action models (gradients, dynamics Jacobians, Hessian blocks, terminal gradient and Hessian), whatever the data objects were used for before; wrapped stages accept constraints and enforce them, their dynamics can be rolled out, wrapped cost models can be evaluated, and problems of any horizon can be converted.", "quantifier": "every family of action models obeying Crocoddyl's calc/calcDiff contract (also those that differentiate at the point of the last calc), horizon, trajectory and history of calls on the data", "why_tests_cant": "The test suite wraps one LQR and one arm model, evaluates once on fresh data, and never adds constraints to a wrapped stage, rolls out its dynamics or wraps a cost model.", "anchors": ["include/aligator/compat/crocoddyl/action-model-wrap.hxx: ActionModelWrapperTpl, evaluate, computeFirstOrderDerivatives", "include/aligator/compat/crocoddyl/cost-wrap.hpp: CrocCostModelWrapperTpl, createData", "include/aligator/compat/crocoddyl/problem-wrap.hxx: convertCrocoddylProblem", "include/aligator/compat/crocoddyl/state-wrap.hpp: convert_to_firstsecond"]}
{"id": "C66", "title": "Underactuated inverse dynamics returns torques that hold the system", "statement": "underactuatedConstrainedInverseDynamics returns torques and constraint forces that balance gravity and velocity terms whenever any can, so that a system whose constraints do not accelerate by themselves (at rest) has zero acceleration under these torques and no other; the forces act on the system with the opposite sign; the result is a function of model, state, actuation and constraints only.", "quantifier": "every size, actuation matrix, constraint Jacobian, nonlinear effects, positive definite mass matrix, and every content of freshly allocated memory", "why_tests_cant": "One test uses one linkage in one configuration; what uninitialised memory holds varies between runs, and whether the equations can be solved depends on the configuration.", "anchors": ["include/aligator/modelling/multibody/constrained-rnea.hpp: underactuatedConstrainedInverseDynamics, computeRigidConstraintsTotalSize", "bindings/python/src/modelling/multibody/expose-pinocchio-functions.cpp: underactuatedConstraintInvDyn_proxy"]}
{"id": "C67", "title": "Model objects have value semantics", "statement": "Problems, stages, costs, dynamics, functions, sets and spaces are values: a copy, an assigned object, or an object added to another one (a stage to a problem, a constraint to a stage, a component to a sum) reads the same as its source through every path of members, and later changes of either, or the end of the lifetime of either, do not affect the other; moving transfers the value, leaves the source valueless and keeps objects at their addresses; an operation that throws while copying changes nothing; nothing is leaked, freed twice or owned twice; only dereferencing a valueless object and moving a member into its own owner are undefined. A problem may be given one of its own stages; a stage must not be given a function of its own constraint stack.", "quantifier": "every program (sequence of constructions, copies, moves, assignments, swaps, destructions, writes, insertions and extractions at any depth) over any number of variables and objects nested to any depth, with copies that may throw at any step", "why_tests_cant": "Aliasing and lifetime errors depend on histories and nesting of unbounded size; exceptions during nested copies and reallocation at full capacity are never provoked by tests.", "anchors": ["include/aligator/third-party/polymorphic_cxx14.h: polymorphic, clone, reset, swap", "include/aligator/core/traj-opt-problem.hxx: addStage", "include/aligator/core/stage-model.hxx: addConstraint", "include/aligator/core/constraint.hpp: pushBack, addDim"]}
{"id": "C68", "title": "The feedback gains in the results are the optimal policy", "statement": "After an iteration, the gains in the results are the primal-dual feedback of the LQ subproblem just solved: at every stage and every state, every solution of the remaining problem has the control returned by getCtrlFeedforwards()/getCtrlFeedbacks() at that state, and the path multiplier and next state of the remaining rows; the terminal matrix gives the terminal multiplier. This holds whichever linear solver is selected, and after a successful solve.", "quantifier": "every LQ subproblem with symmetric Hessians (any horizon and dimensions), every state at every stage, every earlier content of the gains, the serial, stagewise-dense and parallel solvers with any number of threads, with and without assertions", "why_tests_cant": "Tests compare trajectories, which do not depend on the gains; the wrong gains of the parallel solver appear only at interior stages, and only when the policy is used away from the solution.", "anchors": ["include/aligator/solvers/proxddp/solver-proxddp.hxx: innerLoop, collapseFeedback, getFeedforward", "include/aligator/solvers/results-base.hpp: getCtrlFeedbacks, getCtrlFeedforwards, gains_", "include/aligator/gar/parallel-solver.hpp: collapseFeedback", "include/aligator/gar/dense-riccati.hpp: getFeedback"]}
{"id": "C69", "title": "A run depends only on the problem, the guesses and the settings", "statement": "run on a solver that was used before (other runs on other problems, converged or not, shifts of the horizon, changes of the settings) returns the same flag, trajectories, multipliers, infeasibilities, iteration counts, step lengths and gains as on a solver that was only set up.", "quantifier": "every history of calls (setup, run on any problem from any guess with any settings, cycleProblem), every step acceptance strategy, every problem including ones whose callbacks throw or return NaN, ProxDDP and FDDP", "why_tests_cant": "The memory sits in members that no getter shows (filter, moving average, trial buffers, expected slope); tests build a new solver for each case, so a dependence on history cannot show.", "anchors": ["include/aligator/solvers/proxddp/solver-proxddp.hxx: setup, run, cycleProblem, innerLoop", "include/aligator/solvers/proxddp/solver-proxddp.hpp: LinesearchVariant, filter_", "include/aligator/core/filter.hpp: resetFilter", "include/aligator/core/linesearch-nonmonotone.hpp: NonmonotoneLinesearch", "include/aligator/solvers/fddp/solver-fddp.hxx: run, setup", "include/aligator/solvers/fddp/linesearch.hpp: fddp_goldstein_linesearch"]}
{"id": "C70", "title": "LQ knots and problems are values", "statement": "A new knot has zero blocks of the documented shapes; copies, moves and assignments of knots and problems carry over every dimension and every block, on the allocator the call names (or the target's own); a moved-from object can be assigned to; addParameterization touches the parametric blocks only; isApprox and == answer whether two objects agree in all dimensions and blocks.", "quantifier": "all dimensions (also zero), all coefficients, all allocators, any content of fresh memory, any number of knots, any precision", "why_tests_cant": "Tests copy and move one small knot and compare two of its sixteen blocks; a block that is forgotten, on the wrong allocator, or not compared shows only for the caller who uses it.", "anchors": ["include/aligator/gar/lqr-problem.hpp: LqrKnotTpl, LqrProblemTpl, isApprox, lqrKnotsSameDim, addParameterization, check_allocators", "include/aligator/gar/lqr-problem.hxx: assign, addParameterization, isApprox, LqrProblemTpl", "include/aligator/core/arena-matrix.hpp: ArenaMatrix, resize, setZero", "include/aligator/core/allocator.hpp: polymorphic_allocator"]}
{"id": "C71", "title": "Q-function and cost data objects are values with named blocks", "statement": "Whatever sequence of constructions, copies, moves, swaps, assignments (also with itself) and destructions a Q-function object has gone through, its named blocks Qx, Qu, Qxx, Qxu, Qxy, Quu, Quy, Qyy are the blocks of its own gradient and Hessian: reading and writing them reads and writes that object and no other; copies are independent; rotating a vector of them moves the values. The same for the named blocks of cost data.", "quantifier": "all programs over any number of objects, all dimensions (also zero), all coefficients, any content of fresh memory", "why_tests_cant": "The blocks are references into the object's own storage; a stale one still shows plausible numbers, of another object or of freed memory, and only after the particular sequence of moves that a container makes.", "anchors": ["include/aligator/solvers/value-function.hpp: QFunctionTpl, redef_refs, swap, ntot", "include/aligator/core/cost-abstract.hpp: CostDataAbstractTpl, Lx_, grad_", "include/aligator/utils/mpc-util.hpp: rotate_vec_left", "include/aligator/solvers/fddp/workspace.hxx: q_params"]}
{"id": "C72", "title": "The memory of the FDDP solver fits the problem, also after shifts", "statement": "After setup() on a problem that passes the integrity check, run() of the FDDP solver never uses a buffer, space, cost or dynamics model with a vector of another size and resizes no buffer, whatever the number of iterations and line-search trials; and after the horizon has been shifted by one stage, shifting the workspace gives the workspace a new setup() would give.", "quantifier": "all horizons, all sizes of states, tangent spaces, controls and cost spaces, all numbers of iterations and trials, all appended stages", "why_tests_cant": "Release builds have no size assertions, so a wrong size is silent; tests use a handful of problems whose stages all have the same sizes.", "anchors": ["include/aligator/solvers/fddp/workspace.hxx: WorkspaceFDDPTpl, cycleLeft", "include/aligator/solvers/workspace-base.hpp: cycleAppend, cycleLeft", "include/aligator/solvers/fddp/solver-fddp.hxx: forwardPass, backwardPass, computeInfeasibility", "include/aligator/core/traj-opt-problem.hxx: checkIntegrity"]}
{"id": "C73", "title": "The table printed by a solver shows its iterations", "statement": "A verbose run prints one headline, one row per iteration with the values of that iteration in the columns that name them, and a final message; a silent run prints nothing; running a solver again prints the table of the new run. A program that uses the logger itself gets the table it describes.", "quantifier": "all numbers of runs, iterations and early exits, all values, all hash functions, all growth policies of vectors, all programs of logger operations with literal names", "why_tests_cant": "The defects are reads of freed memory through string views, which usually still print the right text, and output that no test compares.", "anchors": ["src/utils/logger.cpp: printHeadline, log, addColumn, addEntry, reset", "include/aligator/utils/logger.hpp: BASIC_KEYS, m_columnNames, m_currentLine", "include/aligator/solvers/fddp/solver-fddp.hxx: addColumn, logger", "include/aligator/solvers/proxddp/solver-proxddp.hxx: addColumn, logger"]}
{"id": "C74", "title": "The memory of the ProxDDP solver fits the problem, also after shifts", "statement": "After setup() on a problem that passes the integrity check, run() of the ProxDDP solver with the serial linear solver never uses a buffer, space, cost, constraint or dynamics model with a vector of another size, with either rollout, whatever the number of outer loops, iterations and trials, and every buffer has the size setup() gave it; a controller may solve and shift the horizon (replaceStageCircular, cycleProblem) in any order, and the memory is then the one a new setup() for the current problem would give.", "quantifier": "all horizons, all sizes of states, tangent spaces, controls, constraints and cost spaces, all options (rollout, Hessians, forced initial condition), all numbers of loops, iterations and trials, all sequences of solves and shifts with all appended stages", "why_tests_cant": "Release builds have no size assertions, so a wrong size is silent; tests use a handful of problems whose stages all have the same sizes.", "anchors": ["include/aligator/solvers/proxddp/workspace.hxx: WorkspaceTpl, cycleAppend, lqr_problem", "include/aligator/solvers/proxddp/results.hxx: cycleAppend", "include/aligator/solvers/proxddp/solver-proxddp.hxx: setup, run, innerLoop, tryLinearStep, tryNonlinearRollout, updateLQSubproblem, computeMultipliers, cycleProblem", "include/aligator/core/lagrangian.hpp: LagrangianDerivatives", "include/aligator/gar/riccati-kernel.hxx: stageKernelSolve, terminalSolve, forwardImpl", "include/aligator/gar/proximal-riccati.hxx: cycleAppend, backward"]}
{"id": "C75", "title": "Model classes written in Python survive being stored in C++", "statement": "A program that builds objects of a class derived in Python, stores them in problems, reads them back, replaces and copies them and drops names in any order behaves as if every problem had an object of its own: evaluating the problem uses the attributes and the C++ part it was given, later changes to the original do not reach it, changes to the object read back do; no destroyed object is used, and when the last name is gone every object has been destroyed.", "quantifier": "all programs over any number of names, objects and problems, all classes (any __init__, __getinitargs__ and pickled state, also ones that raise), all attribute values, any number of temporary copies on the way in", "why_tests_cant": "Which copies are made, who owns whom and what the deep copy of a user's class does depend on the order of statements and on reference counts; a test stores one object in one problem and keeps the original alive.", "anchors": ["bindings/python/include/aligator/python/polymorphic.hpp: PolymorphicWrapper, OwningNonOwningHolder, deepcopy_owner, ToPythonIndirectPoly, enable_pickling_", "bindings/python/include/aligator/python/costs.hpp: PyCostFunction, value_holder", "bindings/python/src/expose-problem.cpp: term_cost, def_readwrite", "bindings/python/src/expose-stage.cpp: return_internal_reference"]}
{"id": "C76", "title": "ProxDDP solves linear-quadratic problems", "statement": "On a problem with affine dynamics, convex quadratic costs and no path constraints, a run with consistent derivatives and an exact linear solver, from any guess that satisfies a forced initial condition, reports convergence after at most one step, at a trajectory that satisfies the initial condition and the dynamics exactly and whose cost is within the dual tolerance of the optimum.", "quantifier": "all horizons, state and control dimensions, matrices, guesses, multipliers, parameters, line searches and linear solvers, exact and Gauss-Newton Hessians, forced and soft initial condition", "why_tests_cant": "A test solves a few problems from a few guesses; which guesses make the inner loop stop without moving, and which scalings make the line search refuse the exact step, depends on the merit function and on the criterion, not on the problem being easy.", "anchors": ["include/aligator/solvers/proxddp/solver-proxddp.hxx: computeCriterion, innerLoop, updateLQSubproblem, directionalDerivative, inner_criterion, dphi_thresh", "include/aligator/solvers/proxddp/merit-function.hxx: evaluate, directionalDerivative", "include/aligator/core/linesearch-armijo.hpp: run"]}
{"id": "C77", "title": "ProxDDP converges on convex problems with equality path constraints", "statement": "On a problem with affine dynamics, convex quadratic costs and affine equality path constraints, with exact linear solver and Newton multiplier updates, every accepted full step brings trajectory and multipliers closer to every solution in the norm weighted by regularisation and penalty, satisfies initial condition and dynamics exactly, and contracts the distance by K rho^2/(1 + K rho^2) where K bounds the inverse of the first-order system (it exists exactly when the first-order point is unique) and rho the penalty and regularisation parameters; a run reports convergence after a number of iterations logarithmic in the initial error, at a trajectory that meets the constraints within the tolerance.", "quantifier": "all horizons, dimensions, constraint matrices and stackings, costs, guesses, multipliers, solutions, penalty and regularisation parameters, forced and soft initial condition, exact and Gauss-Newton Hessians; runs of any length", "why_tests_cant": "The rate, and that no iterate moves away from the solution, are statements about every problem and every iterate; a test observes the residuals of a few runs and cannot tell a solver that converges from one that happens to.", "anchors": ["include/aligator/solvers/proxddp/solver-proxddp.hxx: computeMultipliers, innerLoop, run, updateLQSubproblem, tryLinearStep, updateTolsOnFailure, updateTolsOnSuccess", "include/aligator/solvers/proxddp/merit-function.hxx: evaluate, directionalDerivative", "include/aligator/core/linesearch-armijo.hpp: run"]}
{"id": "C78", "title": "ProxDDP iterations approach the solutions of convex problems with inequality and box path constraints", "statement": "On a problem with affine dynamics, convex quadratic costs and affine path constraints in zero sets, negative orthants and boxes, a full step along the solution of the linear system satisfies initial condition and dynamics exactly; when no constraint changes side between the old and the new iterate, the step never increases the weighted squared distance of trajectory and multipliers to any first-order optimal point, the multipliers lie in the normal cones at values allowed that differ from the constraint values by the reported infeasibility, and M such iterations with multiplier updates contain one whose infeasibility and gradient are of order 1/sqrt(M). However the inner problem was solved, an exact solution of it brings the multipliers closer to those of every optimal point. A step in which a constraint changes side can move away from every solution and give an inequality a negative multiplier.", "quantifier": "all horizons, dimensions, constraint matrices, stackings of sets, bounds, costs, guesses, multipliers, optimal points, penalty and regularisation parameters, forced and soft initial condition, exact and Gauss-Newton Hessians; sequences of any length", "why_tests_cant": "Distances to unknown optimal points and rates over all problems cannot be observed; which constraints change side depends on the iterate, so a test on one problem exercises one pattern of active sets.", "anchors": ["include/aligator/solvers/proxddp/solver-proxddp.hxx: computeMultipliers, innerLoop, updateLQSubproblem, tryLinearStep, updateTolsOnSuccess, computeProjectedJacobians", "include/aligator/modelling/constraints/negative-orthant.hpp: normalConeProjection, computeActiveSet", "include/aligator/modelling/constraints/box-constraint.hpp: computeActiveSet, projection"]}
{"id": "C79", "title": "ProxDDP runs near a strictly complementary solution keep its active constraints and converge", "statement": "On a problem with affine dynamics, convex quadratic costs and affine path constraints in zero sets, negative orthants and boxes, let a first-order optimal point be unique and strictly complementary. A run that starts near it, with its active constraints, never changes the active constraints: every full step keeps the multipliers of inactive constraints at zero and contracts the weighted squared distance of trajectory and multipliers to the solution by a factor that can be made as small as wanted by the penalty parameter and the regularisation. The run reports convergence after a number of iterations logarithmic in the initial error, at a trajectory that satisfies initial condition and dynamics exactly and whose constraint values are within the tolerance of values allowed at which the multipliers lie in the normal cones.", "quantifier": "all horizons, dimensions, constraint matrices, stackings of sets, bounds, costs, guesses and multipliers near the solution with its active constraints, parameters, line searches that accept full steps", "why_tests_cant": "Convergence of every run in a neighbourhood, with a bound on the number of iterations that holds for all problems, cannot be observed on samples; the outer loop takes different branches (multiplier update, penalty decrease) depending on tolerances that change from problem to problem.", "anchors": ["include/aligator/solvers/proxddp/solver-proxddp.hxx: run, innerLoop, computeMultipliers, updateLQSubproblem, tryLinearStep, computeProjectedJacobians", "include/aligator/solvers/proxddp/solver-proxddp.hpp: updateTolsOnSuccess, updateTolsOnFailure", "include/aligator/modelling/constraints/negative-orthant.hpp: normalConeProjection, computeActiveSet", "include/aligator/modelling/constraints/box-constraint.hpp: computeActiveSet, projection"]}
{"id": "C80", "title": "Zones without memory allocation restore what was allowed before", "statement": "In builds that check for memory allocation, a block declared free of allocation forbids allocation while it runs, and when it is left, normally or by an exception, allocation is allowed again exactly if it was allowed before; so a solver that returns leaves allocation allowed for its caller, and functions of the user (cost, dynamics, manifold operations, callbacks) called by the solver run with the permission the caller had.", "quantifier": "all programs of zones, exceptions and calls of user code; all numbers of iterations, trial steps and block solves of the solvers; both initial permissions", "why_tests_cant": "The permission is global state of the thread: a test sees it only for the nesting of zones and the exceptions that its own run happens to produce.", "anchors": ["include/aligator/math.hpp: scoped_nomalloc, ALIGATOR_NOMALLOC_SCOPED, ALIGATOR_NOMALLOC_RESTORE, ALIGATOR_NOMALLOC_BEGIN, ALIGATOR_NOMALLOC_END, ALIGATOR_EIGEN_ALLOW_MALLOC", "include/aligator/gar/parallel-solver.hxx: backward, forward", "include/aligator/gar/block-tridiagonal.hpp: symmetricBlockTridiagSolve", "include/aligator/solvers/proxddp/solver-proxddp.hxx: computeCriterion, updateLQSubproblem, innerLoop", "include/aligator/solvers/fddp/solver-fddp.hxx: forwardPass, backwardPass", "include/aligator/modelling/costs/quad-residual-cost.hxx: computeHessians"]}
{"id": "C81", "title": "Problems are independent values; the initial state is the one last set", "statement": "A trajectory optimisation problem behaves as a value: a copy or an assigned problem equals its source, later changes of one do not show in the other, a problem moved elsewhere keeps everything; getInitState returns the initial state last given to that very problem, and the reference it returns keeps showing the current one; problems with another initial condition refuse access to an initial state; replacing a stage drops the first one and returns it; checkIntegrity holds exactly when the dimensions of the initial condition, consecutive stages and the terminal cost agree; an initial guess has zero multipliers of the sizes of the constraints.", "quantifier": "all programs of constructions, copies, assignments, moves, destructions and changes of any number of problems; all stages, costs, states; debug and release builds", "why_tests_cant": "Tests look at one object after a few calls; sharing of storage between copies, stale caches and dangling references show only for particular orders of operations on several objects.", "anchors": ["include/aligator/core/traj-opt-problem.hpp: setInitState, getInitState, initCondIsStateError, addTerminalConstraint, removeTerminalConstraints, initializeSolution", "include/aligator/core/traj-opt-problem.hxx: checkIntegrity, replaceStageCircular, checkInitCondIsStateError, addStage", "include/aligator/modelling/state-error.hpp: validate"]}
{"id": "C82", "title": "Block matrices are values with a partition", "statement": "A block matrix behaves as a value that consists of a partition of its rows and columns and a matrix: block (i, j) is the submatrix at the partial sums of the partition, rows and cols report the sums, copies and assigned matrices equal their source and share nothing with it, writing a block changes that block only, and exchanging two block matrices exchanges their values; data of a wrong shape is refused.", "quantifier": "all programs of constructions, copies, moves, assignments, exchanges, block reads and writes on any number of block matrices; all numbers and sizes of blocks, empty ones included; fixed and dynamic numbers of blocks; debug and release builds", "why_tests_cant": "Partition, index arrays, totals and storage are separate members; tests use one matrix with one partition, in which stale or mismatched members do not show.", "anchors": ["include/aligator/core/blk-matrix.hpp: BlkMatrix, operator(), swap, setZero, Zero, initialize, rowDims, colDims, rows, cols"]}
{"id": "C83", "title": "Evaluations in different data objects do not interfere", "statement": "Every problem data object owns what evaluations write into: evaluating a problem or its derivatives with one data object, shifting its stages, or handing stage data over to it changes what that object shows and nothing else; what it shows afterwards depends on the problem, the trajectory and its own earlier contents only, not on the schedule of the threads; its cost is the cost of the last trajectory evaluated with it; and a copy shows what the original showed when the copy was made.", "quantifier": "all programs of creating, copying, destroying, evaluating, differentiating, shifting and reading any number of problem data objects and stage data objects; all problems and trajectories; any number of threads and any schedule", "why_tests_cant": "The objects are behind shared pointers, so aliasing between data objects or between stages of one object depends on the history of the program; tests use one data object that was never copied or shifted twice.", "anchors": ["include/aligator/core/traj-opt-data.hpp: TrajOptDataTpl, stage_data, cost_", "include/aligator/core/traj-opt-data.hxx: TrajOptDataTpl, computeTrajectoryCost", "include/aligator/core/stage-data.hxx: StageDataTpl", "include/aligator/solvers/workspace-base.hpp: cycleAppend, cycleLeft", "include/aligator/solvers/proxddp/workspace.hxx: cycleAppend", "include/aligator/core/traj-opt-problem.hxx: evaluate, computeDerivatives", "include/aligator/utils/mpc-util.hpp: rotate_vec_left"]}
{"id": "C84", "title": "An LQ solver object can be used again and again", "statement": "One serial LQ solver object may be used for any number of problems of the same dimensions: what a backward pass does (success, exception, or going on after an unchecked factorisation) and the gains, costs to go, initial stage and parameter derivatives it leaves unless it throws depend only on the current contents of the problem and the penalty, not on the problems solved before, on passes that failed, on shifts of the horizon or on uninitialised memory; after a good pass the forward pass overwrites the vectors of the caller with the only KKT point of the current problem (multiplier coupling with the parameter excepted, see C05).  After an exception the object is a mixture of two problems, and a forward pass starts from the initial state of the earlier one.  The stagewise-dense solver has the same independence from any contents of its memory for every pass whose factorisations succeed (symmetric costs, positive horizon).  So has the parallel solver, whose memory includes the parametric blocks it writes into the problem of the client and the solution and residual of the condensed system, for any number of legs and any number of refinement steps but one (see C12).", "quantifier": "all histories of constructing, backward passes (good or failing) on any problem contents and penalties, and shifts with a knot of any control and constraint dimensions; all horizons, dimensions and exact symmetric solvers; any contents of fresh memory, of the caller's vectors, and of failed factorisations", "why_tests_cant": "Stale entries survive only in blocks that a pass does not write (off-diagonal constraint entries, parametric gains, closed-loop gains of the last knot), after particular sequences of problems and failures; tests construct a new solver for each problem.", "anchors": ["include/aligator/gar/riccati-kernel.hxx: terminalSolve, stageKernelSolve, backwardImpl, forwardImpl, computeInitial", "include/aligator/gar/riccati-kernel.hpp: StageFactor, CostToGo, kkt0_t", "include/aligator/gar/proximal-riccati.hxx: backward, forward, cycleAppend", "include/aligator/core/bunchkaufman.hpp: compute, solveInPlace", "include/aligator/gar/dense-kernel.hpp: terminalSolve, stageKernelSolve, forwardStep", "include/aligator/gar/dense-riccati.hxx: backward, forward, cycleAppend", "include/aligator/gar/parallel-solver.hxx: initialize, backward, forward, cycleAppend"]}
{"id": "C85", "title": "Evaluation data of costs, functions and dynamics are values with named blocks", "statement": "In every program that makes and destroys cost, stage function and implicit dynamics data objects and writes through their members, Lx, Lu, Lxx, Lxu, Lux, Luu, value, Jx, Ju, Jy, Hxx, Hxu, Huu of an object are the rows and columns of those variables in the gradient, Hessian, value, Jacobian and second-derivative matrix of that object and no other; new data is zero; no coefficient has two names, and a function that fills its named blocks fills the whole gradient, Hessian and Jacobian (of the second derivatives of a stage function all but the block Hux, which has no name).  Copies of such objects are not values: the blocks of the copy are those of the original, and dangle when it is destroyed.", "quantifier": "all programs over any number of objects of the three classes, all dimensions (also zero), all coefficients, any content of fresh memory; for the negations all names, all places in them", "why_tests_cant": "The members are references into the object's own storage, made in the constructor from offsets that must fit the matrix sizes for every combination of dimensions; a wrong offset or a stale reference shows plausible numbers, of another block or object.", "anchors": ["include/aligator/core/cost-abstract.hpp: CostDataAbstractTpl, Lxu_, Luu_", "include/aligator/core/function-abstract.hxx: StageFunctionDataTpl, vhp_buffer_, Hxu_", "include/aligator/core/dynamics.hxx: DynamicsDataTpl, jac_buffer_, Jy_"]}
{"id": "C86", "title": "A set-up solver uses the linear solver and the settings it was given, or refuses", "statement": "setup of ProxDDP accepts exactly the problems that can be allocated under a supported combination of settings (the parallel linear solver only with linear rollouts, at least two threads and a multithreaded build), whatever was done before; after it, and any shifts, runs and changes of settings, a run uses the linear solver selected at setup, made for the sizes of the subproblem, and the rollout, threads and step acceptance selected.  A setup or shift that throws leaves the solver as it was, and combinations that setup refuses are never used.", "quantifier": "all settings, all problems (sizes, integrity, functions that throw while memory is made), all sequences of setters, setups accepted or rejected, shifts and runs", "why_tests_cant": "Depends on the order of assignments in setup when an exception leaves it half way and on settings read at different times; tests set up once with valid settings.", "anchors": ["include/aligator/solvers/proxddp/solver-proxddp.hxx: setup, setNumThreads, cycleProblem", "include/aligator/solvers/proxddp/solver-proxddp.hpp: linear_solver_choice, rollout_type_, LinesearchVariant", "include/aligator/gar/parallel-solver.hxx: ParallelRiccatiSolver, numThreads_", "include/aligator/solvers/proxddp/workspace.hxx: cycleAppend, checkIntegrity"]}
{"id": "C87", "title": "Elements and arrays handed to Python are the right ones and stay valid", "statement": "From Python, a block row, block column or block of a block matrix, a component of a product space, a cost of a stack and a callback of a solver are returned for every index or key that exists, and an exception is raised for every other; never memory out of bounds.  An array obtained from a data object or a block matrix shows the memory of that object, and later writes to it, for as long as the array exists, whatever happens to the other names; the object is released once nothing refers to it.", "quantifier": "all partitions and indices, all lists and keys, all programs (creation, aliases, accessors, slices, copies, reads, writes, calls that fill an object, deletions) on any number of objects and arrays", "why_tests_cant": "The lifetime of the memory behind an array depends on the whole program; reading freed memory often shows the old values, so tests pass. The bindings are tested with valid indices and named objects.", "anchors": ["bindings/python/include/aligator/python/blk-matrix.hpp: blockRow, blockCol, get_block", "bindings/python/include/aligator/python/eigen-member.hpp: make_getter_eigen_matrix, with_custodian_and_ward_postcall", "bindings/python/src/expose-costs.cpp: Lx, return_by_value", "bindings/python/src/expose-functions.cpp: jac_buffer, vhp_buffer, Jx", "bindings/python/src/modelling/expose-dynamics.cpp: Jx, Hxx", "bindings/python/src/expose-cartesian-product.cpp: getComponent", "bindings/python/src/modelling/expose-cost-stack.cpp: getComponent, key_err_python_manager", "bindings/python/include/aligator/python/solvers.hpp: getCallback"]}
{"id": "C88", "title": "A run projects with the constraint sets the problem holds", "statement": "Whenever ProxDDP runs, it projects the constraints of each stage and of the terminal node on the sets that the problem holds at that time: after changes of a set (limits of a box, say), after set up, and after any number of shifts of the horizon.", "quantifier": "all horizons of at least one stage, all sets, all sequences of set ups, changes of the sets of stages and of the terminal node, shifts and runs", "why_tests_cant": "The sets are copied at set up and rotated at every shift, so a wrong set shows only after particular sequences of changes and shifts, and the run still converges, to a solution of another problem.", "anchors": ["include/aligator/solvers/proxddp/workspace.hpp: getConstraintProductSet, cstr_product_sets", "include/aligator/solvers/proxddp/workspace.hxx: cycleAppend", "include/aligator/solvers/proxddp/solver-proxddp.hxx: computeMultipliers, cycleProblem", "include/aligator/core/traj-opt-problem.hxx: replaceStageCircular", "include/aligator/utils/mpc-util.hpp: rotate_vec_left"]}
