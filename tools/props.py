#!/usr/bin/env python3
"""Source of properties.jsonl (run: python3 tools/props.py > properties.jsonl)."""
import json
P = []
def p(id, title, statement, quantifier, why, *anchors):
    P.append(dict(id=id, title=title, statement=statement, quantifier=quantifier,
                  why_tests_cant=why, anchors=list(anchors)))
I = "include/aligator/"

# ---------------------------------------------------------------- LQ solvers
p("C01", "The serial LQ solver returns a KKT point",
  "Calling backward(mueq) and, when it does not throw, forward(xs, us, vs, lbdas, theta) on a linear-quadratic problem with symmetric Hessian blocks returns state, control, constraint-multiplier and costate sequences that satisfy every KKT equation of the problem exactly: initial condition, stage stationarity in x and u, dynamics, and the proximal constraint equation Cx+Du+d-mueq*v=0 at every knot including the terminal one.",
  "every horizon (including 0), every state/control/constraint/parameter dimension at every knot, all problem data with symmetric Q,R, every mueq, every parameter theta",
  "Tests solve a few random problems of fixed size and compare residuals with a tolerance; they cannot cover every horizon, dimension pattern and data.",
  I+"gar/riccati-kernel.hxx: ProximalRiccatiKernel::terminalSolve, stageKernelSolve, forwardImpl", I+"gar/proximal-riccati.hxx: ProximalRiccatiSolver::backward, forward", I+"gar/lqr-problem.hpp")
p("C02", "The LQ solution is the only one",
  "When the serial solver's backward pass and initial-stage factorisation succeed, the KKT system has exactly one solution: any sequences satisfying all KKT equations are equal, component by component, to what forward() returns.",
  "every problem on which the backward pass succeeds and every candidate solution of its KKT system",
  "A test can compare with one reference solver, it cannot exclude a second solution.",
  I+"gar/riccati-kernel.hxx", I+"gar/proximal-riccati.hxx")
p("C03", "For convex problems the LQ solution is a global minimiser",
  "If every stage Hessian [Q S; S^T R] is positive semidefinite and mueq>0, then the (xs, us) returned by the solver minimise the sum of stage costs plus the quadratic constraint penalty |Cx+Du+d|^2/(2 mueq), over all trajectories satisfying the dynamics and the initial condition.",
  "every feasible trajectory of every convex problem",
  "Optimality quantifies over all competing trajectories.",
  I+"gar/riccati-kernel.hxx", I+"gar/lqr-problem.hpp: LqrProblemTpl::evaluate")
p("C04", "The feedback gains are the sensitivity of the optimal policy",
  "After backward(), at every stage t, for every state x (not only the nominal one) the affine law given by feedforward and feedback gains (u = kff + K x, v = zff + Z x, costate and next state likewise) rolled out to the end of the horizon satisfies the KKT equations of the tail problem started at x; and the stored value-function gradient and Hessian give the costate at x.",
  "every stage and every state reached at that stage",
  "A policy must be right for all states, a test only checks the nominal trajectory.",
  I+"gar/riccati-kernel.hxx: computeInitial, stageKernelSolve, forwardImpl", I+"gar/proximal-riccati.hpp: getFeedforward, getFeedback")
p("C05", "Parametric LQ problems: gradient and Hessian in the parameter",
  "For a parametrised problem the solution returned by forward(..., theta) satisfies the parametric KKT equations for every theta, and the reported parameter gradient/Hessian (thGrad + thHess*theta) equal the derivative of the optimal value with respect to theta: sum over knots of gamma + Gx^T x + Gu^T u + Gv^T v + Gth theta.",
  "every theta, every parametric term (Gx, Gu, Gv, Gth, gamma)",
  "Tests use a handful of parameters and never the Gv term.",
  I+"gar/riccati-kernel.hxx", I+"gar/lqr-problem.hpp: addParameterization, Gx, Gu, Gv, Gth, gamma", I+"gar/proximal-riccati.hxx: thGrad, thHess, kkt0")
p("C06", "The dense-stage LQ solver returns the same solution",
  "The stage-dense solver's backward/forward returns sequences satisfying the same KKT equations as the serial solver, hence the same solution whenever both succeed.",
  "every horizon >= 1, every dimension, all data",
  "Same as C01.",
  I+"gar/dense-kernel.hpp", I+"gar/dense-riccati.hpp", I+"gar/dense-riccati.hxx")
p("C07", "The dense-stage LQ solver's parametric derivatives",
  "The stage-dense solver reports the same value-function parameter gradient and Hessian (pt, Ptt) as the recursion of the serial solver on problems with parametric terms at several stages.",
  "every parametrised problem with horizon >= 1",
  "Only a non-trivial multi-stage parametrisation exposes a missing accumulation.",
  I+"gar/dense-kernel.hpp: DenseKernel::stageKernelSolve")
p("C08", "The parallel LQ solver returns the solution of the whole problem",
  "For every number of legs 2 <= numThreads <= horizon+1, the parallel solver's leg condensation, condensed system solve and forward pass return sequences that satisfy the KKT equations of the undivided problem, i.e. the result does not depend on the number of threads.",
  "every horizon, every leg count, all data with symmetric Hessians on which the factorisations succeed",
  "Number of threads and horizon are unbounded; tests fix two or three values.",
  I+"gar/parallel-solver.hxx: ParallelRiccatiSolver::backward, assembleCondensedSystem, forward, initialize")
p("C09", "Work splitting covers the horizon exactly once",
  "The ranges handed to the legs are contiguous, ordered, pairwise disjoint, cover stages 0..horizon exactly, differ in length by at most one, and are all non-empty iff numThreads <= horizon+1.",
  "every horizon and thread count (within the unsigned arithmetic range; the wrap-around outside of it is characterised)",
  "Arithmetic over all sizes.",
  I+"gar/parallel-solver.hxx: get_work")
p("C10", "Parallel stage evaluation does not depend on the schedule",
  "Evaluating the problem (costs, constraints, dynamics, derivatives) with any number of threads and any interleaving of stage evaluations leaves the same problem data and the same total cost as the sequential loop, provided stages do not share a data object; with a shared data object it does not hold.",
  "every assignment of stages to threads and every interleaving",
  "Schedules cannot be enumerated by tests.",
  I+"core/traj-opt-problem.hxx: TrajOptProblemTpl::evaluate, computeDerivatives", I+"gar/parallel-solver.hxx")
p("C11", "Block-tridiagonal solve",
  "symmetricBlockTridiagSolve returns true exactly when the block counts agree and every factorisation succeeded, and then the right-hand side buffer holds x with T x = rhs, where T is the block-tridiagonal matrix of the inputs; it returns false without touching the data when the numbers of blocks disagree.",
  "every number of blocks >= 1, every block dimension, all data",
  "Number and size of blocks unbounded.",
  I+"gar/block-tridiagonal.hpp: symmetricBlockTridiagSolve, symmetricBlockTridiagSolveDownLooking, blockTridiagMatMul")
p("C12", "Iterative refinement in the parallel solver preserves the solution",
  "Whatever the refinement settings, the condensed solution used by the forward pass solves the condensed system (in exact arithmetic refinement must not change a solved system).",
  "every maxRefinementSteps and threshold, every condensed system",
  "Depends on the setting and on state kept from previous calls.",
  I+"gar/parallel-solver.hxx: ParallelRiccatiSolver::backward, maxRefinementSteps, condensedThreshold")
p("C13", "Feedback gains of the parallel solver",
  "After collapseFeedback(), the initial-stage feedback gain of the parallel solver equals the serial solver's one, i.e. the derivative of u0 with respect to x0 of the whole problem.",
  "every problem and leg count",
  "Tests compare trajectories, not the gain of the first stage.",
  I+"gar/parallel-solver.hpp: collapseFeedback")
p("C14", "Symmetric indefinite factorisation decides invertibility and solves",
  "The Bunch-Kaufman factorisation of a symmetric matrix reports Success exactly when the matrix is invertible, and then solve(b) returns the unique x with A x = b; only the lower triangle of the input is read.",
  "every size and every symmetric matrix over an ordered field (exact arithmetic)",
  "Pivoting paths depend on the entries; sizes unbounded.",
  I+"core/bunchkaufman.hpp: bunch_kaufman_in_place_unblocked, bunch_kaufman_solve_in_place, BunchKaufman::compute")
p("C15", "LQ problem utilities agree with the KKT system",
  "lqrComputeKktError returns zero exactly on KKT points; the matrix and right-hand side assembled by lqrCreateSparseMatrix describe the same system (matrix*z + rhs = 0 iff z, split by lqrDenseSolutionToTraj, is a KKT point); splitting and concatenation are inverse.",
  "every problem and every candidate solution",
  "Equivalence of two systems quantifies over all vectors.",
  I+"gar/utils.hpp: lqrDenseSolutionToTraj, lqrInitializeSolution", I+"gar/utils.hxx: lqrComputeKktError, lqrCreateSparseMatrix")
# ---------------------------------------------------------------- solvers
p("C16", "ProxDDP reports convergence only at the requested tolerances",
  "If run() returns true then the primal infeasibility recorded in the results is <= target_tol and the dual infeasibility is <= target_dual_tol, evaluated at the returned iterate; and the iteration counters never exceed max_iters and max_al_iters.",
  "every behaviour of the problem functions, line search and linear solver (abstract), every parameter setting",
  "Quantifies over all iteration histories.",
  I+"solvers/proxddp/solver-proxddp.hxx: SolverProxDDPTpl::run, innerLoop")
p("C17", "ProxDDP reports convergence whenever the inner loop met the targets",
  "If an inner loop stops because the current iterate satisfies both final tolerances, then run() returns true (no late rejection because of the intermediate primal tolerance).",
  "every history of tolerances and penalties",
  "Depends on clamping invariants over all outer iterations.",
  I+"solvers/proxddp/solver-proxddp.hxx: run, innerLoop, updateTolsOnSuccess, updateTolsOnFailure")
p("C18", "Penalty, tolerance and regularisation bounds are never violated",
  "During a run the penalty parameter stays within [mu_lower_bound, initial value], the primal tolerance never drops below target_tol, the inner tolerance used by an inner loop never drops below one hundredth of the target dual tolerance, and the regularisation used in the linear subproblem stays >= reg_min and below reg_max times the largest increase factor.",
  "every sequence of successful and failed outer iterations and inner steps",
  "Invariant over all histories.",
  I+"solvers/proxddp/solver-proxddp.hpp: setAlmPenalty, initializeRegularization, increaseRegularization, updateTolsOnFailure, updateTolsOnSuccess", I+"solvers/proxddp/solver-proxddp.hxx")
p("C19", "run() terminates",
  "Every call of run() performs finitely many steps for valid parameters (0<bcl exponents, penalty factor < 1, contraction factors in (0,1), alpha_min > 0).",
  "every behaviour of the problem functions",
  "Non-termination cannot be observed by a terminating test.",
  I+"solvers/proxddp/solver-proxddp.hxx: run (tolerance-tightening loop), innerLoop", I+"core/linesearch-armijo.hpp", I+"core/linesearch-nonmonotone.hpp")
p("C20", "FDDP convergence flag, iteration and regularisation bounds",
  "If FDDP's run() returns true then the stopping criterion max(primal, dual infeasibility) < target_tol held; the iteration counter is <= max_iters; the regularisation stays in [reg_min, reg_max].",
  "every behaviour of the problem functions and line search",
  "Quantifies over all histories.",
  I+"solvers/fddp/solver-fddp.hxx: SolverFDDPTpl::run", I+"solvers/fddp/solver-fddp.hpp: increaseRegularization, decreaseRegularization")
p("C21", "FDDP (Goldstein-type) line search returns a consistent pair",
  "The step length and merit value returned by the FDDP line search belong together: the returned value is the merit function at the returned step, the step is in [alpha_min, 1], and either the acceptance test holds or the step is alpha_min.",
  "every merit function (including throwing ones) and every parameter setting",
  "Quantifies over arbitrary merit functions.",
  I+"solvers/fddp/linesearch.hpp: fddp_goldstein_linesearch")
p("C22", "Armijo line search",
  "The Armijo line search returns a step >= alpha_min; it either satisfies phi(alpha) <= phi0 + c1*alpha*dphi0, or the step is at the lower bound, or the step budget is exhausted; the returned value is phi at the returned step; every interpolated trial step lies within the contraction bounds; the search evaluates phi at most max_num_steps+extra times.",
  "every merit function (including NaN and throwing ones), every interpolation strategy",
  "Quantifies over arbitrary functions.",
  I+"core/linesearch-armijo.hpp: ArmijoLinesearch::run, minimize_interpolant")
p("C23", "Interpolation steps minimise an interpolant of the samples",
  "The quadratic (cubic) interpolation used by the Armijo line search builds the unique quadratic (cubic) through the sampled values and initial slope.",
  "every pair of samples",
  "Sampling specific functions (e.g. exact quadratics) hides a transposed sample.",
  I+"core/linesearch-armijo.hpp: minimize_interpolant, PolynomialTpl")
p("C24", "Nonmonotone line search",
  "The nonmonotone line search returns a pair (alpha, phi(alpha)) with alpha >= alpha_min such that either the relaxed decrease condition with respect to the reference value holds or alpha is at the lower bound; the reference value is a weighted average of all previous values (between their min and max) until reset().",
  "every merit function and every history of calls",
  "The reference depends on the whole history.",
  I+"core/linesearch-nonmonotone.hpp: NonmonotoneLinesearch::run, reset")
p("C25", "The filter only holds mutually non-dominated pairs",
  "After any sequence of filter operations starting from reset() (with margin 0, the value the solver uses), no stored (primal, dual) pair dominates another, a candidate is rejected exactly when some previously accepted pair dominates it, and no accepted information is lost (every pair ever accepted is dominated by a stored pair).",
  "every sequence of candidate pairs",
  "Unbounded histories.",
  I+"core/filter.hpp: FilterTpl::accept_pair, resetFilter, run")
p("C26", "First-order multiplier update and constraint infeasibility",
  "The multiplier estimate produced for a constraint (value z, set C, penalty mu, previous estimate v_prev) is the projection onto the normal cone of the shifted constraint divided by mu, the residual mu*(v_plus - v_prev) reported as infeasibility equals z minus a point of C, and it vanishes exactly when z is in C and v_prev is in the normal cone at z.",
  "every constraint set in the library, every value, multiplier and mu>0",
  "Complementarity logic over a continuum.",
  I+"solvers/proxddp/solver-proxddp.hxx: computeMultipliers", I+"core/constraint-set.hpp")
p("C27", "Lagrangian gradient",
  "The computed Lagrangian gradient with respect to states and controls is the adjoint of the linearised problem: its inner product with any direction equals the directional derivative of the Lagrangian, for every horizon.",
  "every trajectory direction, horizon and data",
  "Adjoint identity over all directions.",
  I+"core/lagrangian.hpp: LagrangianDerivatives::compute")
p("C28", "Merit function directional derivative",
  "The directional derivative handed to the line search is the derivative at 0 of the merit function along the trial step.",
  "every step direction (states, controls, multipliers) and every differentiable problem data",
  "Derivative identity over all directions; finite differences cannot certify it.",
  I+"solvers/proxddp/merit-function.hxx: ALFunction::evaluate, directionalDerivative", I+"solvers/proxddp/solver-proxddp.hxx: forwardPass")
p("C29", "The initial guess is honoured or rejected",
  "run(problem, xs, us): an empty guess uses the problem's default, a guess with the right lengths becomes the starting point, anything else throws; a warm start's initial state is corrected to the problem's initial condition when the initial condition is forced.",
  "every combination of given guesses",
  "Case analysis over all inputs.",
  I+"solvers/proxddp/solver-proxddp.hxx: run", I+"core/traj-opt-problem.hpp: check_initial_guess_and_assign, initializeSolution, assign_no_resize")
# ---------------------------------------------------------------- problem & MPC
p("C30", "Receding-horizon shift of the problem",
  "After any sequence of replaceStageCircular(new) calls, the stages are the last N elements of (initial stages ++ appended stages), in order, and the dimension-chain integrity check keeps holding when each new stage chains with its neighbours.",
  "every sequence of appended stages, every horizon >= 1",
  "Unbounded histories.",
  I+"core/traj-opt-problem.hxx: replaceStageCircular, checkIntegrity, addStage", I+"utils/mpc-util.hpp: rotate_vec_left")
p("C31", "Receding-horizon shift of solver memory",
  "After cycleProblem/cycleAppend the stored results are the previous results shifted by one stage with a fresh last element, and all buffers have the dimensions a newly set-up solver for the new problem would have.",
  "every number of cycles and every stage dimensions",
  "Unbounded histories and dimension patterns.",
  I+"solvers/proxddp/results.hpp: cycleAppend", I+"solvers/proxddp/workspace.hxx: cycleAppend", I+"solvers/proxddp/solver-proxddp.hxx: cycleProblem", I+"gar/proximal-riccati.hxx: cycleAppend")
p("C32", "Trajectory evaluation rejects wrong sizes and sums stage costs",
  "evaluate/computeDerivatives throw when xs or us have the wrong length; otherwise the returned cost is the sum of all stage costs and the terminal cost, each evaluated at its own (x_i,u_i).",
  "every problem and trajectory",
  "All lengths.",
  I+"core/traj-opt-problem.hxx: evaluate, computeDerivatives, computeTrajectoryCost")
p("C33", "Constraint stack bookkeeping",
  "After any sequence of pushBack/clear, each constraint's slice of the stacked vector starts at the sum of the previous dimensions, slices are disjoint and tile [0,totalDim()).",
  "every sequence of operations",
  "Unbounded histories.",
  I+"core/constraint.hpp: ConstraintStackTpl")
p("C34", "Block matrix views tile the storage",
  "For any row/column dimension lists, blocks (i,j) of a block matrix are pairwise disjoint, cover the storage, writing one block leaves every other block unchanged, and top-row views agree with the originals.",
  "every list of dimensions",
  "All layouts.",
  I+"core/blk-matrix.hpp: BlkMatrix")
# ---------------------------------------------------------------- constraint sets
p("C35", "Projection operators are the Euclidean projections",
  "For each convex set of the library (equality, negative orthant, box with lower<=upper, and products), projection(z) lies in the set, is the closest point to z, is idempotent and nonexpansive; normalConeProjection(z) = z - projection(z) and lies in the normal cone at projection(z).",
  "every dimension and every vector",
  "Continuum of inputs.",
  I+"modelling/constraints/box-constraint.hpp", I+"modelling/constraints/constraint-set-product.hpp", I+"modelling/constraints/equality-constraint.hpp", I+"modelling/constraints/l1-penalty.hpp", I+"modelling/constraints/negative-orthant.hpp", I+"core/constraint-set.hpp")
p("C36", "L1 penalty proximal operator",
  "The l1 set's projection is the proximal operator of its penalty: it minimises mu*|w|_1 + |w-z|^2/2, and the complementary operator is the projection on the l-infinity ball of radius mu.",
  "every vector and mu>=0",
  "Continuum.",
  I+"modelling/constraints/l1-penalty.hpp")
p("C37", "Active sets and projected Jacobians",
  "computeActiveSet flags exactly the components on which the normal-cone projector is locally the identity; applyNormalConeProjectionJacobian keeps exactly those rows and applyProjectionJacobian exactly the others, so the two results sum to the input Jacobian and each row is the derivative of the corresponding projection wherever it is differentiable.",
  "every set, vector and Jacobian",
  "Continuum; kinks.",
  I+"core/constraint-set.hxx", I+"modelling/constraints/box-constraint.hpp", I+"modelling/constraints/constraint-set-product.hpp", I+"modelling/constraints/equality-constraint.hpp", I+"modelling/constraints/l1-penalty.hpp", I+"modelling/constraints/negative-orthant.hpp")
p("C38", "Product sets act blockwise",
  "A product constraint set's projection, normal-cone projection, active set and Jacobian maps are those of the components on their own blocks with no interference, for every list of components.",
  "every list of component sets and block sizes",
  "All layouts.",
  I+"modelling/constraints/constraint-set-product.hpp")
# ---------------------------------------------------------------- modelling
p("C39", "Manifold laws for products and tangent bundles",
  "integrate/difference are mutually inverse and interpolate hits the end points, on vector spaces, and on Cartesian products and tangent bundles whenever they do on the components; component blocks do not interfere; split and merge are inverse.",
  "every list of components and all points",
  "All layouts, continuum.",
  I+"core/vector-space.hpp", I+"modelling/spaces/cartesian-product.hxx", I+"modelling/spaces/tangent-bundle.hxx")
p("C40", "Product-manifold point validation",
  "isNormalized(x) on a Cartesian product is true exactly when every component's part is normalised.",
  "every point and component list",
  "Conjunction over arbitrarily many components.",
  I+"modelling/spaces/cartesian-product.hxx: isNormalized")
p("C41", "Weighted cost sums",
  "A cost stack's value, gradient and Hessian are the weighted sums over all components added so far, independent of the hash-table iteration order; adding a component adds exactly its contribution; scaling scales the total.",
  "every sequence of addCost/setWeight calls, every iteration order",
  "Unbounded histories, unspecified order.",
  I+"modelling/costs/sum-of-costs.hpp", I+"modelling/costs/sum-of-costs.hxx")
p("C42", "Quadratic costs: gradient and Hessian are derivatives of the value",
  "For quadratic costs (Euclidean, and of a residual), computeGradients/computeHessians return the derivative of the value returned by evaluate at the given point.",
  "every point, weight matrix and calling history",
  "Continuum, and stale-buffer histories.",
  I+"modelling/costs/quad-costs.hpp", I+"modelling/costs/quad-residual-cost.hxx")
p("C43", "Barrier costs: gradient and Hessian are derivatives of the value",
  "For log-barrier and relaxed log-barrier costs, gradients are derivatives of the value, the relaxed barrier is continuously differentiable across its threshold, and the Hessian is the (Gauss-Newton) second derivative.",
  "every residual value, weight and threshold",
  "Continuum.",
  I+"modelling/costs/log-residual-cost.hxx", I+"modelling/costs/relaxed-log-barrier.hxx")
p("C44", "Integrators: step maps and their Jacobians",
  "Explicit Euler, semi-implicit Euler, RK2 and implicit midpoint implement their defining formulas, and the reported Jacobians are the derivatives of the step map for every differentiable vector field, on vector spaces and on manifolds (derivatives along steps).",
  "every manifold, ODE, state, control, time step and calling history",
  "Continuum and arbitrary vector fields; the tests of the midpoint rule only use y = x.",
  I+"modelling/dynamics/integrator-abstract.hxx", I+"modelling/dynamics/integrator-euler.hxx", I+"modelling/dynamics/integrator-midpoint.hxx", I+"modelling/dynamics/integrator-rk2.hxx", I+"modelling/dynamics/integrator-semi-euler.hxx", I+"modelling/spaces/tangent-bundle.hxx")
p("C45", "Finite-difference helpers",
  "Finite-difference Jacobians are exact for affine functions, and in general column i is the difference quotient at the given point; perturbation buffers are restored after each column.",
  "every function and point, every calling history",
  "History and continuum.",
  I+"modelling/autodiff/finite-difference.hpp", I+"modelling/autodiff/cost-finite-difference.hxx")
p("C46", "Function slicing and linear composition",
  "A sliced function returns exactly the selected outputs and Jacobian rows; a linear composition returns A f + b and A J; vector-Hessian products are those of the wrapped function with scattered multipliers.",
  "every function, index list and matrix",
  "All index patterns.",
  I+"modelling/function-xpr-slice.hxx", I+"modelling/linear-function-composition.hxx")
p("C47", "Direct sums of costs and dynamics",
  "A direct sum evaluates each component on its own block of state and control; value, next state, gradients, Hessians and Jacobians are block-structured with no cross terms.",
  "every pair of components and all inputs",
  "All dimensions.",
  I+"modelling/costs/cost-direct-sum.hpp", I+"modelling/explicit-dynamics-direct-sum.hxx")
p("C48", "Rollout",
  "rollout returns N+1 states starting at x0 where each state is the dynamics applied to the previous one, and throws when the numbers of models and controls differ.",
  "every model list and control sequence",
  "Unbounded lengths.",
  I+"utils/rollout.hpp", I+"utils/forward-dyn.hpp")
p("C49", "Newton-Raphson returns a root or says it did not",
  "If the Newton procedure returns true, the norm of the function at the returned point is <= eps; the residual norm never increases; it performs at most max_iters iterations.",
  "every function and Jacobian",
  "Arbitrary functions.",
  I+"utils/newton-raphson.hpp")
p("C50", "Arena matrices never leak, double-free or alias",
  "After any sequence of constructions, copies, moves, assignments, resizes and destructions of arena matrices, every live matrix with non-zero size owns a distinct live buffer of its allocated size, no buffer is freed twice or with a wrong size, and after destroying all matrices no buffer remains; every matrix has the rows and columns of the last operation on it.",
  "every sequence of operations",
  "Unbounded histories, aliasing.",
  I+"core/arena-matrix.hpp: ArenaMatrix", I+"core/allocator.hpp")
p("C51", "Contact maps",
  "After any sequence of addContact/removeContact/setContactPose, look-ups return the latest data of the first contact with that name, unknown names throw, and the size equals the number of contacts.",
  "every sequence of operations",
  "Unbounded histories.",
  I+"modelling/contact-map.hpp: ContactMapTpl")
p("C52", "Centroidal and pendulum models: Jacobians are derivatives",
  "The Jacobians reported by the centroidal dynamics and residuals (momenta, accelerations, friction and wrench cones) and by the wheeled inverted pendulum are the derivatives of the values.",
  "every state, control, contact pattern and number of contacts",
  "Continuum, any number of contacts.",
  I+"modelling/centroidal/angular-acceleration.hxx", I+"modelling/centroidal/angular-momentum.hxx", I+"modelling/centroidal/centroidal-acceleration.hxx", I+"modelling/centroidal/centroidal-friction-cone.hxx", I+"modelling/centroidal/centroidal-translation.hxx", I+"modelling/centroidal/centroidal-wrapper.hxx", I+"modelling/centroidal/centroidal-wrench-cone.hxx", I+"modelling/centroidal/linear-momentum.hxx", I+"modelling/dynamics/centroidal-fwd.hxx", I+"modelling/dynamics/continuous-centroidal-fwd.hxx", I+"modelling/dynamics/wheeled-inverted-pendulum.hpp")
p("C53", "Callbacks and history",
  "After any sequence of registerCallback/removeCallback/clearCallbacks, invoking callbacks calls exactly the latest callback registered under each live name once; a history callback's records grow by exactly one per invocation and keep order.",
  "every sequence of operations",
  "Unbounded histories.",
  I+"solvers/proxddp/solver-proxddp.hpp: registerCallback, removeCallback, invokeCallbacks", I+"core/history-callback.hxx")
p("C54", "The LQ subproblem is the linearisation of the problem",
  "The linear-quadratic subproblem assembled at each inner iteration linearises the proximal optimality conditions at the iterate: its KKT points are exactly the (semismooth) Newton steps on stationarity of the Lagrangian, dynamics, initial condition and projected constraints; its residuals at zero step are those of the nonlinear problem, with the multipliers of inactive constraints replaced by their new estimates; the zero step solves it exactly when the iterate is stationary for the proximal problem.",
  "every iterate, horizon, stage dimensions, problem data, product of library constraint sets, penalty and regularisation",
  "All data, all active sets, a continuum of iterates.",
  I+"solvers/proxddp/solver-proxddp.hxx: updateLQSubproblem, computeProjectedJacobians")
p("C55", "The tolerance and penalty schedule of the outer loop",
  "Before every outer iteration the primal tolerance equals the base tolerance times the power of the penalty set at the last failed outer iteration, tightened by the documented power at every successful one, clamped at the target; the penalty only changes at failed iterations, by its factor down to its bound, or by the reset to the initial value when the bound is reached.",
  "every sequence of successful and failed outer iterations",
  "Depends on the whole history of a run.",
  I+"solvers/proxddp/solver-proxddp.hpp: updateTolsOnFailure, updateTolsOnSuccess, setAlmPenalty", I+"solvers/proxddp/solver-proxddp.hxx: run")
p("C56", "A converged run returns an approximately optimal trajectory",
  "When ProxDDP's run returns true, the returned trajectory and multipliers satisfy the first-order optimality conditions of the problem within the requested tolerances: gradient of the Lagrangian, initial condition, dynamics, constraints, signs and complementarity of the multipliers.",
  "every problem, constraint sets, multiplier update mode, parameters, linear solver, step acceptance and every execution that returns true",
  "Tests compare a few converged runs with known solutions; whether the test of convergence implies optimality is a statement about all executions, and the runs that violate it look successful.",
  I+"solvers/proxddp/solver-proxddp.hxx: run, innerLoop, computeMultipliers, computeCriterion, tryLinearStep")
p("C57", "The EXACT Hessian option uses the Hessian of the Lagrangian",
  "With HessianApprox::EXACT the curvature of every linear-quadratic subproblem is the Hessian of the Lagrangian at the current point and multipliers (plus the proximal regularisation), including the second-order terms of dynamics and constraints; with GAUSS_NEWTON it is that of the costs only.",
  "every problem, callbacks, dimensions, horizon, multipliers and every sequence of evaluation calls the solver makes on the data",
  "A missing curvature term only changes the speed of convergence; tests still converge.",
  I+"solvers/proxddp/solver-proxddp.hxx: updateLQSubproblem", I+"core/enums.hpp: HessianApprox", I+"core/traj-opt-problem.hxx: computeDerivatives", I+"core/stage-model.hxx: computeSecondOrderDerivatives", I+"core/explicit-dynamics.hpp: ExplicitDynamicsDataTpl")
p("C58", "Nonlinear rollouts step along the computed direction and keep the trajectory feasible",
  "With the nonlinear rollout every trial trajectory satisfies the dynamics exactly; the trial at step length zero is the current iterate; to first order the trial moves along the direction returned by the linear solver, so the merit function seen by the line search has the slope it was given; for linear dynamics the trial is the linear step; the convergence test looks at the trial's own violation of the initial condition, so that a reported convergence means with nonlinear rollouts what it means with linear ones.",
  "every problem, dynamics, horizon, iterate, gains and direction of the linear solver, step length, and every sequence of trial steps and inner iterations",
  "Rollout tests start at a feasible trajectory with the given initial state, where all the differences vanish.",
  I+"solvers/proxddp/solver-proxddp.hxx: tryNonlinearRollout, tryLinearStep, forwardPass, innerLoop, computeMultipliers", I+"core/traj-opt-problem.hxx: evaluate")
p("C59", "FDDP steps close the gaps, minimise the local model, and end at an optimum on convex linear-quadratic problems",
  "A step of length a of FDDP leaves the fraction 1 - a of every gap, so gaps never grow along a run and the full step is feasible; the gains minimise the regularised quadratic model of the problem; the cost decrease handed to the line search is that of the model; a run that returns true returns a feasible stationary trajectory; the reported cost is the cost of the returned trajectory; on a convex linear-quadratic problem the full step is accepted, two unregularised iterations reach the optimum, and with regularisation the result is within the regularisation times half the squared distance from guess to optimum.",
  "every problem, manifold with the stated laws, horizon, dimensions, guess, gains, step length, parameters and every run; every convex linear-quadratic problem",
  "Convergence tests observe a few runs; the relation between prediction, gains, gaps and optimality holds for a continuum of problems or not at all.",
  I+"solvers/fddp/solver-fddp.hxx: forwardPass, expectedImprovement, updateExpectedImprovement, computeInfeasibility, computeCriterion, backwardPass, run", I+"solvers/fddp/linesearch.hpp: fddp_goldstein_linesearch", I+"solvers/fddp/solver-fddp.hpp: SolverFDDPTpl")
p("C60", "Residuals of rigid-body kinematics compute the documented quantity and its derivative",
  "For every rigid-body model, evaluating a kinematic residual (position, placement or velocity of a frame, relative placement of two frames, position, velocity and divergent component of the centre of mass, centroidal momentum and its rate under contact forces, distance of two bodies, fly-high, gravity compensation) gives the documented function of the configuration and velocity in the state, and computing its Jacobians afterwards gives the derivatives in tangent vector and control, whatever the data object was used for before, also when frames and references are changed through the setters, and on states with further coordinates.",
  "every rigid-body model obeying the laws of kinematics, state space moving configuration and velocity, number of joints and contacts, state, control, parameters, and every sequence of earlier calls on the data",
  "Tests compare with finite differences at random states of one robot, with fresh data and states of configuration and velocity only.",
  I+"modelling/multibody/frame-translation.hxx: computeJacobians", I+"modelling/multibody/frame-placement.hxx: computeJacobians", I+"modelling/multibody/frame-velocity.hxx: computeJacobians", I+"modelling/multibody/frame-equality.hxx: computeJacobians", I+"modelling/multibody/frame-collision.hxx: computeJacobians", I+"modelling/multibody/center-of-mass-translation.hxx: computeJacobians", I+"modelling/multibody/center-of-mass-velocity.hxx: computeJacobians", I+"modelling/multibody/dcm-position.hxx: computeJacobians", I+"modelling/multibody/centroidal-momentum.hxx: computeJacobians", I+"modelling/multibody/centroidal-momentum-derivative.hxx: computeJacobians", I+"modelling/multibody/fly-high.hxx: computeJacobians", I+"modelling/multibody/gravity-compensation-residual.hxx: computeJacobians", I+"modelling/multibody/fwd.hpp: setFrameId")
p("C61", "Residuals of contact forces use the forces of the named contact under the given solver settings",
  "A contact-force, friction-cone or wrench-cone residual of a constrained multibody system, built from an actuation matrix, a list of contacts, solver settings and the name of one contact, evaluates to the force of that contact (minus the reference, or in the half-spaces of the cone) in the constrained dynamics of the given state under the torques of the control, solved with the given settings; its Jacobians are the derivatives of this in tangent vector and control; the value is nonpositive exactly when the force lies in the cone; unknown contact names and actuation matrices with the wrong number of rows are rejected.",
  "every constrained multibody system obeying its derivative laws, list of contacts of sizes three and six in any order, name, actuation matrix, settings, state, control, reference, and every sequence of earlier calls on the data",
  "Tests use one or two contacts of one size and the default solver settings, at random states, where the tangential force never vanishes.",
  I+"modelling/multibody/contact-force.hxx: evaluate", I+"modelling/multibody/contact-force.hpp: contact_name", I+"modelling/multibody/multibody-friction-cone.hxx: computeJacobians", I+"modelling/multibody/multibody-wrench-cone.hxx: computeJacobians", I+"modelling/multibody/multibody-wrench-cone.hpp: Acone_")
p("C62", "Forward dynamics of multibody systems satisfy the equations of motion, with exact derivatives",
  "The rate of the state returned by the forward dynamics of a multibody system is the velocity followed by the acceleration of the system: under the torques of the actuation matrix, free or subject to the constraints; or, for kinodynamics, the only acceleration whose joint part is the one in the control and for which the centroidal momentum changes at the rate of the gravity and contact wrenches. The Jacobians asked for afterwards at the same point are the derivatives of this function in tangent vector and control, whatever the data object was used for before. The system is reported underactuated exactly when some torque is not produced by any control.",
  "every multibody system obeying the derivative laws of its dynamics, actuation matrix, solver settings, set of active contacts and force size, state with invertible base part of the centroidal momentum matrix (for kinodynamics), control, and every sequence of earlier calls on the data",
  "Tests compare with finite differences at random states of one robot.",
  I+"modelling/dynamics/multibody-free-fwd.hxx: dForward", I+"modelling/dynamics/multibody-free-fwd.hpp: isUnderactuated", I+"modelling/dynamics/multibody-constraint-fwd.hxx: dForward", I+"modelling/dynamics/kinodynamics-fwd.hxx: dForward")
p("C63", "Tracking residuals and costs measure the distance to the target in force",
  "The state (control) error evaluates to the tangent vector from the target to the state (control), zero exactly at the target, and its Jacobians are the derivatives along steps in state and control; a quadratic state or control cost evaluates to half the weighted square of this error, computeGradients gives its gradient and computeHessians its Gauss-Newton Hessian (the full Hessian with the Gauss-Newton option off), on vector spaces the exact one; setTarget takes effect on all later calls; targets that are no points of the manifold and weights of wrong size are rejected.",
  "every manifold obeying its laws, target, symmetric weights, state, control, and every sequence of evaluations, derivative calls and changes of target on one data object",
  "Tests use one target and fresh data; the stale gradient after a change of target, the manifolds with more coordinates than tangent directions and the unchecked sizes never occur in them.",
  I+"modelling/state-error.hpp: StateErrorResidualTpl, ControlErrorResidualTpl", I+"modelling/costs/quad-state-cost.hpp: QuadraticStateCostTpl, QuadraticControlCostTpl, setTarget", I+"modelling/costs/quad-residual-cost.hxx: computeGradients, computeHessians")
p("C64", "Affine functions, linear dynamics, control boxes and constant costs",
  "A linear function evaluates to A x + B u + d, linear dynamics step to A x + B u + c, and their Jacobians hold the derivative at any time, also before the first derivative call; a control box is nonpositive exactly when the control lies between the bounds, its Jacobian is the derivative, and bounds of different sizes are rejected; a constant cost has its value and zero derivatives at any time; matrices of inconsistent sizes are rejected.",
  "every size, matrices, vectors, bounds, state, control, and every sequence of calls on one data object",
  "Tests check one instance; the data objects rely on values written at creation only, which any call could destroy.",
  I+"modelling/linear-function.hpp: LinearFunctionTpl, createData", I+"modelling/linear-discrete-dynamics.hpp: LinearDiscreteDynamicsTpl, dForward", I+"modelling/control-box-function.hxx: computeJacobians, createData", I+"modelling/costs/constant-cost.hpp: ConstantCostTpl")
p("C65", "A converted Crocoddyl problem is the same problem",
  "convertCrocoddylProblem returns a problem whose evaluation gives, along any trajectory, the total cost of the shooting problem and its next states, and whose derivatives are those of the action models (gradients, dynamics Jacobians, Hessian blocks, terminal gradient and Hessian), whatever the data objects were used for before; wrapped stages accept constraints and enforce them, their dynamics can be rolled out, wrapped cost models can be evaluated, and problems of any horizon can be converted.",
  "every family of action models obeying Crocoddyl's calc/calcDiff contract (also those that differentiate at the point of the last calc), horizon, trajectory and history of calls on the data",
  "The test suite wraps one LQR and one arm model, evaluates once on fresh data, and never adds constraints to a wrapped stage, rolls out its dynamics or wraps a cost model.",
  I+"compat/crocoddyl/action-model-wrap.hxx: ActionModelWrapperTpl, evaluate, computeFirstOrderDerivatives", I+"compat/crocoddyl/cost-wrap.hpp: CrocCostModelWrapperTpl, createData", I+"compat/crocoddyl/problem-wrap.hxx: convertCrocoddylProblem", I+"compat/crocoddyl/state-wrap.hpp: convert_to_firstsecond")
p("C66", "Underactuated inverse dynamics returns torques that hold the system",
  "underactuatedConstrainedInverseDynamics returns torques and constraint forces that balance gravity and velocity terms whenever any can, so that a system whose constraints do not accelerate by themselves (at rest) has zero acceleration under these torques and no other; the forces act on the system with the opposite sign; the result is a function of model, state, actuation and constraints only.",
  "every size, actuation matrix, constraint Jacobian, nonlinear effects, positive definite mass matrix, and every content of freshly allocated memory",
  "One test uses one linkage in one configuration; what uninitialised memory holds varies between runs, and whether the equations can be solved depends on the configuration.",
  I+"modelling/multibody/constrained-rnea.hpp: underactuatedConstrainedInverseDynamics, computeRigidConstraintsTotalSize", "bindings/python/src/modelling/multibody/expose-pinocchio-functions.cpp: underactuatedConstraintInvDyn_proxy")
p("C67", "Model objects have value semantics",
  "Problems, stages, costs, dynamics, functions, sets and spaces are values: a copy, an assigned object, or an object added to another one (a stage to a problem, a constraint to a stage, a component to a sum) reads the same as its source through every path of members, and later changes of either, or the end of the lifetime of either, do not affect the other; moving transfers the value, leaves the source valueless and keeps objects at their addresses; an operation that throws while copying changes nothing; nothing is leaked, freed twice or owned twice; only dereferencing a valueless object and moving a member into its own owner are undefined. A problem may be given one of its own stages; a stage must not be given a function of its own constraint stack.",
  "every program (sequence of constructions, copies, moves, assignments, swaps, destructions, writes, insertions and extractions at any depth) over any number of variables and objects nested to any depth, with copies that may throw at any step",
  "Aliasing and lifetime errors depend on histories and nesting of unbounded size; exceptions during nested copies and reallocation at full capacity are never provoked by tests.",
  I+"third-party/polymorphic_cxx14.h: polymorphic, clone, reset, swap", I+"core/traj-opt-problem.hxx: addStage", I+"core/stage-model.hxx: addConstraint", I+"core/constraint.hpp: pushBack, addDim")
p("C68", "The feedback gains in the results are the optimal policy",
  "After an iteration, the gains in the results are the primal-dual feedback of the LQ subproblem just solved: at every stage and every state, every solution of the remaining problem has the control returned by getCtrlFeedforwards()/getCtrlFeedbacks() at that state, and the path multiplier and next state of the remaining rows; the terminal matrix gives the terminal multiplier. This holds whichever linear solver is selected, and after a successful solve.",
  "every LQ subproblem with symmetric Hessians (any horizon and dimensions), every state at every stage, every earlier content of the gains, the serial, stagewise-dense and parallel solvers with any number of threads, with and without assertions",
  "Tests compare trajectories, which do not depend on the gains; the wrong gains of the parallel solver appear only at interior stages, and only when the policy is used away from the solution.",
  I+"solvers/proxddp/solver-proxddp.hxx: innerLoop, collapseFeedback, getFeedforward", I+"solvers/results-base.hpp: getCtrlFeedbacks, getCtrlFeedforwards, gains_", I+"gar/parallel-solver.hpp: collapseFeedback", I+"gar/dense-riccati.hpp: getFeedback")
p("C69", "A run depends only on the problem, the guesses and the settings",
  "run on a solver that was used before (other runs on other problems, converged or not, shifts of the horizon, changes of the settings) returns the same flag, trajectories, multipliers, infeasibilities, iteration counts, step lengths and gains as on a solver that was only set up.",
  "every history of calls (setup, run on any problem from any guess with any settings, cycleProblem), every step acceptance strategy, every problem including ones whose callbacks throw or return NaN, ProxDDP and FDDP",
  "The memory sits in members that no getter shows (filter, moving average, trial buffers, expected slope); tests build a new solver for each case, so a dependence on history cannot show.",
  I+"solvers/proxddp/solver-proxddp.hxx: setup, run, cycleProblem, innerLoop", I+"solvers/proxddp/solver-proxddp.hpp: LinesearchVariant, filter_", I+"core/filter.hpp: resetFilter", I+"core/linesearch-nonmonotone.hpp: NonmonotoneLinesearch", I+"solvers/fddp/solver-fddp.hxx: run, setup", I+"solvers/fddp/linesearch.hpp: fddp_goldstein_linesearch")
p("C70", "LQ knots and problems are values",
  "A new knot has zero blocks of the documented shapes; copies, moves and assignments of knots and problems carry over every dimension and every block, on the allocator the call names (or the target's own); a moved-from object can be assigned to; addParameterization touches the parametric blocks only; isApprox and == answer whether two objects agree in all dimensions and blocks.",
  "all dimensions (also zero), all coefficients, all allocators, any content of fresh memory, any number of knots, any precision",
  "Tests copy and move one small knot and compare two of its sixteen blocks; a block that is forgotten, on the wrong allocator, or not compared shows only for the caller who uses it.",
  I+"gar/lqr-problem.hpp: LqrKnotTpl, LqrProblemTpl, isApprox, lqrKnotsSameDim, addParameterization, check_allocators", I+"gar/lqr-problem.hxx: assign, addParameterization, isApprox, LqrProblemTpl", I+"core/arena-matrix.hpp: ArenaMatrix, resize, setZero", I+"core/allocator.hpp: polymorphic_allocator")
p("C71", "Q-function and cost data objects are values with named blocks",
  "Whatever sequence of constructions, copies, moves, swaps, assignments (also with itself) and destructions a Q-function object has gone through, its named blocks Qx, Qu, Qxx, Qxu, Qxy, Quu, Quy, Qyy are the blocks of its own gradient and Hessian: reading and writing them reads and writes that object and no other; copies are independent; rotating a vector of them moves the values. The same for the named blocks of cost data.",
  "all programs over any number of objects, all dimensions (also zero), all coefficients, any content of fresh memory",
  "The blocks are references into the object's own storage; a stale one still shows plausible numbers, of another object or of freed memory, and only after the particular sequence of moves that a container makes.",
  I+"solvers/value-function.hpp: QFunctionTpl, redef_refs, swap, ntot", I+"core/cost-abstract.hpp: CostDataAbstractTpl, Lx_, grad_", I+"utils/mpc-util.hpp: rotate_vec_left", I+"solvers/fddp/workspace.hxx: q_params")
p("C72", "The memory of the FDDP solver fits the problem, also after shifts",
  "After setup() on a problem that passes the integrity check, run() of the FDDP solver never uses a buffer, space, cost or dynamics model with a vector of another size and resizes no buffer, whatever the number of iterations and line-search trials; and after the horizon has been shifted by one stage, shifting the workspace gives the workspace a new setup() would give.",
  "all horizons, all sizes of states, tangent spaces, controls and cost spaces, all numbers of iterations and trials, all appended stages",
  "Release builds have no size assertions, so a wrong size is silent; tests use a handful of problems whose stages all have the same sizes.",
  I+"solvers/fddp/workspace.hxx: WorkspaceFDDPTpl, cycleLeft", I+"solvers/workspace-base.hpp: cycleAppend, cycleLeft", I+"solvers/fddp/solver-fddp.hxx: forwardPass, backwardPass, computeInfeasibility", I+"core/traj-opt-problem.hxx: checkIntegrity")
p("C73", "The table printed by a solver shows its iterations",
  "A verbose run prints one headline, one row per iteration with the values of that iteration in the columns that name them, and a final message; a silent run prints nothing; running a solver again prints the table of the new run. A program that uses the logger itself gets the table it describes.",
  "all numbers of runs, iterations and early exits, all values, all hash functions, all growth policies of vectors, all programs of logger operations with literal names",
  "The defects are reads of freed memory through string views, which usually still print the right text, and output that no test compares.",
  "src/utils/logger.cpp: printHeadline, log, addColumn, addEntry, reset", I+"utils/logger.hpp: BASIC_KEYS, m_columnNames, m_currentLine", I+"solvers/fddp/solver-fddp.hxx: addColumn, logger", I+"solvers/proxddp/solver-proxddp.hxx: addColumn, logger")
p("C74", "The memory of the ProxDDP solver fits the problem, also after shifts",
  "After setup() on a problem that passes the integrity check, run() of the ProxDDP solver with the serial linear solver never uses a buffer, space, cost, constraint or dynamics model with a vector of another size, with either rollout, whatever the number of outer loops, iterations and trials, and every buffer has the size setup() gave it; a controller may solve and shift the horizon (replaceStageCircular, cycleProblem) in any order, and the memory is then the one a new setup() for the current problem would give.",
  "all horizons, all sizes of states, tangent spaces, controls, constraints and cost spaces, all options (rollout, Hessians, forced initial condition), all numbers of loops, iterations and trials, all sequences of solves and shifts with all appended stages",
  "Release builds have no size assertions, so a wrong size is silent; tests use a handful of problems whose stages all have the same sizes.",
  I+"solvers/proxddp/workspace.hxx: WorkspaceTpl, cycleAppend, lqr_problem", I+"solvers/proxddp/results.hxx: cycleAppend", I+"solvers/proxddp/solver-proxddp.hxx: setup, run, innerLoop, tryLinearStep, tryNonlinearRollout, updateLQSubproblem, computeMultipliers, cycleProblem", I+"core/lagrangian.hpp: LagrangianDerivatives", I+"gar/riccati-kernel.hxx: stageKernelSolve, terminalSolve, forwardImpl", I+"gar/proximal-riccati.hxx: cycleAppend, backward")
p("C75", "Model classes written in Python survive being stored in C++",
  "A program that builds objects of a class derived in Python, stores them in problems, reads them back, replaces and copies them and drops names in any order behaves as if every problem had an object of its own: evaluating the problem uses the attributes and the C++ part it was given, later changes to the original do not reach it, changes to the object read back do; no destroyed object is used, and when the last name is gone every object has been destroyed.",
  "all programs over any number of names, objects and problems, all classes (any __init__, __getinitargs__ and pickled state, also ones that raise), all attribute values, any number of temporary copies on the way in",
  "Which copies are made, who owns whom and what the deep copy of a user's class does depend on the order of statements and on reference counts; a test stores one object in one problem and keeps the original alive.",
  "bindings/python/include/aligator/python/polymorphic.hpp: PolymorphicWrapper, OwningNonOwningHolder, deepcopy_owner, ToPythonIndirectPoly, enable_pickling_", "bindings/python/include/aligator/python/costs.hpp: PyCostFunction, value_holder", "bindings/python/src/expose-problem.cpp: term_cost, def_readwrite", "bindings/python/src/expose-stage.cpp: return_internal_reference")
p("C76", "ProxDDP solves linear-quadratic problems",
  "On a problem with affine dynamics, convex quadratic costs and no path constraints, a run with consistent derivatives and an exact linear solver, from any guess that satisfies a forced initial condition, reports convergence after at most one step, at a trajectory that satisfies the initial condition and the dynamics exactly and whose cost is within the dual tolerance of the optimum.",
  "all horizons, state and control dimensions, matrices, guesses, multipliers, parameters, line searches and linear solvers, exact and Gauss-Newton Hessians, forced and soft initial condition",
  "A test solves a few problems from a few guesses; which guesses make the inner loop stop without moving, and which scalings make the line search refuse the exact step, depends on the merit function and on the criterion, not on the problem being easy.",
  I+"solvers/proxddp/solver-proxddp.hxx: computeCriterion, innerLoop, updateLQSubproblem, directionalDerivative, inner_criterion, dphi_thresh", I+"solvers/proxddp/merit-function.hxx: evaluate, directionalDerivative", I+"core/linesearch-armijo.hpp: run")
p("C77", "ProxDDP converges on convex problems with equality path constraints",
  "On a problem with affine dynamics, convex quadratic costs and affine equality path constraints, with exact linear solver and Newton multiplier updates, every accepted full step brings trajectory and multipliers closer to every solution in the norm weighted by regularisation and penalty, satisfies initial condition and dynamics exactly, and contracts the distance by K rho^2/(1 + K rho^2) where K bounds the inverse of the first-order system (it exists exactly when the first-order point is unique) and rho the penalty and regularisation parameters; a run reports convergence after a number of iterations logarithmic in the initial error, at a trajectory that meets the constraints within the tolerance.",
  "all horizons, dimensions, constraint matrices and stackings, costs, guesses, multipliers, solutions, penalty and regularisation parameters, forced and soft initial condition, exact and Gauss-Newton Hessians; runs of any length",
  "The rate, and that no iterate moves away from the solution, are statements about every problem and every iterate; a test observes the residuals of a few runs and cannot tell a solver that converges from one that happens to.",
  I+"solvers/proxddp/solver-proxddp.hxx: computeMultipliers, innerLoop, run, updateLQSubproblem, tryLinearStep, updateTolsOnFailure, updateTolsOnSuccess", I+"solvers/proxddp/merit-function.hxx: evaluate, directionalDerivative", I+"core/linesearch-armijo.hpp: run")
p("C78", "ProxDDP iterations approach the solutions of convex problems with inequality and box path constraints",
  "On a problem with affine dynamics, convex quadratic costs and affine path constraints in zero sets, negative orthants and boxes, a full step along the solution of the linear system satisfies initial condition and dynamics exactly; when no constraint changes side between the old and the new iterate, the step never increases the weighted squared distance of trajectory and multipliers to any first-order optimal point, the multipliers lie in the normal cones at values allowed that differ from the constraint values by the reported infeasibility, and M such iterations with multiplier updates contain one whose infeasibility and gradient are of order 1/sqrt(M). However the inner problem was solved, an exact solution of it brings the multipliers closer to those of every optimal point. A step in which a constraint changes side can move away from every solution and give an inequality a negative multiplier.",
  "all horizons, dimensions, constraint matrices, stackings of sets, bounds, costs, guesses, multipliers, optimal points, penalty and regularisation parameters, forced and soft initial condition, exact and Gauss-Newton Hessians; sequences of any length",
  "Distances to unknown optimal points and rates over all problems cannot be observed; which constraints change side depends on the iterate, so a test on one problem exercises one pattern of active sets.",
  I+"solvers/proxddp/solver-proxddp.hxx: computeMultipliers, innerLoop, updateLQSubproblem, tryLinearStep, updateTolsOnSuccess, computeProjectedJacobians", I+"modelling/constraints/negative-orthant.hpp: normalConeProjection, computeActiveSet", I+"modelling/constraints/box-constraint.hpp: computeActiveSet, projection")
p("C79", "ProxDDP runs near a strictly complementary solution keep its active constraints and converge",
  "On a problem with affine dynamics, convex quadratic costs and affine path constraints in zero sets, negative orthants and boxes, let a first-order optimal point be unique and strictly complementary. A run that starts near it, with its active constraints, never changes the active constraints: every full step keeps the multipliers of inactive constraints at zero and contracts the weighted squared distance of trajectory and multipliers to the solution by a factor that can be made as small as wanted by the penalty parameter and the regularisation. The run reports convergence after a number of iterations logarithmic in the initial error, at a trajectory that satisfies initial condition and dynamics exactly and whose constraint values are within the tolerance of values allowed at which the multipliers lie in the normal cones.",
  "all horizons, dimensions, constraint matrices, stackings of sets, bounds, costs, guesses and multipliers near the solution with its active constraints, parameters, line searches that accept full steps",
  "Convergence of every run in a neighbourhood, with a bound on the number of iterations that holds for all problems, cannot be observed on samples; the outer loop takes different branches (multiplier update, penalty decrease) depending on tolerances that change from problem to problem.",
  I+"solvers/proxddp/solver-proxddp.hxx: run, innerLoop, computeMultipliers, updateLQSubproblem, tryLinearStep, computeProjectedJacobians", I+"solvers/proxddp/solver-proxddp.hpp: updateTolsOnSuccess, updateTolsOnFailure", I+"modelling/constraints/negative-orthant.hpp: normalConeProjection, computeActiveSet", I+"modelling/constraints/box-constraint.hpp: computeActiveSet, projection")
p("C80", "Zones without memory allocation restore what was allowed before",
  "In builds that check for memory allocation, a block declared free of allocation forbids allocation while it runs, and when it is left, normally or by an exception, allocation is allowed again exactly if it was allowed before; so a solver that returns leaves allocation allowed for its caller, and functions of the user (cost, dynamics, manifold operations, callbacks) called by the solver run with the permission the caller had.",
  "all programs of zones, exceptions and calls of user code; all numbers of iterations, trial steps and block solves of the solvers; both initial permissions",
  "The permission is global state of the thread: a test sees it only for the nesting of zones and the exceptions that its own run happens to produce.",
  I+"math.hpp: scoped_nomalloc, ALIGATOR_NOMALLOC_SCOPED, ALIGATOR_NOMALLOC_RESTORE, ALIGATOR_NOMALLOC_BEGIN, ALIGATOR_NOMALLOC_END, ALIGATOR_EIGEN_ALLOW_MALLOC", I+"gar/parallel-solver.hxx: backward, forward", I+"gar/block-tridiagonal.hpp: symmetricBlockTridiagSolve", I+"solvers/proxddp/solver-proxddp.hxx: computeCriterion, updateLQSubproblem, innerLoop", I+"solvers/fddp/solver-fddp.hxx: forwardPass, backwardPass", I+"modelling/costs/quad-residual-cost.hxx: computeHessians")
p("C81", "Problems are independent values; the initial state is the one last set",
  "A trajectory optimisation problem behaves as a value: a copy or an assigned problem equals its source, later changes of one do not show in the other, a problem moved elsewhere keeps everything; getInitState returns the initial state last given to that very problem, and the reference it returns keeps showing the current one; problems with another initial condition refuse access to an initial state; replacing a stage drops the first one and returns it; checkIntegrity holds exactly when the dimensions of the initial condition, consecutive stages and the terminal cost agree; an initial guess has zero multipliers of the sizes of the constraints.",
  "all programs of constructions, copies, assignments, moves, destructions and changes of any number of problems; all stages, costs, states; debug and release builds",
  "Tests look at one object after a few calls; sharing of storage between copies, stale caches and dangling references show only for particular orders of operations on several objects.",
  I+"core/traj-opt-problem.hpp: setInitState, getInitState, initCondIsStateError, addTerminalConstraint, removeTerminalConstraints, initializeSolution", I+"core/traj-opt-problem.hxx: checkIntegrity, replaceStageCircular, checkInitCondIsStateError, addStage", I+"modelling/state-error.hpp: validate")
p("C82", "Block matrices are values with a partition",
  "A block matrix behaves as a value that consists of a partition of its rows and columns and a matrix: block (i, j) is the submatrix at the partial sums of the partition, rows and cols report the sums, copies and assigned matrices equal their source and share nothing with it, writing a block changes that block only, and exchanging two block matrices exchanges their values; data of a wrong shape is refused.",
  "all programs of constructions, copies, moves, assignments, exchanges, block reads and writes on any number of block matrices; all numbers and sizes of blocks, empty ones included; fixed and dynamic numbers of blocks; debug and release builds",
  "Partition, index arrays, totals and storage are separate members; tests use one matrix with one partition, in which stale or mismatched members do not show.",
  I+"core/blk-matrix.hpp: BlkMatrix, operator(), swap, setZero, Zero, initialize, rowDims, colDims, rows, cols")
p("C83", "Evaluations in different data objects do not interfere",
  "Every problem data object owns what evaluations write into: evaluating a problem or its derivatives with one data object, shifting its stages, or handing stage data over to it changes what that object shows and nothing else; what it shows afterwards depends on the problem, the trajectory and its own earlier contents only, not on the schedule of the threads; its cost is the cost of the last trajectory evaluated with it; and a copy shows what the original showed when the copy was made.",
  "all programs of creating, copying, destroying, evaluating, differentiating, shifting and reading any number of problem data objects and stage data objects; all problems and trajectories; any number of threads and any schedule",
  "The objects are behind shared pointers, so aliasing between data objects or between stages of one object depends on the history of the program; tests use one data object that was never copied or shifted twice.",
  I+"core/traj-opt-data.hpp: TrajOptDataTpl, stage_data, cost_", I+"core/traj-opt-data.hxx: TrajOptDataTpl, computeTrajectoryCost", I+"core/stage-data.hxx: StageDataTpl", I+"solvers/workspace-base.hpp: cycleAppend, cycleLeft", I+"solvers/proxddp/workspace.hxx: cycleAppend", I+"core/traj-opt-problem.hxx: evaluate, computeDerivatives", I+"utils/mpc-util.hpp: rotate_vec_left")
p("C84", "An LQ solver object can be used again and again",
  "One serial LQ solver object may be used for any number of problems of the same dimensions: what a backward pass does (success, exception, or going on after an unchecked factorisation) and the gains, costs to go, initial stage and parameter derivatives it leaves unless it throws depend only on the current contents of the problem and the penalty, not on the problems solved before, on passes that failed, on shifts of the horizon or on uninitialised memory; after a good pass the forward pass overwrites the vectors of the caller with the only KKT point of the current problem (multiplier coupling with the parameter excepted, see C05).  After an exception the object is a mixture of two problems, and a forward pass starts from the initial state of the earlier one.  The stagewise-dense solver has the same independence from any contents of its memory for every pass whose factorisations succeed (symmetric costs, positive horizon).  So has the parallel solver, whose memory includes the parametric blocks it writes into the problem of the client and the solution and residual of the condensed system, for any number of legs and any number of refinement steps but one (see C12).",
  "all histories of constructing, backward passes (good or failing) on any problem contents and penalties, and shifts with a knot of any control and constraint dimensions; all horizons, dimensions and exact symmetric solvers; any contents of fresh memory, of the caller's vectors, and of failed factorisations",
  "Stale entries survive only in blocks that a pass does not write (off-diagonal constraint entries, parametric gains, closed-loop gains of the last knot), after particular sequences of problems and failures; tests construct a new solver for each problem.",
  I+"gar/riccati-kernel.hxx: terminalSolve, stageKernelSolve, backwardImpl, forwardImpl, computeInitial", I+"gar/riccati-kernel.hpp: StageFactor, CostToGo, kkt0_t", I+"gar/proximal-riccati.hxx: backward, forward, cycleAppend", I+"core/bunchkaufman.hpp: compute, solveInPlace", I+"gar/dense-kernel.hpp: terminalSolve, stageKernelSolve, forwardStep", I+"gar/dense-riccati.hxx: backward, forward, cycleAppend", I+"gar/parallel-solver.hxx: initialize, backward, forward, cycleAppend")
p("C85", "Evaluation data of costs, functions and dynamics are values with named blocks",
  "In every program that makes and destroys cost, stage function and implicit dynamics data objects and writes through their members, Lx, Lu, Lxx, Lxu, Lux, Luu, value, Jx, Ju, Jy, Hxx, Hxu, Huu of an object are the rows and columns of those variables in the gradient, Hessian, value, Jacobian and second-derivative matrix of that object and no other; new data is zero; no coefficient has two names, and a function that fills its named blocks fills the whole gradient, Hessian and Jacobian (of the second derivatives of a stage function all but the block Hux, which has no name).  Copies of such objects are not values: the blocks of the copy are those of the original, and dangle when it is destroyed.",
  "all programs over any number of objects of the three classes, all dimensions (also zero), all coefficients, any content of fresh memory; for the negations all names, all places in them",
  "The members are references into the object's own storage, made in the constructor from offsets that must fit the matrix sizes for every combination of dimensions; a wrong offset or a stale reference shows plausible numbers, of another block or object.",
  I+"core/cost-abstract.hpp: CostDataAbstractTpl, Lxu_, Luu_", I+"core/function-abstract.hxx: StageFunctionDataTpl, vhp_buffer_, Hxu_", I+"core/dynamics.hxx: DynamicsDataTpl, jac_buffer_, Jy_")
p("C86", "A set-up solver uses the linear solver and the settings it was given, or refuses",
  "setup of ProxDDP accepts exactly the problems that can be allocated under a supported combination of settings (the parallel linear solver only with linear rollouts, at least two threads and a multithreaded build), whatever was done before; after it, and any shifts, runs and changes of settings, a run uses the linear solver selected at setup, made for the sizes of the subproblem, and the rollout, threads and step acceptance selected.  A setup or shift that throws leaves the solver as it was, and combinations that setup refuses are never used.",
  "all settings, all problems (sizes, integrity, functions that throw while memory is made), all sequences of setters, setups accepted or rejected, shifts and runs",
  "Depends on the order of assignments in setup when an exception leaves it half way and on settings read at different times; tests set up once with valid settings.",
  I+"solvers/proxddp/solver-proxddp.hxx: setup, setNumThreads, cycleProblem", I+"solvers/proxddp/solver-proxddp.hpp: linear_solver_choice, rollout_type_, LinesearchVariant", I+"gar/parallel-solver.hxx: ParallelRiccatiSolver, numThreads_", I+"solvers/proxddp/workspace.hxx: cycleAppend, checkIntegrity")
p("C87", "Elements and arrays handed to Python are the right ones and stay valid",
  "From Python, a block row, block column or block of a block matrix, a component of a product space, a cost of a stack and a callback of a solver are returned for every index or key that exists, and an exception is raised for every other; never memory out of bounds.  An array obtained from a data object or a block matrix shows the memory of that object, and later writes to it, for as long as the array exists, whatever happens to the other names; the object is released once nothing refers to it.",
  "all partitions and indices, all lists and keys, all programs (creation, aliases, accessors, slices, copies, reads, writes, calls that fill an object, deletions) on any number of objects and arrays",
  "The lifetime of the memory behind an array depends on the whole program; reading freed memory often shows the old values, so tests pass. The bindings are tested with valid indices and named objects.",
  "bindings/python/include/aligator/python/blk-matrix.hpp: blockRow, blockCol, get_block", "bindings/python/include/aligator/python/eigen-member.hpp: make_getter_eigen_matrix, with_custodian_and_ward_postcall", "bindings/python/src/expose-costs.cpp: Lx, return_by_value", "bindings/python/src/expose-functions.cpp: jac_buffer, vhp_buffer, Jx", "bindings/python/src/modelling/expose-dynamics.cpp: Jx, Hxx", "bindings/python/src/expose-cartesian-product.cpp: getComponent", "bindings/python/src/modelling/expose-cost-stack.cpp: getComponent, key_err_python_manager", "bindings/python/include/aligator/python/solvers.hpp: getCallback")
p("C88", "A run projects with the constraint sets the problem holds",
  "Whenever ProxDDP runs, it projects the constraints of each stage and of the terminal node on the sets that the problem holds at that time: after changes of a set (limits of a box, say), after set up, and after any number of shifts of the horizon.",
  "all horizons of at least one stage, all sets, all sequences of set ups, changes of the sets of stages and of the terminal node, shifts and runs",
  "The sets are copied at set up and rotated at every shift, so a wrong set shows only after particular sequences of changes and shifts, and the run still converges, to a solution of another problem.",
  I+"solvers/proxddp/workspace.hpp: getConstraintProductSet, cstr_product_sets", I+"solvers/proxddp/workspace.hxx: cycleAppend", I+"solvers/proxddp/solver-proxddp.hxx: computeMultipliers, cycleProblem", I+"core/traj-opt-problem.hxx: replaceStageCircular", I+"utils/mpc-util.hpp: rotate_vec_left")
for x in P: print(json.dumps(x))
