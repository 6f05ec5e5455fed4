# Formal model of aligator in Lean 4 — design

The source under study is `/repo` (Simple-Robotics/aligator at a pinned commit), read as text.
Nothing of it is built or run. The model lives in `lean/Verif/`:

* `Verif/Model/*.lean`  – executable (or at least definitional) model of the code, one definition
  per C++ function, each with a comment citing file and lines and the simplifications made;
* `Verif/Spec/*.lean`   – small specifications written without reference to the model's helpers
  (KKT equations, Euclidean projection, derivative, tiling, dominance ...);
* `Verif/Lemmas/*.lean` – helper lemmas;
* `Verif/Props/*.lean`  – the property theorems (named in `MANIFEST.json`), each with an
  `example` showing that a concrete non-trivial case satisfies its hypotheses.

## Trusted base

* Lean 4.33.0's kernel; the axioms `propext`, `Classical.choice`, `Quot.sound` (no others: no
  `sorry`, no `axiom`, no `native_decide`, no `bv_decide`). `Verif/Axioms.lean` prints the axioms of
  every property theorem during the build.
* The reading of the C++ code that produced the model: nothing mechanical ties `/repo` to the model.
* Arithmetic: the scalars of the model are elements of an (ordered) field or of `ℝ`; rounding,
  overflow and denormals of `double` are not modelled. Where program *logic* depends on NaN
  (line searches, infinity norms) NaN is modelled explicitly as a distinct value.
* Eigen's dense kernels (products, triangular solves, LU `inverse`, norms, `Ref`/`Map` semantics without
  aliasing) are trusted to compute the mathematical operation.
* `std` containers and algorithms (`vector`, `rotate`, `list`, `unordered_map` up to iteration order,
  `pmr` resources as an abstract allocate/deallocate log) are trusted.
* Manifolds under the integrators (C44): arbitrary operations obeying `MInteg.Spec.Lawful`; in particular `JintegrateTransport` multiplies by the Jacobian of `integrate`, as
  Pinocchio documents.
* OpenMP is modelled as an arbitrary interleaving of the per-index bodies.
* Boost.Python and CPython (C75): reference counts without a cycle collector for extension classes, `return_internal_reference` as a life-support link, `copy.deepcopy` through `__reduce__` (`__getinitargs__`, `__init__`, then the state) are taken from their documentation.
* Crocoddyl (C65): arbitrary models obeying `Croc.Spec.ActionLaw`, `TerminalLaw`, its documented contract.
* Pinocchio (C60, C61, C62, C66): an arbitrary family of functions obeying `MB.Spec.Lawful`, `DynLaw`, `FreeLaw`, `KinoLaw`; which fields of its data object a call writes or reads
  (`Model/Multibody`, section `Calls`, and `Model/ContactDynamics`) is taken from its documentation, since its sources are not in the sandbox.

## Not modelled

Python bindings other than the storage of Python-derived classes (C75), Crocoddyl itself (C65 quantifies over its models), pinocchio's algorithms themselves (C60 to C62 quantify over them), the allocator-aware branches of third-party `polymorphic_cxx14` (C67 models the default allocator), logging output
format, SIMD/assembly level, timing, `boost::span` etc. `-DNDEBUG`-only assertions are modelled as
preconditions.

## Per-property plan

Status legend in MANIFEST.json. "neg." = the property is false of the code as written; the negation is
proved on a concrete witness and the part that holds is proved as `..._partial`.

| id | what is modelled, how it is proved |
|----|------------------------------------|
| C01 | LQ problem as a dependent chain of knots (own dims per knot, `Matrix` over a field); backward pass as a recursion returning `Option` (a throwing factorisation is `none`); forward pass; KKT equations as an independent predicate; induction on the chain |
| C02 | same model; any KKT point coincides with the forward pass, induction from the last knot (costate is affine in the state) then forward |
| C03 | convexity + KKT ⇒ cost inequality, direct argument on the cost difference, sum by induction |
| C04 | tail problems: the induction of C01 already quantifies over the incoming state; stated for every suffix |
| C05 | parametric terms added to C01's model; value function as quadratic form in (x, θ); neg. for Gv ≠ 0 |
| C06 | dense kernel model; KKT theorem by the same induction |
| C07 | neg.: concrete 1-dimensional two-stage witness |
| C08 | legs = splitting of the chain at arbitrary cut points; condensed system; theorem: solution of the condensed system + leg forward passes = KKT point of the whole chain; induction over the list of legs |
| C09 | `get_work` on naturals and on wrap-around unsigned integers; arithmetic |
| C10 | stage bodies as writes to own slot of an indexed store; permutation/interleaving invariance by induction; neg. for shared slot |
| C11 | block tridiagonal elimination on a dependent list of blocks, induction |
| C12 | refinement loop state machine; `maxRefinementSteps = 0` or `≥ 2` proved, neg. for 1 |
| C13 | neg.: scalar witness |
| C14 | unblocked Bunch–Kaufman as recursion on the size, Schur complements; success ⇔ det ≠ 0; solve |
| C15 | residual functions, sparse assembly as an index map; neg. for the sign of the dynamics block |
| C16–C18 | outer/inner loop as a state machine parametrised by arbitrary oracles (criterion values, line search results, throw/no throw); invariants by induction over steps |
| C19 | termination measures; neg. for the tolerance-tightening loop at criterion 0. `Model/TolRounding`: the same loop with products rounded to nearest on a grid (`Spec/TolRounding`): termination by the finitely many grid numbers below the tolerance, neg. by the least positive number as a fixed point |
| C20–C21 | FDDP loop & line search with oracles; neg. for the `th_grad` exit and for the clamped α |
| C22–C24 | line searches over arbitrary merit functions with an explicit NaN/throw outcome; neg. for the swapped cubic right-hand side |
| C25 | filter as list of pairs; invariant over op sequences |
| C26 | multiplier formulas + projection specs |
| C27 | Lagrangian gradient as adjoint: inner-product identity by induction on the horizon |
| C28 | merit along a ray as polynomial/differentiable function; exact difference between the code's value and the derivative; neg. if dλ≠0 |
| C29 | decision table of initial-guess handling; neg. for warm start not satisfying x0 |
| C30–C31 | list rotation refinement to "drop first, append"; dims |
| C32 | evaluation loops over arbitrary callbacks |
| C33–C34 | operation sequences and prefix sums; block views as address sets in the flat column-major buffer |
| C35–C38 | projections over ordered fields/ℝ |
| C39–C40 | product manifolds as lists of components; neg. for `isNormalized` and tangent-bundle interpolation; argument numbers and output memory of the Jacobians |
| C41 | association list with permutation-invariant sum; neg. for key collision |
| C42–C43 | derivatives in ℝ with buffers modelled explicitly; neg. for stale buffers, log-barrier Hessian sign |
| C44 | Fréchet derivatives on vector spaces; data objects and calling histories explicit; neg. for stale midpoints. `Model/ManifoldIntegrators`: the same integrators on an arbitrary manifold (laws `MInteg.Spec.Lawful`) with ODEs owning data of any type; derivatives along steps, chain rule for curves of points; Heisenberg group, its tangent bundle and a sheared plane as lawful witnesses; neg. for stale steps, RK2's base point, transports in the midpoint rule |
| C45 | finite differences: any state space given by `integrate`/`difference`; calling histories; affine exactness, limit |
| C46 | slices (indices as integers, out of range a distinct outcome) and affine compositions; neg. for vector-Hessian products |
| C47 | direct sums: simulation of the components along every history, block structure as an invariant, derivatives |
| C48–C49 | rollout as recursion; Newton loop with oracles |
| C50 | heap + op-sequence state machine; invariant; neg. witnesses |
| C51, C53 | association list histories |
| C52 | `Model/Centroidal`: residuals, dynamics and pendulum with block writes into the data's buffers; loops over contacts as sums of disjoint contributions; derivatives; wrench cone against the 2015 characterisation; neg. for angular momentum |
| C54 | `Model/LQSubproblem`: projected Jacobians, gradient corrections and knots written from the data the solver holds; the KKT predicate of C01 on that chain is rewritten row by row into directional derivatives of the problem functions; the active set of C37 gives the slope of the projection |
| C55 | invariant over the loop-head states of `run` |
| C56 | `Model/Solver`: the environment of the C16 loop instantiated with the multipliers, criteria, merit function, linear step and line searches of the other modules on a problem given by its functions; invariant over `run`: the state holds the multipliers and criteria of the returned iterate; equality constraints in full; neg. |
| C57 | `Model/ProblemData`: the data of a problem, changed by arbitrary callbacks through any list of calls; invariant that the second-order buffers of dynamics and initial condition stay zero; second derivatives of the Lagrangian along every variation; neg. for every family of callbacks |
| C58 | `Model/NonlinearRollout`: the workspace written entry by entry; closed form of the rollout by induction on the stages; Fréchet derivatives along the trial curve; `Follows` is shown for the Riccati factors of the assembled subproblem; the inner loop with the held initial value by invariants over `innerLoop`, whole runs (`outerNL`, `runNL`) by induction over the outer loop (`Props/NonlinearRun`); neg. theorems and witnesses for infeasible iterates |
| C59 | `Model/FDDPPasses`: backward pass, forward pass, expected improvement and line search on a problem given by functions and derivatives, plugged into the C20 loop; completion of squares summed over the horizon (`change_eq`); loop invariants; linear-quadratic problems as an instance; neg. witnesses with one stage |
| C60 | `Model/Multibody`: Pinocchio as a structure of functions, its data object as the point of the last computation of each kind, every residual with its buffers; `Right` quantifies over histories of calls; invariants on the columns that calls leave in the buffers; derivatives through Fréchet derivatives of rigid transformations (`IsBodyJac`); uniqueness of derivatives for the neg. theorems; all laws proved for a robot with two joints (`Lemmas/MultibodyRobot`) |
| C61 | `Model/ContactDynamics`: constructors of the three residuals as lookups that may throw, the data's own solver settings, segments of the stacked forces; constraints as a list of (name, size) in the specification, so that the rows of a contact do not depend on the model's arithmetic; cones as in C38 (`InFrictionCone`, `InWrenchCone`); a division by zero is a flag of the data; witnesses with a proximal method and with contacts of two sizes |
| C62 | `Model/ContactDynamics`: the three forward dynamics as residuals with data; invariants on the constant rows of the buffers, the contact loops reduced to sums over contacts; derivative of the implicit base acceleration from continuity of the inverse (`isJacobian_vanish`), no derivative of the inverse is taken; uniqueness of the motion from invertibility; laws proved for a pendulum, a held point and a robot with flywheels and an arm |
| C63 | `Model/Tracking`: target residuals and quadratic costs with their data objects, targets as lists (their size is not checked), calls as a state machine on (cost, data); manifolds as arbitrary families with `Spec.Lawful`; invariants: the columns the residual never writes stay zero, the residual's value survives calls that do not evaluate; curved witness: positive reals with exp and log |
| C64 | `Model/Affine`: matrices with sizes of their own, use with other sizes undefined; data as created, invariant: the Jacobian buffer keeps the value written at creation under all calls |
| C65 | `Model/Crocoddyl`: action models as structures of functions on data of an arbitrary type, wrappers with their copies of the results, problem data as a family of stage data; `Spec.ActionLaw`, `TerminalLaw` state Crocoddyl's contract (`calcDiff` meaningful after `calc` at the same point); histories of calls by `foldl`; witness: `adder`, which ignores the arguments of `calcDiff` |
| C66 | `Model/ConstrainedRnea`: the work matrix starts as arbitrary memory, columns are overwritten as the code does; `Spec.Motion` are the constrained equations of motion, independent of the code; a least-squares solution of a solvable system solves it, and positive definiteness makes the motion unique |
| C67 | `Model/Polymorphic`: memory as addresses holding payload and owned pointers; `clone`, `destroy`, `reset`, assignment, move, swap statement by statement, with throwing copies; `Spec/Polymorphic`: a store of trees without memory. Invariant: each variable owns a list of blocks (`Rep`), disjoint, covering all live memory; simulation for each statement, induction on programs |
| C68 | `Model/Gains`: matrices of run-time size; what each linear solver shows of a knot, the copy into the results with Eigen's size rules (assertions on or off), `collapseFeedback`, the two getters; `Spec/Gains`: a stage's gains are right when at *every* state *every* solution of the remaining KKT system has these values. Induction on the horizon over the uniqueness lemmas of C03/C06/C08; the loop model of C16 for when nothing is solved |
| C69 | `Model/Reuse`, `Model/ReuseFDDP`: the loops of C16/C20 over the state of the solver *object* (filter, line search with its moving average, trial buffers, workspace, reported values, gains, slope), with callbacks that may throw or give NaN; `Spec/Reuse`: same flag and same results. Relational induction over the loops (two solvers that differ in what must not matter); invariants over histories of calls for each strategy; concrete runs where it fails `Props/ReuseLink`: refinement, each run is (forgetting the memory) a run of the loops of C16 in an environment that replays its searches; `Props/ReuseFDDPLink`: the same for FDDP and C20. |
| C70 | `Model/LqrObjects`: knots and problems as records of blocks, a block being allocator, shape, allocated size and buffer (null after a move); each constructor and assignment field by field, undefined behaviour as `none`, content of fresh memory an argument; `Spec/LqrObjects`: sixteen *named* blocks with their documented shapes, same value block by block, nearness as an inequality of sums. Block lemmas once, then a choice over the names; induction on the list of knots |
| C71 | `Model/QViews`: objects by name over an explicit heap, a view as address, offset, stride; each special member of `QFunctionTpl` with its `redef_refs`; the implicit copy of `CostDataAbstractTpl` (gradient blocks); `Spec/QViews`: a program on *values*, blocks named by the variables they couple. Proved: refinement in both directions (defined exactly when the program on values is right, then every member and every block shows the value) by induction over the program (`C71_value_semantics`), rotation of a vector as a sequence of swaps (`C71_rotation`); negation for copies of cost data (`C71_cost_data_copy_shares_blocks`, `C71_cost_data_copy_dangles`) |
| C72 | `Model/FDDPMem`: a size interpreter of the FDDP constructors, of one iteration (evaluation, gaps, backward pass, gains, trials) and of the shifts; a wrong size, index or a resized Q-function is `none`; `Spec/FDDPMem`: uniform states and a matching terminal control. Sufficiency by induction over iterations and trials with the buffers as a fixed point, necessity by inverting one iteration, shifts as equivalences. Partial: `cycleAppend` is wrong if control sizes vary, and set up accepts problems the iteration cannot hold. |
| C73 | `Model/Logger`: the logger with its maps keyed by views (a key carries the owner of its characters; reading a key whose owner is gone is undefined behaviour), arbitrary hash, growth and formatting; the operations a run of ProxDDP or FDDP performs on it. `Spec/Logger`: a table with columns, values and lines, no memory | simulation of the table by the logger; induction over operations, iterations and runs. FDDP: only the first run; the second run has undefined behaviour |
| C74 | `Model/ProxMem`: a size interpreter of the constructors of workspace, results and serial Riccati solver, of one turn of the inner loop (evaluation, multipliers, Lagrangian gradients, projected Jacobians, LQ subproblem, backward and forward passes, gains, slope, trials of either rollout), of the outer loop, and of `cycleProblem`; every index, Eigen size assertion and call with a wrong size is a check, a failed check is `none`; `Spec/ProxMem`: one tangent size, state sizes that fit together. Sufficiency with the memory as a fixed point, by induction over trials, turns and loops; necessity by inverting one turn; controllers by induction over commands. Partial: other control sizes and horizon one. |
| C75 | `Model/PyObj`: Python instances, the `PolymorphicWrapper` parts that C++ holds, problems and names, with reference counts, life-support links and a destructor that may cascade; storing is a chain of `deepcopy_owner` copies, temporaries are destroyed; use of a destroyed part is undefined. A class is any `__init__`, `__getinitargs__` and pickled state. `Spec/PyObj`: names, objects and problems as values, nothing is ever destroyed. Proved by a simulation with an invariant over counts and ownership, by induction over programs. Partial: see the disagreements. |
| C76 | The solver loop (`Model/ProxDDP`) with the evaluation, multipliers, merit function, linear system and line search of `Model/Solver`, on problems that satisfy `Spec/SolverLQ.IsLQ` (affine constraints, quadratic costs, right derivatives). `Spec/SolverLQ`: cost, feasible and optimal trajectories. Proved by summation by parts over the horizon (Newton step, merit change, optimality), then by following the run through its first iterations; the stalls by an invariant over all outer iterations | partial |
| C77 | As C76, with affine equality path constraints and terminal constraints (`Spec/SolverEq.IsLQE`) and the library's product sets of zero sets. `Spec/SolverEq`: Lagrangian, first-order points by derivatives of the Lagrangian along all variations, distances, error bound. Proved: rows of the linear system → full step; summation over the horizon → energy balance; the run by an invariant over outer iterations (weighted energy, relation between constraint value and multiplier step, parameters) with a geometric bound; the error bound from uniqueness by a left inverse of the linearised first-order conditions (`Props/SolverEqBound`). The concrete run is in `Props/SolverEqWit`. `Props/SolverEqFeasible`: slope and merit of the full step in closed form, hence the acceptance test of the line search as an inequality at iterates that satisfy the dynamics | partial |
| C78 | As C77 with product sets of zero sets, negative orthants and boxes. `Spec/SolverIneq`: the allowed values, normal cones, first-order points with multipliers in the normal cones, side of the boundaries. Proved: rows of the linear system (C55) give the multipliers as the tangent of the projection; when the tangent is exact the new point is a proximal step on the KKT relation, and monotonicity of the normal cones gives the energy inequality; summation gives the rate. Concrete states, sequences and the counterexample are in `Props/SolverIneqWit` | partial |
| C79 | As C78, whole runs. `Spec/SolverIneqRun`: rows held by the multipliers of a solution, on which side they are, error bound over the held rows, the region in which the active constraints can be told, strict complementarity, uniqueness. Proved: near such a solution the sides are an invariant of both branches of the outer loop (multiplier update, penalty decrease), on the held rows the step is that of an equality constrained problem, so the abstract run argument of C77 applies; error bound and region from uniqueness and strict complementarity by a left inverse of the linearised conditions on the held rows and a homotopy to the solution. Concrete runs in `Props/SolverIneqRunWit` | partial |
| C80 | `Model/Malloc`: programs of zones, explicit switches, user calls, exceptions; Eigen's flag and the one saved variable of the thread; the solvers as such programs, with the numbers of iterations, trials and block solves free. `Spec/Malloc`: an interpreter that saves the flag on a stack; programs without nested zones. Proved by induction over programs and over the loops; witnesses of the failures with nested zones | partial |
| C81 | `Model/ProblemObj`: problem objects with the cell of the initial state, the cached kind, the control passed to terminal functions; 17 operations; undefined behaviour, aborts and exceptions as outcomes. `Spec/ProblemObj`: problems as values, as a relation. Proved by simulation for all programs, with the invariant that no two problems share a cell | partial |
| C82 | `Model/BlkObj`: `BlkMatrix` objects with data, partition, index arrays and totals; 16 operations; aborts and undefined behaviour as outcomes. `Spec/BlkObj`: partition and matrix as a value. Proved by simulation for all programs; exact statements and witnesses for `swap`, moves and wrong shapes | partial |
| C83 | `Model/DataObjects`: a memory of objects, problem data as pointers into it plus `cost_`, 12 operations (create, copy, drop, shift, evaluate, ...) as a relation that allows any schedule. `Spec/DataObjects`: every data object is a value of its own. Proved by simulation (separation of the addresses) for all programs; exact statements and witnesses for copies and for stage data handed over twice | partial |
| C84 | `Model/RiccatiMem`: the serial solver with all its buffers, updated in place statement by statement, also by passes that fail; reachable states by an inductive relation (construction, passes, shifts). Proved by an invariant over all histories and refinement to `Model/Riccati`; witness for a forward pass after an exception. `Model/DenseMem`: the same for the dense solver, from any memory, refinement to `Model/DenseRiccati`. `Model/ParallelMem`: the parallel solver with the parametric blocks in the client's knots, factors of the legs and condensed solution, after any history, refinement to `Model/Parallel` | proved |
| C85 | `Model/EvalData`: cost, stage function and implicit dynamics data in an explicit heap (that of `Model/QViews`), views with the offsets of the constructors. Invariant with an owner for each cell, refinement of all programs to values (`Spec/EvalData`); tiling by arithmetic; negations for implicit copies | proved |
| C86 | `Model/Settings`: the solver object as settings, line search held, and sizes of results, workspace and linear solver; setters, `setup` with the state left by each exception, `cycleProblem`, what a run uses. Invariant over all sequences of calls (`Spec/Settings`); negations for rejected setups and shifts and for settings changed later | partial (false in general) |
| C87 | `Model/PyView`: accessors of the bindings by index or key, with exceptions and out-of-bounds accesses as outcomes; an interpreter with reference counts, objects, and arrays that hold or do not hold their object according to the policy of each accessor. Refinement of programs over memory that is never released (`Spec/PyView`), with exactly the programs that are undefined; negations for `blockCol`, `__call__` and the accessors without policy | partial (false in general) |
| C88 | `Model/SolverSets`: the sets of the problem and the copies in the workspace, `replaceStageCircular`, `cycleAppend`, with sets as opaque values. Refinement of all programs to a book with two columns, sets now and sets in use (`Spec/SolverSets`); the columns agree when every change is followed by a set up; negation for changes without one. |

## Where the code disagrees with a property

Each entry is proved in the model on a concrete witness (theorem in brackets) unless marked otherwise.

* C06: a terminal knot with `nx2 > 0` (default of the constructors) and controls or constraints always makes the
  dense terminal factorisation singular (`C06_terminal_with_next_state_never_factors`); the status is not examined.
* C07: the dense solver drops the parametric value terms of all knots but the first (`C07_wrong_gradient`).
* C08: the parallel solver can fail where the serial one succeeds (`C08_parallel_fails_where_serial_succeeds`).
* C12: one refinement step can destroy the solution (`C12_single_step_destroys_solution`).
* C13: `collapseFeedback` uses the wrong block (`C13_collapseFeedback_wrong`).
* C15: the assembled sparse matrix has `+I` where the dynamics need `-I` (`C15_sparse_system_wrong_sign`); the KKT
  error ignores `Gv θ` (`C15_error_ignores_Gv`); `evaluate` omits the terminal control
  (`C15_evaluate_omits_terminal_control`); the row count is right only if the first and last state dimensions agree
  (`C15_row_count`).
* C10: with a data object shared by two stages the result depends on the schedule
  (`C10_shared_data_depends_on_schedule`).
* C29: a state guess without controls is ignored (`C29_state_guess_ignored`); a rejected guess can be partially
  written (`C29_partial_write_before_throw`); multipliers of the wrong size are partly used
  (`C29_multiplier_guess_partially_used`); a warm start with another initial state is never corrected
  (`C29_wrong_warm_start_not_corrected`).
* C31: a new control dimension leaves a wrong control in the results (`C31_new_control_dimension_breaks`) and wrong
  workspace buffers (`C31_workspace_other_dims`); with one stage the shift is undefined (`C31_horizon_one_undefined`). The dense LQ
  solver keeps the block sizes of the knot that left (`C31_dense_solver`); the parallel one is rebuilt.
* C32: data of a longer problem adds stale costs (`C32_longer_data_adds_stale_costs`), data of a shorter one is
  undefined behaviour (`C32_shorter_data_is_undefined`).
* C35: a box with crossed limits returns a point outside (`C35_swapped_limits`).
* C36: the parameter of the l1 set is 0 unless the user sets it, and then the penalty has no effect
  (`C36_unset_parameter`).
* C37: a box with equal limits is flagged inactive at its only point (`C37_degenerate_box_misflagged`), the l1 set
  with parameter 0 active at 0 (`C37_default_l1_misflagged`).
* C28: the returned directional derivative leaves out the direction of the dynamics multipliers
  (`C28_dual_direction_ignored`: true slope negative, returned value 0, inner loop ends).
* C33, C34 (outside the statements): a moved-from stack cannot be pushed to (`C33_moved_from`); data of another shape
  is discarded or reinterpreted by the block-matrix constructor (`C34_wrong_shape_discards_data`,
  `C34_wrong_shape_moves_entries`).
* C41: adding a component under a key in use drops it silently (`C41_collision_drops`); data created before an addition
  lacks the entry and evaluating with it is undefined (`C41_old_data_is_undefined`).
* C48: the implicit rollout ignores Newton failures (`C48_failure_unreported`), its list overload returns 2N+1 entries
  (`C48_implicit_list_length`) and is undefined on a fresh output (`C48_implicit_list_fresh_output`); the explicit one
  writes before it throws (`C48_throws_after_writing`).
* C49 (outside the statement): a search that ends on its bound leaves a stale residual for the next direction
  (`C49_stale_residual`); a contraction factor of 1 never ends (`C49_factor_one_diverges`).
* C50: shrinking with `conservativeResize` frees with a wrong size (`C50_shrink_bad_free`), moves between allocators
  leak (`C50_leak`), a moved-from matrix cannot be reassigned or copied (`C50_moved_from_reuse`,
  `C50_copy_of_moved_from`).
* C51: contact names may repeat (`C51_names_unchecked`) and the index of a removal is unchecked (`C51_remove_unchecked`).
* C36 (outside the statement): the parameter of a product of sets reaches none of its components, so setting it leaves the penalties in it without
  effect (`C36_product_parameter_negation`); it has to be set on the components before the product is built.
* C36 (outside the statement): the solver does not pass its penalty parameter to the sets; an l1 penalty with parameter m acts
  with weight m / mu, and not at all with its default parameter (`C36_weight_in_solver`, `C36_unset_in_solver`).
* C38 (outside the statement): a product given vectors longer than its blocks leaves the end of the output unwritten
  (`C38_longer_vectors`).
* C39: a wrong argument number is refused by vector spaces only for the difference; the groups of Pinocchio return
  without an exception and leave the output unwritten, so Python receives uninitialised memory
  (`C39_wrong_argument_unnoticed`).
* C39: the interpolation of a tangent bundle computes the velocity from the base coordinates (`getBaseTangent` of a point
  reads its head), so the end points are missed (`C39_bundle_interpolation`); `component * product` puts the component
  last (`C39_left_factor_goes_right`).
* C40: `isNormalized` of a product starts from `true` and uses `|=`, so it accepts every vector of the right size
  (`C40_accepts_everything`).
* C42: quadratic costs report the gradient of the symmetrised form only for symmetric weights (`C42_quad_gradient_iff`); gradients read buffers of the last `evaluate`, Hessians are fixed by `createData` (`C42_quad_stale`, `C42_residual_stale`); with `gauss_newton = false` the second-order term overwrites `JᵀWJ` (`C42_exact_mode_wrong`).
* C43: the Hessian of the log barrier has the wrong sign (`C43_log_hessian_negated`); that of the relaxed barrier is not the second derivative (`C43_relaxed_hessian_wrong`).
* C44: `dForward` of RK2 and `computeJacobians` of the midpoint rule use the midpoint stored by the last evaluation, whatever point they are given (`C44_rk2_stale`, `C44_midpoint_stale`).
  On manifolds explicit Euler has the same defect through the stored step (`C44_manifold_euler_stale`). RK2 takes the derivatives of the step `x ⊕ h f(x1)` at the midpoint `x1`
  instead of `x`: right on Lie groups, wrong where the Jacobians depend on the base point (`C44_manifold_rk2_base_point`). The midpoint rule multiplies the derivative of the
  dynamics from the left by transports of tangent vectors, once for `x` and once more for `y`, although the values of the dynamics are not tangent vectors there; exactly when
  this is harmless: `C44_manifold_midpoint_iff`; on a curved group it is not (`C44_manifold_midpoint_curved`). tests/python/test_integrators.py only checks the case `y = x`,
  where it is harmless.
* C45: finite-difference Jacobians subtract the value of the last evaluation, whatever point they are given (`C45_stale`); the stage-function helper sizes a buffer with an uninitialised member (`C45_create`); its Hessian method does nothing.
* C46: slices do not check their indices (`C46_slice_range`); their vector-Hessian products zero the selected multipliers, write out of range and are never reported (`C46_slice_vhp_wrong`, `C46_slice_vhp_range`, `C46_slice_vhp_unchanged`); those of compositions do nothing (`C46_compose_vhp_wrong`).
* C52: the angular-momentum residual writes its Jacobian to the last three columns while its value reads the state from index six, so it is wrong on every state larger than nine, which its constructor accepts (`C52_angular_momentum_wrong`).
* C56: the test of convergence never looks at the residual of the constraint multipliers (`inner_criterion` is compared with `inner_tol_` only), so a run can report convergence at a point where a multiplier has the wrong sign and the cost is far from optimal (`C56_converged_not_optimal`: min ½(u+1)², u ≤ 0, start u = 1, default parameters, returns u ≈ -0.0099 after one iteration). `MultiplierUpdateMode::PRIMAL_DUAL` assigns `vs_pdal` (solver-proxddp.hxx:502-504), which is zeroed when the workspace is built and never written: the mode is a pure penalty method (`C56_primal_dual_multipliers_bounded`).
* C57: `HessianApprox::EXACT` adds the buffers `Hxx_`, `Hxu_`, `Huu_` of the dynamics, which nothing in the library ever writes (`computeVectorHessianProducts` is called by quadratic residual costs and slices only), so it equals `GAUSS_NEWTON` (`C57_exact_is_gauss_newton`); no callback is given the multipliers (`C57_no_callbacks_are_exact`).
* C58: `tryNonlinearRollout` (solver-proxddp.hxx:322-416) uses `dxs[0]` unscaled in `Kfb * dxs[0]` and `Zfb * dxs[0]` while the state moves by `alpha * dxs[0]`, and it jumps over all defects at any `alpha`, so `phi(0)` is not the merit of the iterate (`C58_zero_step`, `C58_initial_step_unscaled`); it does not evaluate `init_constraint_`, so multipliers, infeasibility and the subproblem keep the value at the entry of `innerLoop` (`C58_initial_residual_stale`, `C58_inner_loop_cannot_converge`, `C58_initial_state_overshoots`), and `run` returns `true` at a trajectory whose initial state violates the initial condition by twice the tolerance (`C58_run_converged_violates_initial_condition`).
* C59: the prediction of FDDP is off by `(1 - a)² dv` for partial steps with gaps (`C59_prediction_wrong`); `run` returns `true` at a
  trajectory with slope 3 because the predicted slope `d1` of the accepted full step is 0 (`C59_converged_not_stationary`); the forward pass evaluates the terminal
  cost at the last control (solver-fddp.hxx:109), `evaluate` at a zero control (`C59_reported_cost_wrong`).  Not stated as theorems: lines 101 and 183 use the space of
  stage `i` for a point of node `i + 1`; `llt.info()` is never read.
* C60: the derivative in the velocity is written to `rightCols(nv)` (the centroidal momentum also reads `x.tail(nv)`), so velocity residuals are wrong on states with
  coordinates after the velocity, which the constructors accept (`C60_com_velocity_wide_negation`, `C60_dcm_position_wide_negation`, `C60_frame_velocity_wide_negation`,
  `C60_centroidal_momentum_wide_negation`); `setFrameId` leaves columns of the old frame in buffers that Pinocchio fills only partially
  (`C60_frame_translation_change_negation`, `C60_frame_velocity_change_negation`); the gravity residual uses entries of a buffer nobody initialises
  (`C60_gravity_compensation_iff_partial`); Jacobians are taken at the last evaluated point (`C60_frame_translation_point_negation`); the documentation of
  `FrameEqualityResidual` (`log6(f1⁻¹ · ref · f2)`) is not what is computed (`C60_frame_equality_zero`).
* C61: the contact-force, friction-cone and wrench-cone residuals store the proximal settings they are given and never use them: the data object has
  default-constructed ones, unlike `MultibodyConstraintFwdData` (`C61_settings_negation`); the rows of a contact are `contact_id * own size`, so with contacts of
  sizes 3 and 6 the force of another contact is returned (`C61_mixed_sizes_negation`) or rows past the end are read (`C61_out_of_range`); the friction cone's
  Jacobian divides zero by zero when the tangential force vanishes (`C61_friction_cone_nan`).
* C63: `ControlErrorResidualTpl::computeJacobians` writes an ndx x ndx matrix into an ndx x nu block, undefined when the control manifold has more coordinates
  than tangent directions (`C63_control_manifold`); `setTarget` leaves the error of the old target in the data, and `computeGradients` uses it
  (`C63_set_target_stale`); with `gauss_newton_ = false` the Hessian is zero because the residuals do not implement second derivatives (`C63_exact_mode_zero`);
  only the columns of the weights are compared with the residual's size (`C63_weights`); the vector space accepts targets of any size (`C63_target_size`).
* C64: sizes of the matrices given to `LinearFunctionTpl` are only asserted, those given to `LinearDiscreteDynamicsTpl` not looked at.
* C65: `ActionModelWrapperTpl` overrides all three computations and never looks at the constraints of its base class, which `addConstraint` accepts
  (`C65_constraint_negation`); its `NoOpDynamics` leaves the data alone, so `rollout` stays at the neutral state (`C65_dynamics_negation`);
  `CrocCostModelWrapperTpl::createData` throws for cost models (`C65_cost_model_negation`); without running models `stages_[0]` does not exist (`C65_empty`).
* C66: `MatrixXs work(nv, nu + d)` is not initialised although Pinocchio's documentation asks for a Jacobian filled with zeros (`C66_uninitialised`); systems that
  cannot be held get a least-squares answer without notice (`C66_cannot_hold`).
* C67: `x = std::move(x->member)` exchanges the pointers and then destroys the owner through its own member: undefined (`C67_take_own_member`);
  `ConstraintStackTpl::pushBack(func, set)` reads `func->nr` after `funcs` has grown, so `stage.addConstraint(stage.constraints_.funcs[i], set)` reads freed
  memory when the vector is full (`C67_add_own_function`); if copying the set throws, the function stays in the stack (`C67_add_constraint_throws`). Not reached with the
  default allocator, hence not modelled: the initializer-list constructor of `polymorphic` builds the base class instead of `U`, and the extended move constructor tests
  the copy-assignment trait.
* C68: the dense solver's `ff`, `fb` have `nu + nc + 2 nx2` rows, the results' matrices `nu + nc + nx2`: the copy is an Eigen size error, silently truncated without assertions
  (`C68_dense_gains_size_mismatch`); with the parallel solver the gains stored for all legs but the last are those of a problem that stops at the end of the leg, e.g. `u = 0` at its last stage
  (`C68_parallel_gains_wrong`); `run` on a guess that already meets the tolerances reports convergence and leaves the gains at zero or at their old values (`C68_converged_guess_leaves_gains`).
* C69: `filter_` is reset by `setup` only: a pair accepted by any run blocks all worse pairs in all later runs, also on other problems and after `cycleProblem`
  (`C69_filter_never_forgets`), so a second run from the same guess never takes the full step the first one took (`C69_filter_rerun_differs`) and can end without converging
  (`C69_filter_rerun_fails`); the nonmonotone average survives runs that do not converge (`C69_nonmonotone_stale_average`); NaN at the guess or a throwing trial point leave infeasibilities or
  trajectories of an earlier run in the results (`C69_nan_guess_reports_stale_values`, `C69_throwing_returns_stale_trajectory`); `sa_strategy_` changed after `setup` is ignored between the line
  searches and raises when the solver was set up for the filter (`C69_strategy_change_ignored`, `C69_switch_from_filter_raises`). FDDP: when every rollout throws, the results are overwritten
  by the half-written trial buffers and the run returns `true` iff the slope left by an earlier search (0 after `setup`) is small (`C20_fddp_failed_rollouts_after_setup`,
  `C69_fddp_flag_depends_on_history`). `ls_params.alpha_min` changed after `setup` is seen by the test that raises the regularisation (solver-proxddp.hxx:690) but not by the line search and
  the filter, which copied it: lowered, the regularisation is never raised again (`C69_alpha_min_lowered_after_setup`). Empty `vs_init`, `lams_init` mean the multipliers of the last run, not zero
  (`C69_omitted_multipliers_are_stale`). Read, not modelled: `ls_mode`, `dual_weight`, `max_refinement_steps_`, `refinement_threshold_` are public settings that no code reads.
* C70: `LqrProblem::isApprox` never looks at the terminal knot (`C70_problem_isApprox_ignores_terminal`), and on two problems without knots it loops to `2^32 - 1` from `stages[0]`
  (`C70_problem_isApprox_empty`); "Will copy the allocator from other" and "Other allocator will be stolen" are wrong (`C70_copy_ignores_allocator`, `C70_move_assign_copies`); `G0`, `g0` of a new
  problem are uninitialised (`C70_initial_constraint_uninitialised`). Read, not modelled: `operator<<` omits `nx2` and `Gv`.
* C71: `CostDataAbstractTpl` and `StageFunctionDataTpl` (core/function-abstract.hpp:84-104) hold `Ref` members and have implicit copy constructors: the blocks of a copy are those of the original. Inside
  the library the objects are held by `shared_ptr` and never copied; `QFunctionTpl` defines its special members and is right.
* C72: `cycleAppend` (solvers/workspace-base.hpp:52-56) calls the non-virtual `cycleLeft` of the base, so on a `WorkspaceFDDP` it leaves `dxs`, `kktRhs`, `q_params` and the other members of the derived class unrotated; the Python bindings expose only the base versions (bindings/python/src/expose-solvers-base.cpp:28-33). With control sizes that vary along the horizon the next backward pass is undefined. Also: neither the stage constructor (core/stage-model.hxx:15-28) nor `checkIntegrity` compares the space of a cost with that of the dynamics, nor the size of the initial state or of the terminal control; and `xnext_` is sized by the space of the current state (core/explicit-dynamics.hpp:109).
* C73: FDDP calls `addColumn` in every run and never `reset` (solvers/fddp/solver-fddp.hxx:301-310), so the columns of all runs pile up. It declares the column "cost" but gives entries "merit" only (:364-371): the cost is never printed, the merit has no column. If the convergence test ends the run (:344-347, 395-396), the previous row is printed again, or a row of empty cells. `m_currentLine[name]` (src/utils/logger.cpp:29-31) inserts, for the column without entry, a key that views the vector of names; the next run grows that vector, and the following look-up reads freed memory. Views given by the caller must outlive the logger. An iteration ProxDDP gives up at the maximal regularisation (solvers/proxddp/solver-proxddp.hxx:690-692) has no row.
* C74: the workspace builds its knots with the constructor that takes no size of the next state (solvers/proxddp/workspace.hxx:51, 130), so `nx2 = nx`, although `checkIntegrity` allows `ndx2 != ndx1`: such a problem is accepted, `dlams[i + 1]` has the wrong size, and the backward pass assigns `f` and `B` to blocks of another size (gar/riccati-kernel.hxx:209-277). Neither the integrity check nor `setup` compares the tangent spaces of costs and constraints with those of the dynamics, the state of the initial condition with that of the first stage, or asks for a stage. After a shift by a stage with another control size, `results.us` has an entry of the old size (solvers/proxddp/results.hxx:43-72).
* C75: `term_cost` and `cost` are exposed with `return_internal_reference`, which ties the problem to the life of the object returned; for an object of a Python class that object is the `copied_owner` held by the problem's own part (polymorphic.hpp:223), so one read makes a cycle that no collector sees and both are leaked. Assigning `problem.term_cost` destroys the part that an object read back before still points to. The comment "Deepcopy is safer to copy derived class values but don't copy C++ class content" (polymorphic.hpp:219) is right for storing, where the part is copied by C++, but a user's own `copy.deepcopy` gets a default C++ part, or what `__getinitargs__` rebuilds. `__init__` runs before the state is restored, so an attribute deleted from the original is there in the copy.
* C76: `innerLoop` returns success when `|dphi0| <= dphi_thresh` (solver-proxddp.hxx:644-646) before the step in the multipliers is applied. At an optimal trajectory the primal step is zero for any multipliers, so a warm start with the optimal states and controls and the zero multipliers of `setup` makes every inner loop return at once, until the run ends without convergence. The inner criterion reads `dyn_slacks[i]` for `i < nsteps` (solver-proxddp.hxx:710-715), which are the initial condition and all dynamics but the last: with only the last defect nonzero the inner loop returns without solving the linear system. The merit function has the penalty on the new multipliers but no term for the old ones, so its value after an exact Newton step grows with the square of the cost's scale: the full step is refused on a cost multiplied by 2001 (default `mu_init`), with the same minimiser. The merit function adds half `mu_dyn` times the squared multipliers of the trial point (merit-function.hxx:48-57), so along the way from a warm start without multipliers to the exact solution it grows by an amount that does not vanish with the distance: the better the warm start, the shorter the accepted steps (`C76_good_guess_short_steps`).
* C78: a full step of the semismooth Newton method in which an inequality changes side can leave the multiplier of that inequality negative and increase the weighted distance to the only solution (`C78_side_change`: minimise (u + 1)²/2 subject to u ≤ 0 from u > 0). The code has no safeguard on the sign; the inner criterion sees it (`C78_inner`) and a further iteration is needed. For box constraints equal active sets before and after a step are not enough: the flag does not tell the upper from the lower bound.
* C80: the flag saved by a zone without allocation is kept in one variable of the thread, so a zone inside a zone overwrites it and the outer zone, when it ends, forbids allocation for good (`C80_nested_zone_forbids`). `ParallelRiccatiSolver::backward` and `forward` nest zones: in a build with `CHECK_RUNTIME_MALLOC` the trial steps, the callbacks and the caller of `run` then abort on their first allocation (`C80_parallel_solver_forbids`). In FDDP a NaN that raises between `ALIGATOR_NOMALLOC_BEGIN` and `_END` has the same effect, and `_END` allows allocation whatever the caller had chosen (`C80_fddp_turn`).
* C81: `init_constraint_` is public, but whether it is a `StateErrorResidual` is cached at construction: after assignment of another kind `getInitState`/`setInitState` abort (debug), cast to the wrong type (release) or throw (`C81_replaced_by_other`, `C81_replaced_by_state`); `checkIntegrity` reports it. `setInitState` checks neither size nor normalisation, unlike the constructors (`C81_setInit_any`). `unone_` keeps the control size of the first terminal cost (`C81_terminal_control_stale`). `initializeSolution` leaves `vs[N]` as it was when there are no terminal constraints (`C81_multipliers_kept`).
* C82: `BlkMatrix::swap` exchanges the data and keeps the partitions: with other sums later block accesses are out of range, with equal sums the blocks are cut elsewhere (`C82_swap_witness`). The constructor from data resizes the data when the sums of the partition differ from its shape, which loses the entries or, for an equal number of entries, deals them out again (`C82_data_of_other_shape`). `operator=` checks the shape only by assertions (`C82_assign_other_shape`).
* C83: a copy of `TrajOptDataTpl` copies shared pointers: evaluating with the copy changes what the original shows, while the original's `cost_` keeps the old cost (`C83_copy_shares`). `cycleAppend` accepts stage data that is in use already; two knots then write into the same objects, in a parallel loop (`C83_same_stage_data_twice`).
* C84: when a stage factorisation throws, the factors of later knots are those of the new problem and the initial stage and first gains those of the earlier one; `forward` does not know and returns a trajectory of neither (`C84_forward_after_exception`).
* C85: cost, stage function and dynamics data can be copied (implicit copy constructors), but the `Eigen::Ref` members of the copy refer to the original (`C85_copy_shares_blocks`, `C85_copy_dangles`). The library itself only holds them by pointer.
* C86: `setup` replaces results and workspace before it checks that the linear solver can be made (solver-proxddp.hxx:166-197), so a rejected `setup` leaves a null linear solver (`C86_rejected_first_setup`) or that of the old problem (`C86_rejected_later_setup`) behind a passed allocation test; `cycleProblem` shifts the results before the integrity check (`C86_rejected_shift`); nonlinear rollouts with the parallel solver are refused by `setup` only (`C86_parallel_nonlinear_unchecked`). `max_refinement_steps_`, `refinement_threshold_`, `ls_mode` and `dual_weight` of ProxDDP are settings that nothing reads.
* C88: the workspace holds copies of the constraint sets (solvers/proxddp/workspace.hpp:16-23, workspace.hxx:64, :73-74), so changing a set of the problem after `setup` has no effect on later runs; a shift only takes the sets of the new last stage, and the terminal sets stay those of `setup` (`C88_changes_ignored`).
* C87: `blockCol` in Python tests its index against `rowDims()` (python/blk-matrix.hpp:37-43), so block vectors accept indices past their only column (`C87_block_col_wrong`); `__call__` does not test its indices (`C87_call`). The derivatives in `CostData`, `StageFunctionData`, `DynamicsData`, `ExplicitDynamicsData` and the blocks of block matrices are returned without the custodian policy that `make_getter_eigen_matrix` uses for the buffers, so `createData().Lx` is an array over freed memory (`C87_untied_array`). Boost.Python and eigenpy are not in /repo: their policies and shared memory are assumed as stated in `Model/PyView`.
* C16: a NaN initial guess is reported as converged (`C16_NaN_run_reports_convergence`).
* C19: the tolerance-tightening loop does not end when the criterion is exactly zero (`C19_zero_criterion_hangs`). In binary64 the tolerance underflows to zero and the loop ends with the default `mu_init = 0.01`; with `mu_init > 0.5` it stays at the least subnormal number and the run hangs (`C19_rounded_run_hangs`).
* C20: FDDP returns `true` on a small slope with any infeasibility (`C20_converges_while_infeasible`), on NaN norms
  (`C20_NaN_run_reports_convergence`), and uses a `reg_init` below `reg_min`
  (`C20_initial_regularisation_not_clamped`).
* C21: an exhausted FDDP search returns a step it never tried
  (`C21_exhausted_search_returns_unevaluated_step`); with a throwing merit the step can fall below `alpha_min`
  (`C21_throwing_merit_goes_below_alphaMin`).
* C22: the Armijo search returns 0 for a merit that always throws (`C22_throwing_merit_returns_zero`), the value of
  step 0 after a NaN (`C22_NaN_at_full_step_returns_wrong_value`), a step that threw
  (`C22_accepts_a_step_that_threw`), and a mismatched pair after a cubic `0/0`
  (`C22_cubic_fallback_returns_wrong_value`).
* C23: the right-hand side of the cubic interpolation system is swapped (`C23_cubic_misses_samples`).
