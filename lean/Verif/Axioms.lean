import Verif.Props.ActiveSets
import Verif.Props.Affine
import Verif.Props.Arena
import Verif.Props.BlkObj
import Verif.Props.BlockTridiag
import Verif.Props.Blocks
import Verif.Props.BunchKaufman
import Verif.Props.Centroidal
import Verif.Props.ConstrainedRnea
import Verif.Props.ConstraintSets
import Verif.Props.ContactForce
import Verif.Props.CostStack
import Verif.Props.Crocoddyl
import Verif.Props.Cycle
import Verif.Props.DataObjects
import Verif.Props.DenseMem
import Verif.Props.DenseRiccati
import Verif.Props.EvalData
import Verif.Props.FDDP
import Verif.Props.FDDPLQ
import Verif.Props.FDDPMem
import Verif.Props.FDDPMemBounds
import Verif.Props.FDDPPasses
import Verif.Props.Filter
import Verif.Props.FiniteDiff
import Verif.Props.FloatArith
import Verif.Props.Gains
import Verif.Props.GetWork
import Verif.Props.Integrators
import Verif.Props.Kinodynamics
import Verif.Props.LQSubproblem
import Verif.Props.Lagrangian
import Verif.Props.Linesearch
import Verif.Props.Logger
import Verif.Props.LqrObjects
import Verif.Props.LqrObjectsProblem
import Verif.Props.LqrUtils
import Verif.Props.Malloc
import Verif.Props.ManifoldArgs
import Verif.Props.ManifoldIntegrators
import Verif.Props.Manifolds
import Verif.Props.MomentumRate
import Verif.Props.Multibody
import Verif.Props.MultibodyDynamics
import Verif.Props.MultibodyWrong
import Verif.Props.NonlinearRollout
import Verif.Props.NonlinearRun
import Verif.Props.Parallel
import Verif.Props.ParallelMem
import Verif.Props.Polymorphic
import Verif.Props.ProblemData
import Verif.Props.ProblemDataUntouched
import Verif.Props.ProblemObj
import Verif.Props.ProxDDP
import Verif.Props.ProxDDPSchedule
import Verif.Props.ProxMem
import Verif.Props.PyObj
import Verif.Props.PyView
import Verif.Props.QViews
import Verif.Props.QuadCosts
import Verif.Props.Registries
import Verif.Props.Reuse
import Verif.Props.ReuseCalls
import Verif.Props.ReuseFDDP
import Verif.Props.ReuseFDDPLink
import Verif.Props.ReuseLink
import Verif.Props.ReuseSettings
import Verif.Props.ReuseWitness
import Verif.Props.Riccati
import Verif.Props.RiccatiMem
import Verif.Props.Rollout
import Verif.Props.Schedule
import Verif.Props.SetObjects
import Verif.Props.Settings
import Verif.Props.Solver
import Verif.Props.SolverEq
import Verif.Props.SolverEqBound
import Verif.Props.SolverEqFeasible
import Verif.Props.SolverEqWit
import Verif.Props.SolverIneq
import Verif.Props.SolverIneqBound
import Verif.Props.SolverIneqRun
import Verif.Props.SolverIneqRunWit
import Verif.Props.SolverIneqWit
import Verif.Props.SolverLQ
import Verif.Props.SolverLQFeasible
import Verif.Props.SolverModes
import Verif.Props.SolverSets
import Verif.Props.TolRounding
import Verif.Props.Tracking
import Verif.Props.TrajOptProblem
import Verif.Props.Wrappers

/-! Generated by tools/manifest.py: the axioms of every property theorem. -/

#print axioms Aligator.Aff.C64_constant_cost
#print axioms Aligator.Aff.C64_control_box
#print axioms Aligator.Aff.C64_control_box_scalar
#print axioms Aligator.Aff.C64_linear_dynamics
#print axioms Aligator.Aff.C64_linear_dynamics_sizes
#print axioms Aligator.Aff.C64_linear_function
#print axioms Aligator.Aff.C64_linear_function_sizes
#print axioms Aligator.Aff.C64_linear_function_zero
#print axioms Aligator.Arena.C50_copy_of_moved_from
#print axioms Aligator.Arena.C50_leak
#print axioms Aligator.Arena.C50_memory_partial
#print axioms Aligator.Arena.C50_move_across_resources
#print axioms Aligator.Arena.C50_moved_from_reuse
#print axioms Aligator.Arena.C50_no_leak_partial
#print axioms Aligator.Arena.C50_shapes
#print axioms Aligator.Arena.C50_shrink_bad_free
#print axioms Aligator.BK.C14_ldl_complete
#print axioms Aligator.BK.C14_ldl_exact
#print axioms Aligator.BK.C14_ldl_is_solve
#print axioms Aligator.BK.C14_reads_lower_triangle_only
#print axioms Aligator.BK.C14_solve_exact
#print axioms Aligator.BK.C14_solve_linear
#print axioms Aligator.BK.C14_success_iff_invertible
#print axioms Aligator.BlkObj.C82_access_iff
#print axioms Aligator.BlkObj.C82_assign_other_shape
#print axioms Aligator.BlkObj.C82_block_matrices_are_values
#print axioms Aligator.BlkObj.C82_data_of_other_shape
#print axioms Aligator.BlkObj.C82_moved_from
#print axioms Aligator.BlkObj.C82_moved_into
#print axioms Aligator.BlkObj.C82_swap_keeps_partitions
#print axioms Aligator.BlkObj.C82_swap_witness
#print axioms Aligator.Blocks.C33_moved_from
#print axioms Aligator.Blocks.C33_stack_invariant
#print axioms Aligator.Blocks.C34_blocks_tile
#print axioms Aligator.Blocks.C34_constructor
#print axioms Aligator.Blocks.C34_rows_and_columns
#print axioms Aligator.Blocks.C34_starts_tile
#print axioms Aligator.Blocks.C34_top_rows
#print axioms Aligator.Blocks.C34_write_block
#print axioms Aligator.Blocks.C34_wrong_shape_discards_data
#print axioms Aligator.Blocks.C34_wrong_shape_moves_entries
#print axioms Aligator.CSets.C26_multiplier_update
#print axioms Aligator.CSets.C35_moreau_envelope
#print axioms Aligator.CSets.C35_product
#print axioms Aligator.CSets.C35_projections
#print axioms Aligator.CSets.C35_swapped_limits
#print axioms Aligator.CSets.C36_complement
#print axioms Aligator.CSets.C36_moreau_envelope
#print axioms Aligator.CSets.C36_parameter
#print axioms Aligator.CSets.C36_product_of_penalties
#print axioms Aligator.CSets.C36_product_parameter_ignored
#print axioms Aligator.CSets.C36_product_parameter_negation
#print axioms Aligator.CSets.C36_prox
#print axioms Aligator.CSets.C36_unset_in_solver
#print axioms Aligator.CSets.C36_unset_parameter
#print axioms Aligator.CSets.C36_weight_in_solver
#print axioms Aligator.CSets.C37_default_l1_misflagged
#print axioms Aligator.CSets.C37_degenerate_box_misflagged
#print axioms Aligator.CSets.C37_differentiable
#print axioms Aligator.CSets.C37_flags_and_rows_partial
#print axioms Aligator.CSets.C37_projection_rows_partial
#print axioms Aligator.CSets.C37_split
#print axioms Aligator.CSets.C38_blockwise
#print axioms Aligator.CSets.C38_constructor
#print axioms Aligator.CSets.C38_longer_vectors
#print axioms Aligator.CSets.C38_product_methods
#print axioms Aligator.Centroidal.C52_angular_acceleration
#print axioms Aligator.Centroidal.C52_angular_momentum_partial
#print axioms Aligator.Centroidal.C52_angular_momentum_wrong
#print axioms Aligator.Centroidal.C52_centroidal_acceleration
#print axioms Aligator.Centroidal.C52_centroidal_dynamics
#print axioms Aligator.Centroidal.C52_com
#print axioms Aligator.Centroidal.C52_continuous_centroidal_dynamics
#print axioms Aligator.Centroidal.C52_friction_cone
#print axioms Aligator.Centroidal.C52_friction_cone_set
#print axioms Aligator.Centroidal.C52_linear_momentum
#print axioms Aligator.Centroidal.C52_pendulum
#print axioms Aligator.Centroidal.C52_wrapper
#print axioms Aligator.Centroidal.C52_wrench_cone
#print axioms Aligator.Costs.C41_collision_drops
#print axioms Aligator.Costs.C41_collision_drops_all
#print axioms Aligator.Costs.C41_constructor
#print axioms Aligator.Costs.C41_old_data_is_undefined
#print axioms Aligator.Costs.C41_scale
#print axioms Aligator.Costs.C41_single_cost
#print axioms Aligator.Costs.C41_string_keys_are_fresh
#print axioms Aligator.Costs.C41_sum_of_components
#print axioms Aligator.Costs.C41_weighted_sum_partial
#print axioms Aligator.Costs.C41_weights
#print axioms Aligator.Croc.C65_constraint_negation
#print axioms Aligator.Croc.C65_constraints_ignored
#print axioms Aligator.Croc.C65_convert
#print axioms Aligator.Croc.C65_cost_model_negation
#print axioms Aligator.Croc.C65_dynamics_negation
#print axioms Aligator.Croc.C65_empty
#print axioms Aligator.Croc.C65_lower_block_zero
#print axioms Aligator.Croc.C65_stage
#print axioms Aligator.Croc.C65_state
#print axioms Aligator.Croc.C65_terminal
#print axioms Aligator.Cycle.C29_default_shape
#print axioms Aligator.Cycle.C29_forced_initial_state_kept
#print axioms Aligator.Cycle.C29_guess_honoured_partial
#print axioms Aligator.Cycle.C29_multiplier_guess_partially_used
#print axioms Aligator.Cycle.C29_partial_write_before_throw
#print axioms Aligator.Cycle.C29_state_guess_ignored
#print axioms Aligator.Cycle.C29_wrong_warm_start_not_corrected
#print axioms Aligator.Cycle.C30_empty_problem
#print axioms Aligator.Cycle.C30_integrity_iff
#print axioms Aligator.Cycle.C30_integrity_preserved
#print axioms Aligator.Cycle.C30_replace_stage
#print axioms Aligator.Cycle.C30_results_created_iff
#print axioms Aligator.Cycle.C30_sequence
#print axioms Aligator.Cycle.C30_stale_flag_fails
#print axioms Aligator.Cycle.C31_created_results_fit
#print axioms Aligator.Cycle.C31_created_solvers
#print axioms Aligator.Cycle.C31_dense_solver
#print axioms Aligator.Cycle.C31_horizon_one_undefined
#print axioms Aligator.Cycle.C31_many_shifts_partial
#print axioms Aligator.Cycle.C31_new_control_dimension_breaks
#print axioms Aligator.Cycle.C31_parallel_solver
#print axioms Aligator.Cycle.C31_results_dims_partial
#print axioms Aligator.Cycle.C31_results_shift
#print axioms Aligator.Cycle.C31_serial_solver
#print axioms Aligator.Cycle.C31_workspace_dims_partial
#print axioms Aligator.Cycle.C31_workspace_many_partial
#print axioms Aligator.Cycle.C31_workspace_other_dims
#print axioms Aligator.Cycle.C31_workspace_steps
#print axioms Aligator.DataObj.C83_copy_shares
#print axioms Aligator.DataObj.C83_data_objects_are_values
#print axioms Aligator.DataObj.C83_same_stage_data_twice
#print axioms Aligator.DataObj.C83_shift_iff
#print axioms Aligator.DenseMem.C84_dense_backward_refines
#print axioms Aligator.DenseMem.C84_dense_history_independent
#print axioms Aligator.DenseMem.C84_dense_reused_solver_solves
#print axioms Aligator.EvalData.C85_copy_dangles
#print axioms Aligator.EvalData.C85_copy_shares_blocks
#print axioms Aligator.EvalData.C85_names_cover
#print axioms Aligator.EvalData.C85_names_disjoint
#print axioms Aligator.EvalData.C85_value_semantics
#print axioms Aligator.FDDP.C20_NaN_run_reports_convergence
#print axioms Aligator.FDDP.C20_converges_while_infeasible
#print axioms Aligator.FDDP.C20_initial_regularisation_not_clamped
#print axioms Aligator.FDDP.C20_iteration_bound
#print axioms Aligator.FDDP.C20_regularisation_bounds_partial
#print axioms Aligator.FDDP.C20_true_reasons_partial
#print axioms Aligator.FDDP.C59_converged_not_stationary
#print axioms Aligator.FDDP.C59_converged_partial
#print axioms Aligator.FDDP.C59_convex_posDef
#print axioms Aligator.FDDP.C59_full_step_feasible
#print axioms Aligator.FDDP.C59_gains_optimal
#print axioms Aligator.FDDP.C59_gaps_along_run
#print axioms Aligator.FDDP.C59_gaps_contract
#print axioms Aligator.FDDP.C59_lq_run
#print axioms Aligator.FDDP.C59_lq_step
#print axioms Aligator.FDDP.C59_lq_two_iterations
#print axioms Aligator.FDDP.C59_prediction_error
#print axioms Aligator.FDDP.C59_prediction_exact_partial
#print axioms Aligator.FDDP.C59_prediction_wrong
#print axioms Aligator.FDDP.C59_reported_cost_partial
#print axioms Aligator.FDDP.C59_reported_cost_wrong
#print axioms Aligator.FDDP.C59_slope
#print axioms Aligator.FMem.C72_backward_stage_reads
#print axioms Aligator.FMem.C72_cycleAppend_iff
#print axioms Aligator.FMem.C72_cycleAppend_varying
#print axioms Aligator.FMem.C72_cycleLeft_iff
#print axioms Aligator.FMem.C72_defined_iteration_in_bounds
#print axioms Aligator.FMem.C72_forward_stage_reads
#print axioms Aligator.FMem.C72_improvement_reads
#print axioms Aligator.FMem.C72_infeasibility_reads
#print axioms Aligator.FMem.C72_needs_uniform_states
#print axioms Aligator.FMem.C72_runs_in_its_memory
#print axioms Aligator.FMem.C72_setup_accepts_more
#print axioms Aligator.FReuse.C20_C69_fddp_failed_rollouts
#print axioms Aligator.FReuse.C20_C69_fddp_run_is_loop
#print axioms Aligator.FReuse.C20_fddp_failed_rollouts_after_setup
#print axioms Aligator.FReuse.C20_fddp_used_solver_partial
#print axioms Aligator.FReuse.C21_search_with_buffers
#print axioms Aligator.FReuse.C69_fddp_flag_depends_on_history
#print axioms Aligator.FReuse.C69_fddp_partial
#print axioms Aligator.Filter.C25_accept_with_margin
#print axioms Aligator.Filter.C25_filter_antichain
#print axioms Aligator.Filter.C25_filter_covers
#print axioms Aligator.Filter.C25_filter_is_pareto_front
#print axioms Aligator.Filter.C25_filter_rejects_iff
#print axioms Aligator.Filter.C25_positive_margin_breaks_antichain
#print axioms Aligator.Filter.C25_reset_forgets
#print axioms Aligator.Filter.C25_run_ok
#print axioms Aligator.Filter.C25_throwing_merit_poisons_filter
#print axioms Aligator.FiniteDiff.C45_affine
#print axioms Aligator.FiniteDiff.C45_cost
#print axioms Aligator.FiniteDiff.C45_create
#print axioms Aligator.FiniteDiff.C45_limit
#print axioms Aligator.FiniteDiff.C45_quotients
#print axioms Aligator.FiniteDiff.C45_quotients_partial
#print axioms Aligator.FiniteDiff.C45_restored
#print axioms Aligator.FiniteDiff.C45_stale
#print axioms Aligator.FiniteDiff.C45_value
#print axioms Aligator.Gains.C68_converged_guess_leaves_gains
#print axioms Aligator.Gains.C68_dense_gains_size_mismatch
#print axioms Aligator.Gains.C68_dense_gains_unchecked_partial
#print axioms Aligator.Gains.C68_feedbacks_zero_before_first_solve
#print axioms Aligator.Gains.C68_parallel_gains_partial
#print axioms Aligator.Gains.C68_parallel_gains_wrong
#print axioms Aligator.Gains.C68_serial_gains
#print axioms Aligator.Gains.C68_serial_gains_of_last_subproblem
#print axioms Aligator.Gar.C01_C02_with_BunchKaufman
#print axioms Aligator.Gar.C01_forward_solves_KKT
#print axioms Aligator.Gar.C01_forward_solves_KKT_nonparametric
#print axioms Aligator.Gar.C02_KKT_solution_unique
#print axioms Aligator.Gar.C03_backward_succeeds_on_convex
#print axioms Aligator.Gar.C03_convex_global_minimum
#print axioms Aligator.Gar.C03_with_BunchKaufman
#print axioms Aligator.Gar.C04_control_is_affine_feedback
#print axioms Aligator.Gar.C04_cost_to_go
#print axioms Aligator.Gar.C04_gains_are_optimal_policy
#print axioms Aligator.Gar.C04_gains_solve_every_tail
#print axioms Aligator.Gar.C05_Gv_breaks_parametric_solution
#print axioms Aligator.Gar.C05_parameter_gradient_partial
#print axioms Aligator.Gar.C05_parametric_value_partial
#print axioms Aligator.Gar.C08_legs_are_the_problem
#print axioms Aligator.Gar.C08_parallel_equals_serial
#print axioms Aligator.Gar.C08_parallel_fails_where_serial_succeeds
#print axioms Aligator.Gar.C08_parallel_solves_whole_KKT
#print axioms Aligator.Gar.C08_parallel_succeeds_on_strictly_convex
#print axioms Aligator.Gar.C08_with_BunchKaufman
#print axioms Aligator.Gar.C09_balanced
#print axioms Aligator.Gar.C09_no_overflow
#print axioms Aligator.Gar.C09_nonempty_iff
#print axioms Aligator.Gar.C09_overflow_breaks_partition
#print axioms Aligator.Gar.C09_partition
#print axioms Aligator.Gar.C09_ranges_chain
#print axioms Aligator.Gar.C11_invertible_not_sufficient
#print axioms Aligator.Gar.C11_length_check
#print axioms Aligator.Gar.C11_matmul
#print axioms Aligator.Gar.C11_refinement_step_exact
#print axioms Aligator.Gar.C11_solve_down_exact
#print axioms Aligator.Gar.C11_solve_exact
#print axioms Aligator.Gar.C11_solve_succeeds_iff
#print axioms Aligator.Gar.C11_untyped_call
#print axioms Aligator.Gar.C11_with_BunchKaufman
#print axioms Aligator.Gar.C12_refinement_keeps_solution_partial
#print axioms Aligator.Gar.C12_single_step_destroys_solution
#print axioms Aligator.Gar.C13_collapseFeedback_wrong
#print axioms Aligator.Gar.C13_collapse_with_U_factor_is_serial_gain_partial
#print axioms Aligator.Gar.C15_concat_of_split
#print axioms Aligator.Gar.C15_error_ignores_Gv
#print axioms Aligator.Gar.C15_evaluate_omits_terminal_control
#print axioms Aligator.Gar.C15_evaluate_partial
#print axioms Aligator.Gar.C15_kkt_error_is_violation
#print axioms Aligator.Gar.C15_kkt_error_zero_iff_KKT
#print axioms Aligator.Gar.C15_row_count
#print axioms Aligator.Gar.C15_solver_output_has_zero_error
#print axioms Aligator.Gar.C15_sparse_system_horizon_zero_partial
#print axioms Aligator.Gar.C15_sparse_system_partial
#print axioms Aligator.Gar.C15_sparse_system_wrong_sign
#print axioms Aligator.Gar.C15_split_of_concat
#print axioms Aligator.Gar.Dense.C06_KKT_solution_unique
#print axioms Aligator.Gar.Dense.C06_forward_solves_KKT
#print axioms Aligator.Gar.Dense.C06_same_solution_as_serial
#print axioms Aligator.Gar.Dense.C06_succeeds_iff_serial_succeeds
#print axioms Aligator.Gar.Dense.C06_terminal_with_next_state_never_factors
#print axioms Aligator.Gar.Dense.C07_gradient_up_to_later_terms_partial
#print axioms Aligator.Gar.Dense.C07_parameter_at_first_knot_partial
#print axioms Aligator.Gar.Dense.C07_terminal_terms_missing
#print axioms Aligator.Gar.Dense.C07_wrong_gradient
#print axioms Aligator.GarMem.C84_backward_refines
#print axioms Aligator.GarMem.C84_exception_keeps_initial_stage
#print axioms Aligator.GarMem.C84_forward_after_exception
#print axioms Aligator.GarMem.C84_history_independent
#print axioms Aligator.GarMem.C84_reused_solver_solves
#print axioms Aligator.Integ.C44_euler
#print axioms Aligator.Integ.C44_histories
#print axioms Aligator.Integ.C44_linear_ode
#print axioms Aligator.Integ.C44_midpoint_partial
#print axioms Aligator.Integ.C44_midpoint_stale
#print axioms Aligator.Integ.C44_midpoint_value
#print axioms Aligator.Integ.C44_ode_as_dae
#print axioms Aligator.Integ.C44_rk2_partial
#print axioms Aligator.Integ.C44_rk2_stale
#print axioms Aligator.Integ.C44_semi_euler
#print axioms Aligator.InvDyn.C66_balance_partial
#print axioms Aligator.InvDyn.C66_cannot_hold
#print axioms Aligator.InvDyn.C66_size
#print axioms Aligator.InvDyn.C66_static_partial
#print axioms Aligator.InvDyn.C66_uninitialised
#print axioms Aligator.LQ.C54_forced_initial_condition
#print axioms Aligator.LQ.C54_linear_solver_returns_newton_step
#print axioms Aligator.LQ.C54_residuals_at_zero_step
#print axioms Aligator.LQ.C54_subproblem_is_newton
#print axioms Aligator.LQ.C54_subproblem_is_semismooth_newton
#print axioms Aligator.LQ.C54_zero_step_iff_stationary
#print axioms Aligator.Lag.C27_lagrangian_gradient
#print axioms Aligator.Lag.C27_without_multipliers
#print axioms Aligator.Lag.C28_directional_derivative_partial
#print axioms Aligator.Lag.C28_dual_direction_ignored
#print axioms Aligator.Lag.C28_merit_derivative
#print axioms Aligator.Linesearch.C21_accepted_pair_is_consistent_partial
#print axioms Aligator.Linesearch.C21_exhausted_search_returns_unevaluated_step
#print axioms Aligator.Linesearch.C21_terminates
#print axioms Aligator.Linesearch.C21_throwing_merit_goes_below_alphaMin
#print axioms Aligator.Linesearch.C22_C19_armijo_terminates
#print axioms Aligator.Linesearch.C22_NaN_at_full_step_returns_wrong_value
#print axioms Aligator.Linesearch.C22_accepts_a_step_that_threw
#print axioms Aligator.Linesearch.C22_cubic_fallback_returns_wrong_value
#print axioms Aligator.Linesearch.C22_finite_merit_partial
#print axioms Aligator.Linesearch.C22_interpolated_step_within_bounds
#print axioms Aligator.Linesearch.C22_last_trial_partial
#print axioms Aligator.Linesearch.C22_merit_arithmetic
#print axioms Aligator.Linesearch.C22_merit_comparisons
#print axioms Aligator.Linesearch.C22_merit_root
#print axioms Aligator.Linesearch.C22_step_at_least_alphaMin
#print axioms Aligator.Linesearch.C22_throwing_merit_returns_zero
#print axioms Aligator.Linesearch.C22_value_is_some_trial_partial
#print axioms Aligator.Linesearch.C23_cubic_interpolates_iff_partial
#print axioms Aligator.Linesearch.C23_cubic_misses_samples
#print axioms Aligator.Linesearch.C23_cubic_step_is_stationary
#print axioms Aligator.Linesearch.C23_derivative_is_the_derivative
#print axioms Aligator.Linesearch.C23_evaluate_is_the_polynomial
#print axioms Aligator.Linesearch.C23_quadratic_is_the_interpolant
#print axioms Aligator.Linesearch.C23_quadratic_step_minimises
#print axioms Aligator.Linesearch.C24_C19_nonmonotone_terminates
#print axioms Aligator.Linesearch.C24_reference_between_min_and_max
#print axioms Aligator.Linesearch.C24_reference_is_weighted_mean
#print axioms Aligator.Linesearch.C24_result
#print axioms Aligator.Linesearch.C24_state_after_run
#print axioms Aligator.Link.C24_last_trial_is_the_step
#print axioms Aligator.Link.C56_approximate_KKT_partial
#print axioms Aligator.Link.C56_converged_not_optimal
#print axioms Aligator.Link.C56_converged_partial
#print axioms Aligator.Link.C56_equality_constrained_KKT
#print axioms Aligator.Link.C56_primal_dual_multipliers_bounded
#print axioms Aligator.Link.C76_feasible_guess_descent
#print axioms Aligator.Link.C76_feasible_guess_run_partial
#print axioms Aligator.Link.C76_feasible_guess_step_length
#print axioms Aligator.Link.C76_feasible_guess_test
#print axioms Aligator.Link.C76_full_step
#print axioms Aligator.Link.C76_full_step_rejected
#print axioms Aligator.Link.C76_good_guess_short_steps
#print axioms Aligator.Link.C76_good_guess_witness
#print axioms Aligator.Link.C76_last_defect_stalls
#print axioms Aligator.Link.C76_merit_of_full_step
#print axioms Aligator.Link.C76_near_optimal
#print axioms Aligator.Link.C76_one_iteration_partial
#print axioms Aligator.Link.C76_optimal_start_stalls
#print axioms Aligator.Link.C77_closer
#print axioms Aligator.Link.C77_contraction
#print axioms Aligator.Link.C77_contraction_unique
#print axioms Aligator.Link.C77_energy
#print axioms Aligator.Link.C77_error_bound
#print axioms Aligator.Link.C77_feasible_descent
#print axioms Aligator.Link.C77_feasible_test
#print axioms Aligator.Link.C77_full_step
#print axioms Aligator.Link.C77_full_step_iff
#print axioms Aligator.Link.C77_merit_of_full_step
#print axioms Aligator.Link.C77_run_converges_partial
#print axioms Aligator.Link.C78_closer
#print axioms Aligator.Link.C78_energy
#print axioms Aligator.Link.C78_full_step
#print axioms Aligator.Link.C78_inner
#print axioms Aligator.Link.C78_multiplier_update
#print axioms Aligator.Link.C78_rate
#print axioms Aligator.Link.C78_reported
#print axioms Aligator.Link.C78_same_side
#print axioms Aligator.Link.C78_side_change
#print axioms Aligator.Link.C79_closer
#print axioms Aligator.Link.C79_contraction
#print axioms Aligator.Link.C79_contraction_unique
#print axioms Aligator.Link.C79_error_bound
#print axioms Aligator.Link.C79_run_converges_partial
#print axioms Aligator.Link.C79_told
#print axioms Aligator.Log.C73_borrowed_name_undefined
#print axioms Aligator.Log.C73_fddp_columns_pile_up
#print axioms Aligator.Log.C73_fddp_first_run_partial
#print axioms Aligator.Log.C73_fddp_second_run_undefined
#print axioms Aligator.Log.C73_prints_the_table
#print axioms Aligator.Log.C73_prox_prints_iterations
#print axioms Aligator.LqrObj.C70_add_parameterization
#print axioms Aligator.LqrObj.C70_allocator_assertions_hold
#print axioms Aligator.LqrObj.C70_allocator_check_iff
#print axioms Aligator.LqrObj.C70_assign_knot
#print axioms Aligator.LqrObj.C70_copy_ignores_allocator
#print axioms Aligator.LqrObj.C70_copy_knot
#print axioms Aligator.LqrObj.C70_copy_problem
#print axioms Aligator.LqrObj.C70_default_knot_dims
#print axioms Aligator.LqrObj.C70_default_shapes
#print axioms Aligator.LqrObj.C70_initial_constraint_uninitialised
#print axioms Aligator.LqrObj.C70_isApprox_iff
#print axioms Aligator.LqrObj.C70_isApprox_not_transitive
#print axioms Aligator.LqrObj.C70_isApprox_refl_symm
#print axioms Aligator.LqrObj.C70_isApprox_zero_block
#print axioms Aligator.LqrObj.C70_move_assign_copies
#print axioms Aligator.LqrObj.C70_move_assign_problem
#print axioms Aligator.LqrObj.C70_move_knot
#print axioms Aligator.LqrObj.C70_move_knot_to
#print axioms Aligator.LqrObj.C70_move_problem
#print axioms Aligator.LqrObj.C70_moved_from
#print axioms Aligator.LqrObj.C70_moved_from_initial_constraint
#print axioms Aligator.LqrObj.C70_new_knot
#print axioms Aligator.LqrObj.C70_problem_add_parameterization
#print axioms Aligator.LqrObj.C70_problem_isApprox_empty
#print axioms Aligator.LqrObj.C70_problem_isApprox_horizons
#print axioms Aligator.LqrObj.C70_problem_isApprox_iff
#print axioms Aligator.LqrObj.C70_problem_isApprox_ignores_terminal
#print axioms Aligator.LqrObj.C70_problem_isApprox_sizes
#print axioms Aligator.LqrObj.C70_problem_isApprox_wrong
#print axioms Aligator.LqrObj.C70_problem_of_knots
#print axioms Aligator.LqrObj.C70_problem_of_moved_knots
#print axioms Aligator.LqrObj.C70_problem_queries
#print axioms Aligator.LqrObj.C70_short_constructors
#print axioms Aligator.MB.C60_centroidal_momentum_partial
#print axioms Aligator.MB.C60_centroidal_momentum_wide_negation
#print axioms Aligator.MB.C60_com_translation
#print axioms Aligator.MB.C60_com_velocity_partial
#print axioms Aligator.MB.C60_com_velocity_wide_negation
#print axioms Aligator.MB.C60_dcm_position_partial
#print axioms Aligator.MB.C60_dcm_position_wide_negation
#print axioms Aligator.MB.C60_fly_high_partial
#print axioms Aligator.MB.C60_frame_collision
#print axioms Aligator.MB.C60_frame_equality
#print axioms Aligator.MB.C60_frame_equality_zero
#print axioms Aligator.MB.C60_frame_placement
#print axioms Aligator.MB.C60_frame_translation
#print axioms Aligator.MB.C60_frame_translation_change_negation
#print axioms Aligator.MB.C60_frame_translation_point_negation
#print axioms Aligator.MB.C60_frame_velocity_change_negation
#print axioms Aligator.MB.C60_frame_velocity_ctor
#print axioms Aligator.MB.C60_frame_velocity_partial
#print axioms Aligator.MB.C60_frame_velocity_wide_negation
#print axioms Aligator.MB.C60_gravity_compensation_iff_partial
#print axioms Aligator.MB.C60_momentum_rate
#print axioms Aligator.MB.C60_relative_placement
#print axioms Aligator.MB.C61_contact_force_partial
#print axioms Aligator.MB.C61_contact_lookup
#print axioms Aligator.MB.C61_friction_cone_nan
#print axioms Aligator.MB.C61_friction_cone_partial
#print axioms Aligator.MB.C61_friction_cone_set_partial
#print axioms Aligator.MB.C61_mixed_sizes_negation
#print axioms Aligator.MB.C61_out_of_range
#print axioms Aligator.MB.C61_settings_negation
#print axioms Aligator.MB.C61_wrench_cone_partial
#print axioms Aligator.MB.C62_actuation
#print axioms Aligator.MB.C62_constraint
#print axioms Aligator.MB.C62_free
#print axioms Aligator.MB.C62_kinodynamics
#print axioms Aligator.MB.C62_underactuated
#print axioms Aligator.MInteg.C44_manifold_bundle
#print axioms Aligator.MInteg.C44_manifold_euler_partial
#print axioms Aligator.MInteg.C44_manifold_euler_stale
#print axioms Aligator.MInteg.C44_manifold_midpoint_curved
#print axioms Aligator.MInteg.C44_manifold_midpoint_iff
#print axioms Aligator.MInteg.C44_manifold_midpoint_partial
#print axioms Aligator.MInteg.C44_manifold_rk2_base_point
#print axioms Aligator.MInteg.C44_manifold_rk2_partial
#print axioms Aligator.MInteg.C44_manifold_semi_euler_partial
#print axioms Aligator.Malloc.C80_fddp_trial
#print axioms Aligator.Malloc.C80_fddp_turn
#print axioms Aligator.Malloc.C80_flat_programs_as_intended
#print axioms Aligator.Malloc.C80_nested_zone_forbids
#print axioms Aligator.Malloc.C80_parallel_solver_forbids
#print axioms Aligator.Malloc.C80_passes
#print axioms Aligator.Malloc.C80_proxddp_restores
#print axioms Aligator.Malloc.C80_quadratic_hessian
#print axioms Aligator.Malloc.C80_restores_iff
#print axioms Aligator.Mani.C39_Jdifference
#print axioms Aligator.Mani.C39_Jintegrate
#print axioms Aligator.Mani.C39_bundle_interpolation
#print axioms Aligator.Mani.C39_bundle_jacobians
#print axioms Aligator.Mani.C39_bundle_transport
#print axioms Aligator.Mani.C39_group_jacobians
#print axioms Aligator.Mani.C39_jacobians_ignore_memory
#print axioms Aligator.Mani.C39_left_factor_goes_right
#print axioms Aligator.Mani.C39_neutral
#print axioms Aligator.Mani.C39_neutral_bundle
#print axioms Aligator.Mani.C39_parts
#print axioms Aligator.Mani.C39_product
#print axioms Aligator.Mani.C39_product_built
#print axioms Aligator.Mani.C39_split_merge
#print axioms Aligator.Mani.C39_tangent_bundle_partial
#print axioms Aligator.Mani.C39_transport
#print axioms Aligator.Mani.C39_vector_space
#print axioms Aligator.Mani.C39_vector_space_jacobians
#print axioms Aligator.Mani.C39_wrong_argument_refused
#print axioms Aligator.Mani.C39_wrong_argument_unnoticed
#print axioms Aligator.Mani.C40_accepts_everything
#print axioms Aligator.Mani.C40_complete_partial
#print axioms Aligator.Mani.C40_tangent_bundle
#print axioms Aligator.Mani.C40_witness
#print axioms Aligator.NLRoll.C58_affine_agrees_with_linear_step
#print axioms Aligator.NLRoll.C58_first_order
#print axioms Aligator.NLRoll.C58_history_independent
#print axioms Aligator.NLRoll.C58_initial_residual_stale
#print axioms Aligator.NLRoll.C58_initial_state_overshoots
#print axioms Aligator.NLRoll.C58_initial_step_unscaled
#print axioms Aligator.NLRoll.C58_inner_loop_cannot_converge
#print axioms Aligator.NLRoll.C58_merit_slope
#print axioms Aligator.NLRoll.C58_merit_values
#print axioms Aligator.NLRoll.C58_no_defects
#print axioms Aligator.NLRoll.C58_run_converged_free_partial
#print axioms Aligator.NLRoll.C58_run_converged_partial
#print axioms Aligator.NLRoll.C58_run_converged_violates_initial_condition
#print axioms Aligator.NLRoll.C58_run_false_reasons
#print axioms Aligator.NLRoll.C58_solver_directions_follow
#print axioms Aligator.NLRoll.C58_trial_satisfies_dynamics
#print axioms Aligator.NLRoll.C58_zero_step
#print axioms Aligator.PData.C57_affine_problems
#print axioms Aligator.PData.C57_exact_iff_no_curvature_partial
#print axioms Aligator.PData.C57_exact_is_gauss_newton
#print axioms Aligator.PData.C57_no_callbacks_are_exact
#print axioms Aligator.PData.C57_rollout_keeps_initial
#print axioms Aligator.PData.C57_unwritten_constraint
#print axioms Aligator.PData.C57_unwritten_cost
#print axioms Aligator.PData.C57_unwritten_dynamics
#print axioms Aligator.PData.C57_unwritten_terminal_constraint
#print axioms Aligator.PData.C57_unwritten_terminal_cost
#print axioms Aligator.PMem.C74_backward_reads
#print axioms Aligator.PMem.C74_controller_partial
#print axioms Aligator.PMem.C74_criterion_reads
#print axioms Aligator.PMem.C74_empty_horizon
#print axioms Aligator.PMem.C74_evaluation_reads
#print axioms Aligator.PMem.C74_forced_needs_initial_state
#print axioms Aligator.PMem.C74_forward_reads
#print axioms Aligator.PMem.C74_gains_reads
#print axioms Aligator.PMem.C74_lagrangian_reads
#print axioms Aligator.PMem.C74_linear_step_reads
#print axioms Aligator.PMem.C74_multipliers_read
#print axioms Aligator.PMem.C74_other_control_size_undefined
#print axioms Aligator.PMem.C74_other_problems_undefined
#print axioms Aligator.PMem.C74_projection_reads
#print axioms Aligator.PMem.C74_rollout_reads
#print axioms Aligator.PMem.C74_runs_exactly_in_uniform_tangent_spaces
#print axioms Aligator.PMem.C74_setup_accepts
#print axioms Aligator.PMem.C74_setup_accepts_other_sizes
#print axioms Aligator.PMem.C74_shift_horizon_one_undefined
#print axioms Aligator.PMem.C74_slope_reads
#print axioms Aligator.PObj.C81_integrity_valueless
#print axioms Aligator.PObj.C81_multipliers
#print axioms Aligator.PObj.C81_multipliers_kept
#print axioms Aligator.PObj.C81_problems_are_values
#print axioms Aligator.PObj.C81_replaced_by_other
#print axioms Aligator.PObj.C81_replaced_by_state
#print axioms Aligator.PObj.C81_setInit_any
#print axioms Aligator.PObj.C81_terminal_control_stale
#print axioms Aligator.PObj.C81_view_dangles
#print axioms Aligator.PObj.C81_view_follows
#print axioms Aligator.ParMem.C84_parallel_backward_refines
#print axioms Aligator.ParMem.C84_parallel_history_independent
#print axioms Aligator.ParMem.C84_parallel_knots_current
#print axioms Aligator.ParMem.C84_parallel_reused_solver_solves
#print axioms Aligator.Poly.C67_add_constraint
#print axioms Aligator.Poly.C67_add_constraint_throws
#print axioms Aligator.Poly.C67_add_own_function
#print axioms Aligator.Poly.C67_add_own_stage
#print axioms Aligator.Poly.C67_copy
#print axioms Aligator.Poly.C67_exception
#print axioms Aligator.Poly.C67_independent
#print axioms Aligator.Poly.C67_move
#print axioms Aligator.Poly.C67_ownership
#print axioms Aligator.Poly.C67_refines
#print axioms Aligator.Poly.C67_stage_is_copied
#print axioms Aligator.Poly.C67_take_own_member
#print axioms Aligator.Poly.C67_total
#print axioms Aligator.Prob.C10_created_data_is_private
#print axioms Aligator.Prob.C10_derivatives_schedule_independent
#print axioms Aligator.Prob.C10_evaluate_schedule_independent
#print axioms Aligator.Prob.C10_shared_data_depends_on_schedule
#print axioms Aligator.Prob.C32_cost_is_the_sum
#print axioms Aligator.Prob.C32_derivatives_at_own_point
#print axioms Aligator.Prob.C32_derivatives_reject_wrong_sizes
#print axioms Aligator.Prob.C32_each_stage_at_its_own_point
#print axioms Aligator.Prob.C32_longer_data_adds_stale_costs
#print axioms Aligator.Prob.C32_rejects_wrong_sizes
#print axioms Aligator.Prob.C32_shorter_data_is_undefined
#print axioms Aligator.ProxDDP.C16_NaN_run_reports_convergence
#print axioms Aligator.ProxDDP.C16_false_reasons
#print axioms Aligator.ProxDDP.C16_iteration_limits
#print axioms Aligator.ProxDDP.C16_primal_infeasibility_of_result_partial
#print axioms Aligator.ProxDDP.C16_true_only_at_tolerances
#print axioms Aligator.ProxDDP.C16_violation_within_tolerance_partial
#print axioms Aligator.ProxDDP.C17_no_late_rejection
#print axioms Aligator.ProxDDP.C18_parameter_bounds
#print axioms Aligator.ProxDDP.C19_rounded_run_exact
#print axioms Aligator.ProxDDP.C19_rounded_run_hangs
#print axioms Aligator.ProxDDP.C19_rounded_run_terminates
#print axioms Aligator.ProxDDP.C19_run_terminates_partial
#print axioms Aligator.ProxDDP.C19_zero_criterion_hangs
#print axioms Aligator.ProxDDP.C55_primal_tolerance_on_schedule
#print axioms Aligator.ProxDDP.C55_step
#print axioms Aligator.PyObj.C75_deepcopy_loses
#print axioms Aligator.PyObj.C75_deleted_returns
#print axioms Aligator.PyObj.C75_leak_witness
#print axioms Aligator.PyObj.C75_left_over
#print axioms Aligator.PyObj.C75_no_leak
#print axioms Aligator.PyObj.C75_raise
#print axioms Aligator.PyObj.C75_read_leaks
#print axioms Aligator.PyObj.C75_refines
#print axioms Aligator.PyObj.C75_replaced_dangles
#print axioms Aligator.PyObj.C75_safe
#print axioms Aligator.PyObj.C75_stale_ub
#print axioms Aligator.PyObj.C75_ub
#print axioms Aligator.PyObj.C75_unstorable
#print axioms Aligator.PyObj.C75_values_partial
#print axioms Aligator.PyView.C87_arrays
#print axioms Aligator.PyView.C87_block_col
#print axioms Aligator.PyView.C87_block_col_partial
#print axioms Aligator.PyView.C87_block_col_wrong
#print axioms Aligator.PyView.C87_block_row
#print axioms Aligator.PyView.C87_call
#print axioms Aligator.PyView.C87_elements
#print axioms Aligator.PyView.C87_named_owner
#print axioms Aligator.PyView.C87_released
#print axioms Aligator.PyView.C87_tied_arrays
#print axioms Aligator.PyView.C87_untied_array
#print axioms Aligator.QCosts.C42_exact_mode_wrong
#print axioms Aligator.QCosts.C42_quad_fresh_data
#print axioms Aligator.QCosts.C42_quad_gradient_iff
#print axioms Aligator.QCosts.C42_quad_gradient_partial
#print axioms Aligator.QCosts.C42_quad_hessian_partial
#print axioms Aligator.QCosts.C42_quad_stale
#print axioms Aligator.QCosts.C42_quad_states
#print axioms Aligator.QCosts.C42_quad_value
#print axioms Aligator.QCosts.C42_residual_gradient_partial
#print axioms Aligator.QCosts.C42_residual_hessian_partial
#print axioms Aligator.QCosts.C42_residual_hessian_split
#print axioms Aligator.QCosts.C42_residual_stale
#print axioms Aligator.QCosts.C42_residual_value
#print axioms Aligator.QCosts.C43_constructors
#print axioms Aligator.QCosts.C43_log_gradient
#print axioms Aligator.QCosts.C43_log_hessian_negated
#print axioms Aligator.QCosts.C43_log_value
#print axioms Aligator.QCosts.C43_relaxed_gradient
#print axioms Aligator.QCosts.C43_relaxed_hessian_partial
#print axioms Aligator.QCosts.C43_relaxed_hessian_value
#print axioms Aligator.QCosts.C43_relaxed_hessian_wrong
#print axioms Aligator.QCosts.C43_relaxed_smooth
#print axioms Aligator.QView.C71_block
#print axioms Aligator.QView.C71_cost_data_copy_dangles
#print axioms Aligator.QView.C71_cost_data_copy_shares_blocks
#print axioms Aligator.QView.C71_rotation
#print axioms Aligator.QView.C71_total_size
#print axioms Aligator.QView.C71_value_semantics
#print axioms Aligator.Reg.C51_constructor
#print axioms Aligator.Reg.C51_contact_map_partial
#print axioms Aligator.Reg.C51_exceptions
#print axioms Aligator.Reg.C51_names_unchecked
#print axioms Aligator.Reg.C51_remove_unchecked
#print axioms Aligator.Reg.C53_callbacks
#print axioms Aligator.Reg.C53_history
#print axioms Aligator.Reg.C53_history_grows_by_one
#print axioms Aligator.Reg.C53_invoked_once
#print axioms Aligator.Reg.C53_order_irrelevant
#print axioms Aligator.Reuse.C16_C69_run_is_loop
#print axioms Aligator.Reuse.C16_dual_tolerance_settings
#print axioms Aligator.Reuse.C16_requested_tolerances_partial
#print axioms Aligator.Reuse.C16_used_solver_partial
#print axioms Aligator.Reuse.C69_after_setup_partial
#print axioms Aligator.Reuse.C69_alpha_min_lowered_after_setup
#print axioms Aligator.Reuse.C69_armijo
#print axioms Aligator.Reuse.C69_calls_are_evaluations
#print axioms Aligator.Reuse.C69_filter_never_forgets
#print axioms Aligator.Reuse.C69_filter_rerun_differs
#print axioms Aligator.Reuse.C69_filter_rerun_step
#print axioms Aligator.Reuse.C69_given_multipliers
#print axioms Aligator.Reuse.C69_nonmonotone_partial
#print axioms Aligator.Reuse.C69_strategy_change_ignored
#print axioms Aligator.Reuse.C69_switch_from_filter_raises
#print axioms Aligator.Reuse.Witness.C69_alpha_min_example
#print axioms Aligator.Reuse.Witness.C69_filter_rerun_fails
#print axioms Aligator.Reuse.Witness.C69_nan_guess_reports_stale_values
#print axioms Aligator.Reuse.Witness.C69_nonmonotone_stale_average
#print axioms Aligator.Reuse.Witness.C69_omitted_multipliers_are_stale
#print axioms Aligator.Reuse.Witness.C69_throwing_returns_stale_trajectory
#print axioms Aligator.Roll.C48_explicit
#print axioms Aligator.Roll.C48_explicit_list
#print axioms Aligator.Roll.C48_failure_unreported
#print axioms Aligator.Roll.C48_implicit_list_fresh_output
#print axioms Aligator.Roll.C48_implicit_list_length
#print axioms Aligator.Roll.C48_implicit_list_partial
#print axioms Aligator.Roll.C48_implicit_partial
#print axioms Aligator.Roll.C48_throws_after_writing
#print axioms Aligator.Roll.C49_default_gives_up
#print axioms Aligator.Roll.C49_default_search
#print axioms Aligator.Roll.C49_default_terminates
#print axioms Aligator.Roll.C49_factor_one_diverges
#print axioms Aligator.Roll.C49_never_increases
#print axioms Aligator.Roll.C49_newton
#print axioms Aligator.Roll.C49_root_in_one_step
#print axioms Aligator.Roll.C49_stale_residual
#print axioms Aligator.Roll.C49_terminates
#print axioms Aligator.SSets.C88_changes_ignored
#print axioms Aligator.SSets.C88_current_sets_partial
#print axioms Aligator.SSets.C88_sets_in_use
#print axioms Aligator.Sched.C10_parallel_backward_race_free
#print axioms Aligator.Sched.C10_parallel_backward_values
#print axioms Aligator.Sched.C10_parallel_forward_race_free
#print axioms Aligator.Sched.C10_parallel_forward_values
#print axioms Aligator.Settings.C86_accepted_setup_repairs
#print axioms Aligator.Settings.C86_after_accepted_setup_partial
#print axioms Aligator.Settings.C86_integrity_failure_harmless
#print axioms Aligator.Settings.C86_parallel_needs_threads
#print axioms Aligator.Settings.C86_parallel_nonlinear_unchecked
#print axioms Aligator.Settings.C86_rejected_first_setup
#print axioms Aligator.Settings.C86_rejected_later_setup
#print axioms Aligator.Settings.C86_rejected_shift
#print axioms Aligator.Settings.C86_setup_decides
#print axioms Aligator.Settings.C86_threads_after_setup
#print axioms Aligator.Settings.C86_throwing_workspace
#print axioms Aligator.Settings.C86_unsupported_not_used_partial
#print axioms Aligator.Track.C63_control_cost_partial
#print axioms Aligator.Track.C63_control_error_partial
#print axioms Aligator.Track.C63_control_manifold
#print axioms Aligator.Track.C63_control_target_cost
#print axioms Aligator.Track.C63_euclidean
#print axioms Aligator.Track.C63_exact_mode_zero
#print axioms Aligator.Track.C63_runs
#print axioms Aligator.Track.C63_set_target_stale
#print axioms Aligator.Track.C63_state_cost_derivatives_partial
#print axioms Aligator.Track.C63_state_cost_hessian
#print axioms Aligator.Track.C63_state_cost_value
#print axioms Aligator.Track.C63_state_error
#print axioms Aligator.Track.C63_target_size
#print axioms Aligator.Track.C63_weights
#print axioms Aligator.Wrap.C46_compose
#print axioms Aligator.Wrap.C46_compose_vhp_wrong
#print axioms Aligator.Wrap.C46_slice_jacobian
#print axioms Aligator.Wrap.C46_slice_range
#print axioms Aligator.Wrap.C46_slice_value
#print axioms Aligator.Wrap.C46_slice_vhp_range
#print axioms Aligator.Wrap.C46_slice_vhp_unchanged
#print axioms Aligator.Wrap.C46_slice_vhp_wrong
#print axioms Aligator.Wrap.C47_components
#print axioms Aligator.Wrap.C47_cost_derivatives
#print axioms Aligator.Wrap.C47_dyn_components
#print axioms Aligator.Wrap.C47_dyn_derivatives
#print axioms Aligator.Wrap.C47_dyn_forward
#print axioms Aligator.Wrap.C47_dyn_jacobians
#print axioms Aligator.Wrap.C47_hessian
#print axioms Aligator.Wrap.C47_value_gradient
