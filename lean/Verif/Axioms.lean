import Verif.Adapter.Checks
import Verif.Adapter.Props
import Verif.AugLag.Function
import Verif.AugLag.Overloads
import Verif.AugLag.Props
import Verif.AugLag.Resume
import Verif.AugLag.Saddle
import Verif.BigBatch.Collapse
import Verif.BigBatch.Converge
import Verif.BigBatch.Props
import Verif.BigBatch.Run
import Verif.BigBatch.Search
import Verif.BigBatch.Values
import Verif.Callbacks.BarProps
import Verif.Callbacks.Props
import Verif.Callbacks.ReportProps
import Verif.Callbacks.Timer
import Verif.Cd.Props
import Verif.Cd.Resume
import Verif.Cd.Stopping
import Verif.Cmaes.Active
import Verif.Cmaes.AnySelection
import Verif.Cmaes.Boundary
import Verif.Cmaes.Covariance
import Verif.Cmaes.Invariance
import Verif.Cmaes.Params
import Verif.Cmaes.Pop
import Verif.Cmaes.PopMore
import Verif.Cmaes.Props
import Verif.Cmaes.Recombine
import Verif.Cmaes.Rule
import Verif.Cmaes.Stop
import Verif.Cne.Invariance
import Verif.Cne.Prob
import Verif.Cne.Props
import Verif.Cne.Stop
import Verif.Converge.Accelerated
import Verif.Converge.AdamFamily
import Verif.Converge.Adaptive
import Verif.Converge.AmsGrad
import Verif.Converge.Average
import Verif.Converge.Cd
import Verif.Converge.Gd
import Verif.Converge.LastIterate
import Verif.Converge.Lbfgs
import Verif.Converge.LbfgsStop
import Verif.Converge.Logistic
import Verif.Converge.Mirror
import Verif.Converge.Momentum
import Verif.Converge.MomentumRegret
import Verif.Converge.Quadratic
import Verif.Converge.RandomCd
import Verif.Converge.RegretProps
import Verif.Converge.Restarts
import Verif.Converge.Restless
import Verif.Converge.Rigid
import Verif.Converge.RigidLbfgs
import Verif.Converge.RmsProp
import Verif.Converge.Sarah
import Verif.Converge.Softmax
import Verif.Converge.Svrg
import Verif.De.Closure
import Verif.De.Invariance
import Verif.De.Props
import Verif.De.Stop
import Verif.EndLast
import Verif.Epoch.Eve
import Verif.Epoch.Props
import Verif.Epoch.Spalera
import Verif.Fw.Affine
import Verif.Fw.AtomsProps
import Verif.Fw.FullCorrection
import Verif.Fw.LineSearch
import Verif.Fw.Lp
import Verif.Fw.OmpCases
import Verif.Fw.OmpProps
import Verif.Fw.OmpRecovery
import Verif.Fw.Props
import Verif.Fw.Proximal
import Verif.Fw.Record
import Verif.Fw.Resume
import Verif.Fw.SearchRate
import Verif.Gd.Props
import Verif.Gd.Record
import Verif.Gd.Resume
import Verif.Gd.Rigid
import Verif.Gd.Textbook
import Verif.Grid.Props
import Verif.Holder.Leak
import Verif.Holder.NoThrow
import Verif.Holder.Props
import Verif.Indicators.Props
import Verif.Iqn.Line
import Verif.Iqn.Props
import Verif.Iqn.Textbook
import Verif.Iqn.Warm
import Verif.Lbfgs.Direction
import Verif.Lbfgs.Props
import Verif.Lbfgs.Resume
import Verif.Lbfgs.Run
import Verif.Lookahead.Descent
import Verif.Lookahead.Props
import Verif.Moo.Affine
import Verif.Moo.Agemoea
import Verif.Moo.Bounds
import Verif.Moo.Crowding
import Verif.Moo.DasDennis
import Verif.Moo.Decomposition
import Verif.Moo.Elitism
import Verif.Moo.Events
import Verif.Moo.Genes
import Verif.Moo.Moead
import Verif.Moo.MoeadAffine
import Verif.Moo.MoeadProps
import Verif.Moo.MoeadSlot
import Verif.Moo.Nsga2Elite
import Verif.Moo.Nsga2Props
import Verif.Moo.Pareto
import Verif.Moo.SurvivalMore
import Verif.Moo.SurvivalRun
import Verif.Moo.SurvivalScale
import Verif.Moo.SurvivalScore
import Verif.Prob.Ville
import Verif.Problems.AugLagFnsProps
import Verif.Problems.Dtlz56
import Verif.Problems.DtlzSets
import Verif.Problems.Eggholder
import Verif.Problems.Gradients
import Verif.Problems.Landscape
import Verif.Problems.LogisticProps
import Verif.Problems.Maf6
import Verif.Problems.MafSets
import Verif.Problems.Minima
import Verif.Problems.MultiProps
import Verif.Problems.ParetoSets
import Verif.Problems.Schaffer4
import Verif.Problems.SeparableProps
import Verif.Problems.SoftmaxProps
import Verif.Psgd.Backoff
import Verif.Psgd.BackoffRun
import Verif.Psgd.Hogwild
import Verif.Psgd.Props
import Verif.Psgd.Race
import Verif.Psgd.Resume
import Verif.Psgd.Textbook
import Verif.Pso.Invariance
import Verif.Pso.Plateau
import Verif.Pso.Policy
import Verif.Pso.Props
import Verif.Pso.Textbook
import Verif.Sa.Balance
import Verif.Sa.Control
import Verif.Sa.Invariance
import Verif.Sa.Props
import Verif.Sa.Record
import Verif.Sa.Start
import Verif.Sa.Stop
import Verif.Sdp.Independence
import Verif.Sdp.Lrsdp
import Verif.Sdp.LrsdpRun
import Verif.Sdp.PrimalDualCert
import Verif.Sdp.PrimalDualExact
import Verif.Sdp.PrimalDualMehrotra
import Verif.Sdp.PrimalDualProps
import Verif.Sdp.PrimalDualRun
import Verif.Sdp.PrimalDualSolvable
import Verif.Sdp.PrimalDualTrace
import Verif.Sdp.Svec
import Verif.Sgd.Epochs
import Verif.Sgd.ObjectProps
import Verif.Sgd.Props
import Verif.Sgd.Record
import Verif.Sgd.Resume
import Verif.Sgd.Setters
import Verif.Sgd.SnapshotCases
import Verif.Sgd.SnapshotMore
import Verif.Sgd.SnapshotRun
import Verif.Sgd.Textbook
import Verif.Shape.Norms
import Verif.Spsa.Converge
import Verif.Spsa.Gains
import Verif.Spsa.Props
import Verif.Spsa.Resume
import Verif.Spsa.Setter
import Verif.Update.Bound
import Verif.Update.Bounds
import Verif.Update.ClosedForm
import Verif.Update.Demon
import Verif.Update.DemonSetter
import Verif.Update.Invariance
import Verif.Update.Moments
import Verif.Update.Norm
import Verif.Vr.Clip
import Verif.Vr.Katyusha
import Verif.Vr.KatyushaResume
import Verif.Vr.Limit
import Verif.Vr.Record
import Verif.Vr.Reuse
import Verif.Vr.Sarah
import Verif.Vr.SarahResume
import Verif.Vr.SarahTold
import Verif.Vr.Svrg
import Verif.Vr.SvrgResume
import Verif.Vr.Textbook

/-
Axioms of every property theorem (expected: at most propext, Classical.choice, Quot.sound).
-/

#print axioms Ens.Callbacks.C01_dispatch_in_order
#print axioms Ens.Callbacks.C01_stop_iff
#print axioms Ens.Callbacks.C01_void_or_missing_never_stops
#print axioms Ens.Callbacks.C01_begin_end_reach_everybody
#print axioms Ens.Callbacks.C02_evaluate_then_gradient
#print axioms Ens.Callbacks.C03_early_stop_patience
#print axioms Ens.Callbacks.C03_never_stops_at_record
#print axioms Ens.Callbacks.C04_store_best_first_minimum
#print axioms Ens.Callbacks.C05_reused_store_best_refuted
#print axioms Ens.Callbacks.C05_reused_store_best_partial
#print axioms Ens.Callbacks.C06_clip_by_norm
#print axioms Ens.Callbacks.C06_clip_by_norm_idem
#print axioms Ens.Callbacks.C07_clip_by_value
#print axioms Ens.Sgd.C08_sgd_cyclic_visits
#print axioms Ens.Sgd.C08_sgd_epoch_visits_each_once
#print axioms Ens.Sgd.C09_sgd_budget
#print axioms Ens.Sgd.C09_sgd_terminates
#print axioms Ens.Sgd.C09_sgd_fuel_irrelevant
#print axioms Ens.Sgd.C10_sgd_exact_objective
#print axioms Ens.Sgd.C10_sgd_exact_objective_sum
#print axioms Ens.Sgd.C11_sgd_protocol
#print axioms Ens.Sgd.C11_sgd_prompt_stop_partial
#print axioms Ens.Sgd.C11_sgd_no_step_after_stop_refuted
#print axioms Ens.Sgd.C12_sgd_returned_value_partial
#print axioms Ens.Sgd.C12_sgd_returned_value_refuted
#print axioms Ens.Sgd.C13_reset_policy_like_new_partial
#print axioms Ens.Sgd.C13_sgdr_reuse_refuted
#print axioms Ens.Gd.C14_gd_count_and_objective
#print axioms Ens.Gd.C14_gd_early_exit_point
#print axioms Ens.Gd.C14_gd_terminates
#print axioms Ens.Gd.C14_gd_protocol
#print axioms Ens.Gd.C14_gd_categorical_overload
#print axioms Ens.Gd.C15_gd_objective_of_result_refuted
#print axioms Ens.Gd.C15_gd_one_iteration_refuted
#print axioms Ens.Gd.C15_gd_objective_of_result_partial
#print axioms Ens.Gd.C16_gd_descent
#print axioms Ens.Gd.C16_gd_stationarity_rate
#print axioms Ens.Gd.C16_gd_convex_rate
#print axioms Ens.Grid.C17_grid_search_exhaustive_minimum
#print axioms Ens.Grid.C17_grid_search_global_minimum
#print axioms Ens.Grid.C17_grid_search_rejects
#print axioms Ens.Cd.C18_cd_terminates
#print axioms Ens.Cd.C18_cd_step_changes_one_column
#print axioms Ens.Cd.C18_cd_returned_value
#print axioms Ens.Cd.C18_cyclic_descent_fair
#print axioms Ens.Cd.C18_cyclic_random_in_range
#print axioms Ens.Cd.C18_greedy_descent_partial
#print axioms Ens.Cd.C18_greedy_largest_magnitude_refuted
#print axioms Ens.Sa.C19_sa_returned_energy
#print axioms Ens.Sa.C19_sa_moves
#print axioms Ens.Sa.C19_sa_energy_is_objective
#print axioms Ens.Sa.C19_sa_acceptance
#print axioms Ens.Sa.C19_sa_metropolis_probability
#print axioms Ens.Sa.C19_sa_move_size_bounds
#print axioms Ens.Sa.C19_sa_exponential_cooling
#print axioms Ens.De.C20_de_consistent
#print axioms Ens.De.C20_de_total
#print axioms Ens.De.C21_de_distinct_members_refuted
#print axioms Ens.De.C21_de_equal_pair_refuted
#print axioms Ens.De.C21_de_first_index_partial
#print axioms Ens.De.C21_de_second_loop_never_repeats
#print axioms Ens.De.C22_de_returns_population_minimum_refuted
#print axioms Ens.De.C22_de_population_minimum_partial
#print axioms Ens.Pso.C23_pso_result
#print axioms Ens.Pso.C23_pso_best_seen
#print axioms Ens.Pso.C24_lbest_ring_refuted
#print axioms Ens.Pso.C24_lbest_self_and_right_partial
#print axioms Ens.Pso.C24_lbest_ring
#print axioms Ens.Pso.C25_pso_scalar_bounds_refuted
#print axioms Ens.Pso.C25_pso_scalar_bounds_partial
#print axioms Ens.Pso.C25_pso_matrix_bounds
#print axioms Ens.Pso.C25_pso_reuse_refuted
#print axioms Ens.Cmaes.C26_transform_in_box
#print axioms Ens.Cmaes.C26_transform_identity
#print axioms Ens.Cmaes.C26_transform_reaches_bounds
#print axioms Ens.Cmaes.C26_identity_in_box_refuted
#print axioms Ens.Cmaes.C27_full_selection
#print axioms Ens.Cmaes.C27_cmaes_result
#print axioms Ens.Cmaes.C28_pop_result
#print axioms Ens.Cmaes.C28_one_batch_faithful
#print axioms Ens.Cmaes.C28_pop_batches_refuted
#print axioms Ens.Moo.C29_dominates_iff
#print axioms Ens.Moo.C29_dominates_strict_order
#print axioms Ens.Moo.C29_dominates_asymm_any
#print axioms Ens.Moo.C29_nan_transitive_refuted
#print axioms Ens.Moo.C30_fast_non_dominated_sort
#print axioms Ens.Moo.C30_pareto_fronts
#print axioms Ens.Moo.C30_nan_no_front_refuted
#print axioms Ens.Moo.C31_nsga2_in_bounds
#print axioms Ens.Moo.Agemoea.C31_agemoea_in_bounds
#print axioms Ens.Moo.Moead.C31_moead_in_bounds
#print axioms Ens.Moo.C32_guard_refuted
#print axioms Ens.Moo.C32_guard_partial
#print axioms Ens.Moo.C32_empty_population_refuted
#print axioms Ens.Moo.C33_crossover_refuted
#print axioms Ens.Moo.C33_crossover_partial
#print axioms Ens.Moo.C34_pareto_set_refuted
#print axioms Ens.Moo.C34_pareto_front_partial
#print axioms Ens.Moo.Agemoea.C35_agemoea_final_iterate_refuted
#print axioms Ens.Moo.Agemoea.C35_agemoea_final_iterate_partial
#print axioms Ens.Moo.Agemoea.C35_agemoea_iterate_nondominated_refuted
#print axioms Ens.Moo.Moead.C36_ideal_point
#print axioms Ens.Moo.Moead.C37_replacement
#print axioms Ens.Moo.DasDennis.C38_binomial
#print axioms Ens.Moo.DasDennis.C38_uniform_weights
#print axioms Ens.Moo.DasDennis.C38_weights_sum_partial
#print axioms Ens.Moo.DasDennis.C38_weights_sum_refuted
#print axioms Ens.Lbfgs.C39_bfgs_direction
#print axioms Ens.Lbfgs.C39_descent_direction
#print axioms Ens.Lbfgs.C39_secant
#print axioms Ens.Lbfgs.C40_memory
#print axioms Ens.Psgd.C41_ranges
#print axioms Ens.Psgd.C41_uncovered
#print axioms Ens.Psgd.C42_no_lost_update
#print axioms Ens.Psgd.C42_schedule_independent
#print axioms Ens.Psgd.C42_progress
#print axioms Ens.Vr.Svrg.C43_full_gradient
#print axioms Ens.Vr.Svrg.C43_exact_at_snapshot
#print axioms Ens.Vr.Svrg.C43_unbiased
#print axioms Ens.Vr.Svrg.C43_unbiased_single
#print axioms Ens.Vr.Svrg.C43_unbiased_batches_refuted
#print axioms Ens.Iqn.C44_aggregates_partial
#print axioms Ens.Iqn.C44_aggregates_uneven_partial
#print axioms Ens.Iqn.C44_aggregates_refuted
#print axioms Ens.Fw.C45_feasible
#print axioms Ens.Fw.C45_classic
#print axioms Ens.Fw.C45_linesearch
#print axioms Ens.Fw.Lp.C46_linf
#print axioms Ens.Fw.Lp.C46_l1
#print axioms Ens.Fw.Lp.C46_lp_feasible
#print axioms Ens.Fw.Lp.C46_lp_partial
#print axioms Ens.Fw.Lp.C46_lp_refuted
#print axioms Ens.Fw.C47_gap
#print axioms Ens.Fw.C47_rate
#print axioms Ens.Fw.C47_textbook_rate_refuted
#print axioms Ens.Fw.Proximal.C48_projection_partial
#print axioms Ens.Fw.Proximal.C48_nearest_refuted
#print axioms Ens.Fw.Proximal.C49_sparse
#print axioms Ens.Fw.Proximal.C49_large_tau
#print axioms Ens.AugLag.C50_gradient
#print axioms Ens.AugLag.C51_outer_loop
#print axioms Ens.Sdp.C52_index
#print axioms Ens.Sdp.C52_sparse
#print axioms Ens.Sdp.C52_smat_svec
#print axioms Ens.Sdp.C52_svec_smat
#print axioms Ens.Sdp.C52_isometry
#print axioms Ens.Sdp.C53_symkron
#print axioms Ens.Holder.C54_as
#print axioms Ens.Holder.C54_as_empty
#print axioms Ens.Holder.C54_once
#print axioms Ens.Holder.C54_sgd
#print axioms Ens.Holder.C54_sgd_never_throws
#print axioms Ens.Holder.C55_copy_refuted
#print axioms Ens.Holder.C55_use_refuted
#print axioms Ens.Holder.C55_fresh_copy_partial
#print axioms Ens.Adapter.C56_values
#print axioms Ens.Adapter.C56_available
#print axioms Ens.Adapter.C56_calls
#print axioms Ens.Update.C57_adam
#print axioms Ens.Update.C57_amsGrad
#print axioms Ens.Update.C57_padam
#print axioms Ens.Update.C57_qhAdam
#print axioms Ens.Update.C57_optimisticAdam
#print axioms Ens.Update.C57_adaBelief
#print axioms Ens.Update.C57_yogi
#print axioms Ens.Update.C57_rmsProp
#print axioms Ens.Update.C57_adaGrad
#print axioms Ens.Update.C57_adaSqrt
#print axioms Ens.Update.C57_adaDelta
#print axioms Ens.Update.C57_smorms3
#print axioms Ens.Update.C57_adaMax
#print axioms Ens.Update.C57_nadaMax
#print axioms Ens.Update.C57_nadam
#print axioms Ens.Update.C57_adaBound
#print axioms Ens.Update.C57_ftml
#print axioms Ens.Update.C58_adaGrad
#print axioms Ens.Update.C58_rmsProp
#print axioms Ens.Update.C58_amsGrad_mono
#print axioms Ens.Update.C58_adaBound
#print axioms Ens.Update.C58_adam
#print axioms Ens.Update.C58_amsGrad
#print axioms Ens.Update.C59_momentum
#print axioms Ens.Update.C59_nesterov
#print axioms Ens.Update.C59_vanilla
#print axioms Ens.Update.C59_qh_one
#print axioms Ens.Update.C60_moments
#print axioms Ens.Update.C60_step
#print axioms Ens.Lookahead.C61_run_shape
#print axioms Ens.Lookahead.C61_ends
#print axioms Ens.Lookahead.C61_iteration_limit
#print axioms Ens.Lookahead.C61_segment
#print axioms Ens.Lookahead.C61_noDecay
#print axioms Ens.Spsa.C62_run_shape
#print axioms Ens.Spsa.C62_returned_objective
#print axioms Ens.BigBatch.C63_armijo
#print axioms Ens.BigBatch.C63_search_ends
#print axioms Ens.BigBatch.C63_moves_decrease
#print axioms Ens.Indicators.C64_nonneg
#print axioms Ens.Indicators.C64_igd_zero
#print axioms Ens.Indicators.C64_igdPlus_zero
#print axioms Ens.Indicators.C64_igdPlus_compliant
#print axioms Ens.Indicators.C64_igd_more_points
#print axioms Ens.Indicators.C64_igdPlus_le_igd
#print axioms Ens.Indicators.C64_nearest_is_min
#print axioms Ens.Problems.C65_beale
#print axioms Ens.Problems.C65_booth
#print axioms Ens.Problems.C65_colville
#print axioms Ens.Problems.C65_easom
#print axioms Ens.Problems.C65_goldsteinPrice
#print axioms Ens.Problems.C65_himmelblau
#print axioms Ens.Problems.C65_levy13
#print axioms Ens.Problems.C65_mcCormick
#print axioms Ens.Problems.C65_rosenbrock
#print axioms Ens.Problems.C65_threeHump
#print axioms Ens.Problems.C65_wood
#print axioms Ens.Problems.C65_gdTest
#print axioms Ens.Problems.C65_schaffer2
#print axioms Ens.Problems.C65_sphere
#print axioms Ens.Problems.C65_styblinski
#print axioms Ens.Problems.C65_sparseTest
#print axioms Ens.Problems.C65_sparseTestPartial
#print axioms Ens.Problems.C65_genRosen
#print axioms Ens.Problems.C65_rosenWood
#print axioms Ens.Problems.C66_sphere
#print axioms Ens.Problems.C66_styblinski
#print axioms Ens.Problems.C66_schwefel
#print axioms Ens.Problems.C66_sgdTest
#print axioms Ens.Problems.C66_sparseTest
#print axioms Ens.Problems.C66_sparseTestGrad
#print axioms Ens.Problems.C66_genRosen
#print axioms Ens.Problems.C67_ackley
#print axioms Ens.Problems.C67_beale
#print axioms Ens.Problems.C67_booth
#print axioms Ens.Problems.C67_bukin
#print axioms Ens.Problems.C67_colville
#print axioms Ens.Problems.C67_goldsteinPrice
#print axioms Ens.Problems.C67_himmelblau
#print axioms Ens.Problems.C67_levy13
#print axioms Ens.Problems.C67_matyas
#print axioms Ens.Problems.C67_rosenbrock
#print axioms Ens.Problems.C67_schaffer2
#print axioms Ens.Problems.C67_threeHump
#print axioms Ens.Problems.C67_wood
#print axioms Ens.Problems.C67_gdTest
#print axioms Ens.Problems.C67_testFuncFW
#print axioms Ens.Problems.C67_sphere
#print axioms Ens.Problems.C67_rastrigin
#print axioms Ens.Problems.C67_genRosen
#print axioms Ens.Problems.C67_rosenWood
#print axioms Ens.Problems.C67_sgdTest
#print axioms Ens.Problems.C67_sparseTest
#print axioms Ens.Cne.C68_cne_crossover_complementary
#print axioms Ens.Cne.C68_cne_parents_distinct
#print axioms Ens.Cne.C68_cne_best_never_lost
#print axioms Ens.Cne.C68_cne_returns
#print axioms Ens.Cne.C68_cne_elite_unchanged_refuted
#print axioms Ens.Fw.C69_line_search
#print axioms Ens.Lrsdp.C70_history_partial
#print axioms Ens.Lrsdp.C70_history_refuted
#print axioms Ens.Callbacks.C71_query_front
#print axioms Ens.Callbacks.C71_query_front_reuse
#print axioms Ens.Sgd.C72_sgdr_step_in_range
#print axioms Ens.Sgd.C72_sgdr_restart_full_step
#print axioms Ens.Sgd.C72_sgdr_no_decay_before_start
#print axioms Ens.Sgd.C73_sgdr_decay_starts_after_epochs_refuted
#print axioms Ens.Sgd.C72_sgdr_no_decay_before_start
#print axioms Ens.Sa.C74_sa_zero_means_no_limit_refuted
#print axioms Ens.Sa.C74_sa_zero_iterations_partial
#print axioms Ens.Sa.C75_sa_reuse_like_new_refuted
#print axioms Ens.Sa.C75_sa_temperature_left_partial
#print axioms Ens.De.C76_de_crossover_all_coordinates_refuted
#print axioms Ens.De.C76_de_crossover_partial
#print axioms Ens.Cne.C77_cne_stop_before_first_generation_refuted
#print axioms Ens.Cne.C77_cne_zero_generations_refuted
#print axioms Ens.Cne.C68_cne_returns
#print axioms Ens.Cne.C78_cne_guard_refuted
#print axioms Ens.Cne.C78_cne_guard_partial
#print axioms Ens.Pso.C79_pso_consistent_refuted
#print axioms Ens.Pso.C79_pso_zero_horizon_refuted
#print axioms Ens.Pso.C79_pso_nan_refuted
#print axioms Ens.Pso.C23_pso_result
#print axioms Ens.Pso.C80_pso_iterations
#print axioms Ens.Pso.C80_pso_negative_tolerance
#print axioms Ens.Pso.C81_constriction_own_factors_refuted
#print axioms Ens.Pso.C81_constriction_first_call
#print axioms Ens.Pso.C81_constriction_partial
#print axioms Ens.Cmaes.C83_cmaes_stopping
#print axioms Ens.Cmaes.C84_random_selection_refuted
#print axioms Ens.Cmaes.C84_any_selection_partial
#print axioms Ens.Cmaes.C84_random_value_partial
#print axioms Ens.Cmaes.C85_pop_budget_refuted
#print axioms Ens.Cmaes.C85_pop_budget_partial
#print axioms Ens.Cmaes.C86_pop_stop_refuted
#print axioms Ens.Cmaes.C86_pop_stop_partial
#print axioms Ens.Cmaes.C87_pop_best_candidate_refuted
#print axioms Ens.Cmaes.C87_pop_best_candidate_partial
#print axioms Ens.Moo.C88_evaluation_count_refuted
#print axioms Ens.Moo.C88_evaluation_count_partial
#print axioms Ens.Moo.C89_nsga2_value_partial
#print axioms Ens.Moo.C89_nsga2_value_refuted
#print axioms Ens.Moo.Agemoea.C89_agemoea_value_refuted
#print axioms Ens.Moo.Agemoea.C89_agemoea_value_partial
#print axioms Ens.Moo.Moead.C89_moead_value_refuted
#print axioms Ens.Moo.Moead.C89_moead_value_partial
#print axioms Ens.Moo.C90_crowding_distance
#print axioms Ens.Moo.C90_extremes_preferred
#print axioms Ens.Moo.C91_nsga2_elitism_refuted
#print axioms Ens.Moo.C91_best_kept_partial
#print axioms Ens.Moo.C91_copies_refuted
#print axioms Ens.Moo.C92_nsga2_returns
#print axioms Ens.Moo.C92_nsga2_no_generations_refuted
#print axioms Ens.Moo.Moead.C93_moead_nondominated_refuted
#print axioms Ens.Moo.Moead.C93_position_partial
#print axioms Ens.Moo.Agemoea.C94_agemoea_set_and_front
#print axioms Ens.Moo.Moead.C95_moead_set_and_front
#print axioms Ens.Moo.Moead.C96_weighted_monotone
#print axioms Ens.Moo.Moead.C97_mating_distinct
#print axioms Ens.Moo.Moead.C97_mating_neighbours_partial
#print axioms Ens.Moo.Moead.C97_mating_neighbours_refuted
#print axioms Ens.Moo.Moead.C98_neighbours_partial
#print axioms Ens.Moo.Moead.C98_neighbours_refuted
#print axioms Ens.Lbfgs.C99_value_partial
#print axioms Ens.Lbfgs.C99_value_refuted
#print axioms Ens.Lbfgs.C100_progress_partial
#print axioms Ens.Lbfgs.C100_progress_refuted
#print axioms Ens.Lbfgs.C101_reuse_partial
#print axioms Ens.Lbfgs.C101_reuse_refuted
#print axioms Ens.Lbfgs.C102_line_search
#print axioms Ens.Lbfgs.C103_gradient_partial
#print axioms Ens.Lbfgs.C103_gradient_refuted
#print axioms Ens.Psgd.C104_rounds_partial
#print axioms Ens.Psgd.C104_value_refuted
#print axioms Ens.Psgd.C105_step
#print axioms Ens.Psgd.C105_positive_decreasing
#print axioms Ens.Psgd.C105_summable
#print axioms Ens.Vr.Svrg.C106_svrg_protocol
#print axioms Ens.Vr.Svrg.C106_svrg_record
#print axioms Ens.Vr.Svrg.C106_svrg_value
#print axioms Ens.Vr.Svrg.C106_svrg_stale_value_refuted
#print axioms Ens.Vr.Sarah.C106_sarah_protocol
#print axioms Ens.Vr.Sarah.C106_sarah_record
#print axioms Ens.Vr.Sarah.C106_sarah_value
#print axioms Ens.Vr.Katyusha.C106_katyusha_protocol
#print axioms Ens.Vr.Katyusha.C106_katyusha_record
#print axioms Ens.Vr.Katyusha.C106_katyusha_value_partial
#print axioms Ens.Vr.Katyusha.C106_katyusha_value_refuted
#print axioms Ens.Vr.Svrg.C107_bb_partial
#print axioms Ens.Vr.Svrg.C107_bb_curvature
#print axioms Ens.Vr.Svrg.C107_bb_scalar
#print axioms Ens.Vr.Svrg.C107_bb_refuted
#print axioms Ens.Vr.Svrg.C107_bb_diverges_refuted
#print axioms Ens.Vr.Sarah.C108_estimator_partial
#print axioms Ens.Vr.Sarah.C108_estimator_refuted
#print axioms Ens.Vr.Sarah.C109_notified_refuted
#print axioms Ens.Vr.Sarah.C109_notified_partial
#print axioms Ens.Vr.Katyusha.C110_weights_refuted
#print axioms Ens.Vr.Katyusha.C110_fixed_point_partial
#print axioms Ens.Vr.Katyusha.C110_minimiser_not_fixed_refuted
#print axioms Ens.Vr.Katyusha.C111_full_gradient_partial
#print axioms Ens.Vr.Katyusha.C111_full_gradient_refuted
#print axioms Ens.Vr.Reuse.C112_svrg_reuse_partial
#print axioms Ens.Vr.Reuse.C112_svrg_reuse_refuted
#print axioms Ens.Vr.Reuse.C112_sarah_reuse_refuted
#print axioms Ens.Vr.Reuse.C112_katyusha_reuse_refuted
#print axioms Ens.Iqn.C113_pass
#print axioms Ens.Iqn.C114_secant
#print axioms Ens.Iqn.C114_step
#print axioms Ens.Iqn.C115_run_partial
#print axioms Ens.Iqn.C115_stop_refuted
#print axioms Ens.Iqn.C115_value_refuted
#print axioms Ens.Iqn.C116_shape_partial
#print axioms Ens.Iqn.C116_shape_refuted
#print axioms Ens.Fw.C117_descent_partial
#print axioms Ens.Fw.C117_descent_refuted
#print axioms Ens.Fw.C118_run_partial
#print axioms Ens.Fw.C118_value_refuted
#print axioms Ens.Fw.C118_stop_refuted
#print axioms Ens.Fw.Lp.C119_matrix_refuted
#print axioms Ens.Fw.Lp.C119_columns_partial
#print axioms Ens.Fw.Lp.C120_scan
#print axioms Ens.Fw.Lp.C120_groups_partial
#print axioms Ens.Fw.Lp.C120_groups_refuted
#print axioms Ens.AugLag.C121_stop
#print axioms Ens.AugLag.C122_reuse_refuted
#print axioms Ens.AugLag.C122_reuse_partial
#print axioms Ens.AugLag.C123_feasible_refuted
#print axioms Ens.AugLag.C279_converged
#print axioms Ens.AugLag.C124_value_refuted
#print axioms Ens.AugLag.C124_value_partial
#print axioms Ens.AugLag.C125_multipliers
#print axioms Ens.AugLag.C125_exact
#print axioms Ens.AugLag.C126_size_refuted
#print axioms Ens.AugLag.C126_size_partial
#print axioms Ens.Holder.C127_leak_refuted
#print axioms Ens.Holder.C127_lost_partial
#print axioms Ens.Adapter.C128_preferred_refuted
#print axioms Ens.Adapter.C128_ewg_refuted
#print axioms Ens.Adapter.C128_preferred_partial
#print axioms Ens.Adapter.C128_static_refuted
#print axioms Ens.Update.C129_still
#print axioms Ens.Update.C129_demonSgd_refuted
#print axioms Ens.Update.C129_demonAdam_refuted
#print axioms Ens.Update.C129_demonSgd
#print axioms Ens.Update.C135_still
#print axioms Ens.Update.C130_adam
#print axioms Ens.Update.C130_amsGrad
#print axioms Ens.Update.C130_adaMax
#print axioms Ens.Update.C130_yogi
#print axioms Ens.Update.C130_rmsProp
#print axioms Ens.Update.C130_adaGrad
#print axioms Ens.Update.C130_optimisticAdam
#print axioms Ens.Update.C130_qhAdam
#print axioms Ens.Update.C130_nadam
#print axioms Ens.Update.C130_adaBound_refuted
#print axioms Ens.Update.C131_qhAdam_adam_partial
#print axioms Ens.Update.C131_qhAdam_adam_refuted
#print axioms Ens.Update.C131_qhAdam_rmsProp_refuted
#print axioms Ens.Update.C131_qhAdam_rmsProp_partial
#print axioms Ens.Update.C131_qhAdam_nadam_refuted
#print axioms Ens.Update.C131_padam_amsGrad
#print axioms Ens.Update.C131_adam_rmsProp
#print axioms Ens.Update.C132_growth
#print axioms Ens.Update.C132_step
#print axioms Ens.Update.C133_wnGrad_refuted
#print axioms Ens.Update.C133_demonSgd_refuted
#print axioms Ens.Update.C133_swats_refuted
#print axioms Ens.Update.C133_stateless
#print axioms Ens.Update.C133_stateless_run
#print axioms Ens.Update.C134_range
#print axioms Ens.Update.C134_forgets
#print axioms Ens.Update.C134_range_refuted
#print axioms Ens.Update.C135_ftml
#print axioms Ens.Update.C135_still
#print axioms Ens.Update.C135_counter_refuted
#print axioms Ens.Update.C136_clipping
#print axioms Ens.Update.C136_step
#print axioms Ens.Update.C137_telescopes
#print axioms Ens.Update.C138_latch
#print axioms Ens.Update.C138_rate_refuted
#print axioms Ens.Spsa.C139_tolerance_partial
#print axioms Ens.Spsa.C139_tolerance_refuted
#print axioms Ens.Spsa.C139_zero_means_no_limit_refuted
#print axioms Ens.Lookahead.C140_exact_objective
#print axioms Ens.Lookahead.C140_inner_exit
#print axioms Ens.Lookahead.C140_objective_of_coordinates_refuted
#print axioms Ens.Lookahead.C141_begin_count_partial
#print axioms Ens.Lookahead.C141_stop_request_honoured_refuted
#print axioms Ens.Spsa.C142_unbiased
#print axioms Ens.Spsa.C142_descent_direction
#print axioms Ens.BigBatch.C143_ends_in_bounds
#print axioms Ens.BigBatch.C144_batch_size
#print axioms Ens.BigBatch.C145_gradient_limit_partial
#print axioms Ens.BigBatch.C145_gradient_limit_refuted
#print axioms Ens.BigBatch.C146_batch_gradient_partial
#print axioms Ens.BigBatch.C146_batch_gradient_refuted
#print axioms Ens.BigBatch.C147_two_samples
#print axioms Ens.BigBatch.C147_variance_refuted
#print axioms Ens.BigBatch.C148_two_moves
#print axioms Ens.BigBatch.C148_search_ends_refuted
#print axioms Ens.Sgd.C149_sgd_is_textbook
#print axioms Ens.Sgd.C150_sgd_epoch_tests
#print axioms Ens.Gd.C151_gd_is_textbook
#print axioms Ens.Callbacks.C152_timer_stop_exact
#print axioms Ens.Callbacks.C152_timer_stop_monotone
#print axioms Ens.Indicators.C153_epsilon_is_factor_partial
#print axioms Ens.Indicators.C153_epsilon_le_one_partial
#print axioms Ens.Indicators.C153_epsilon_compliant_partial
#print axioms Ens.Indicators.C153_epsilon_negative_refuted
#print axioms Ens.Indicators.C153_epsilon_zero_reference_refuted
#print axioms Ens.Problems.C154_ackley_partial
#print axioms Ens.Problems.C154_ackley_close
#print axioms Ens.Problems.C154_ackley_refuted
#print axioms Ens.Problems.C154_bukin_partial
#print axioms Ens.Problems.C154_dropWave_partial
#print axioms Ens.Problems.C154_eggholder_partial
#print axioms Ens.Problems.C154_eggholder_refuted
#print axioms Ens.Problems.C154_matyas_exact
#print axioms Ens.Problems.C154_matyas_refuted
#print axioms Ens.Problems.C154_rastrigin_scaled
#print axioms Ens.Problems.C154_rastrigin_refuted
#print axioms Ens.Problems.C154_schwefel_partial
#print axioms Ens.Problems.C154_sgdTest_partial
#print axioms Ens.Problems.C154_testFuncFW_half
#print axioms Ens.Problems.C154_testFuncFW_refuted
#print axioms Ens.Problems.C154_genRosenBatch_partial
#print axioms Ens.Problems.C154_genRosenBatch_overwritten_partial
#print axioms Ens.Problems.C154_genRosenBatch_refuted
#print axioms Ens.Problems.C155_rastrigin_partial
#print axioms Ens.Problems.C155_rastrigin_refuted
#print axioms Ens.Problems.C156_dropWave_partial
#print axioms Ens.Problems.C156_dropWave_refuted
#print axioms Ens.Problems.C156_easom_partial
#print axioms Ens.Problems.C156_easom_close
#print axioms Ens.Problems.C156_mcCormick_refuted
#print axioms Ens.Problems.C156_mcCormick_partial
#print axioms Ens.Problems.C156_mcCormick_close
#print axioms Ens.Problems.C156_styblinski_partial
#print axioms Ens.Problems.C156_styblinski_refuted
#print axioms Ens.Problems.C156_schwefel_refuted
#print axioms Ens.De.C157_de_stop
#print axioms Ens.Sa.C157_sa_stop
#print axioms Ens.Pso.C157_pso_stop
#print axioms Ens.Cne.C157_cne_stop
#print axioms Ens.Cmaes.C157_cmaes_stop
#print axioms Ens.Cmaes.C157_full_selection_honest
#print axioms Ens.Cmaes.C157_random_selection_honest
#print axioms Ens.Sa.C158_sa_frozen
#print axioms Ens.Sa.C159_sa_move_control
#print axioms Ens.Sa.C159_sa_control_target
#print axioms Ens.Sa.C159_sa_proposal_symmetric
#print axioms Ens.Sa.C159_sa_laplace
#print axioms Ens.Pso.C160_pso_is_textbook
#print axioms Ens.Pso.C160_pso_horizon_guard
#print axioms Ens.Cne.C161_cne_run
#print axioms Ens.Lbfgs.C162_lbfgs_stop
#print axioms Ens.Lbfgs.traced_run
#print axioms Ens.Lbfgs.C163_trial_steps
#print axioms Ens.Lbfgs.C164_basis_pairs
#print axioms Ens.Psgd.C165_psgd_is_textbook
#print axioms Ens.Iqn.C166_iqn_stopping
#print axioms Ens.Cd.C167_cd_stopping
#print axioms Ens.Epoch.C168_terminates
#print axioms Ens.Epoch.C168_visits
#print axioms Ens.Epoch.C169_protocol
#print axioms Ens.Epoch.C170_epochs
#print axioms Ens.Epoch.C170_stopping
#print axioms Ens.Epoch.C170_exact
#print axioms Ens.Epoch.C171_average_partial
#print axioms Ens.Epoch.C171_spalera_average_refuted
#print axioms Ens.Epoch.Eve.C172_dt
#print axioms Ens.Epoch.Eve.C172_bound
#print axioms Ens.Epoch.Eve.C173_bias_correction_partial
#print axioms Ens.Epoch.Eve.C173_bias_correction_refuted
#print axioms Ens.Epoch.Spalera.C174_shape_partial
#print axioms Ens.Epoch.Spalera.C174_shape_refuted
#print axioms Ens.Epoch.Spalera.C175_backtrack
#print axioms Ens.Epoch.Spalera.C175_rates
#print axioms Ens.Vr.Svrg.C176_svrg_is_textbook
#print axioms Ens.Vr.Svrg.seq_exists
#print axioms Ens.Vr.Katyusha.C176_katyusha_is_textbook
#print axioms Ens.Vr.Katyusha.seq_exists
#print axioms Ens.Update.C177_adaGrad
#print axioms Ens.Update.C177_adaSqrt
#print axioms Ens.Update.C177_rmsProp
#print axioms Ens.Update.C177_adaDelta
#print axioms Ens.Update.C177_adaDelta_bound
#print axioms Ens.Update.C177_adam
#print axioms Ens.Update.C177_amsGrad
#print axioms Ens.Update.C177_padam
#print axioms Ens.Update.C177_adaMax
#print axioms Ens.Update.C177_optimisticAdam
#print axioms Ens.Update.C177_adaBelief
#print axioms Ens.Update.C177_qhAdam
#print axioms Ens.Update.C177_nadam
#print axioms Ens.Update.C177_nadaMax
#print axioms Ens.Update.C177_adaBound
#print axioms Ens.Spsa.C178_moves
#print axioms Ens.Spsa.C178_gains
#print axioms Ens.BigBatch.C179_shape
#print axioms Ens.BigBatch.C179_values
#print axioms Ens.BigBatch.C180_stopping
#print axioms Ens.BigBatch.C181_returned_partial
#print axioms Ens.BigBatch.C181_returned_refuted
#print axioms Ens.Cmaes.C182_batches
#print axioms Ens.Cmaes.C182_stopping
#print axioms Ens.Lrsdp.C183_augmented
#print axioms Ens.Lrsdp.C184_symmetry_refuted
#print axioms Ens.Lrsdp.C183_augmented
#print axioms Ens.Lrsdp.C185_lrsdp_partial
#print axioms Ens.Lrsdp.C185_returned_refuted
#print axioms Ens.BigBatch.C186_variance_partial
#print axioms Ens.BigBatch.C186_small_batch_partial
#print axioms Ens.BigBatch.C186_variance_refuted
#print axioms Ens.PrimalDual.C187_kkt
#print axioms Ens.PrimalDual.C188_alpha_partial
#print axioms Ens.PrimalDual.C188_alpha_refuted
#print axioms Ens.PrimalDual.C189_residuals
#print axioms Ens.PrimalDual.C190_certificate
#print axioms Ens.PrimalDual.C191_run_partial
#print axioms Ens.PrimalDual.C191_end_refuted
#print axioms Ens.PrimalDual.C191_run_partial
#print axioms Ens.PrimalDual.C192_value_refuted
#print axioms Ens.Moo.Agemoea.C193_ideal
#print axioms Ens.Moo.Agemoea.C193_normalised
#print axioms Ens.Moo.Agemoea.C194_normalisation_partial
#print axioms Ens.Moo.Agemoea.C194_divisor_refuted
#print axioms Ens.Moo.Agemoea.C195_scores
#print axioms Ens.Moo.Agemoea.C196_exponent
#print axioms Ens.Moo.Agemoea.C195_scores
#print axioms Ens.Moo.Agemoea.C195_scores
#print axioms Ens.Moo.Agemoea.C197_proximity_refuted
#print axioms Ens.Moo.Agemoea.C198_translation_partial
#print axioms Ens.Moo.Agemoea.C198_translation_refuted
#print axioms Ens.Moo.Agemoea.C199_elitism_partial
#print axioms Ens.Moo.Agemoea.C199_best_monotone
#print axioms Ens.Moo.Agemoea.C199_elitism_refuted
#print axioms Ens.Moo.Agemoea.C200_later_fronts_partial
#print axioms Ens.Moo.Agemoea.C200_later_fronts_refuted
#print axioms Ens.PrimalDual.C201_predictor_corrector
#print axioms Ens.Sgd.C202_ensemble
#print axioms Ens.Sgd.C203_snapshot_limit_partial
#print axioms Ens.Sgd.C203_snapshot_number
#print axioms Ens.Sgd.C203_snapshot_limit_refuted
#print axioms Ens.Sgd.C204_constructor_partial
#print axioms Ens.Sgd.C204_constructor_refuted
#print axioms Ens.Sgd.C205_reuse_partial
#print axioms Ens.Sgd.C205_reuse_refuted
#print axioms Ens.Sgd.C206_same_schedule_partial
#print axioms Ens.Sgd.C206_same_schedule_refuted
#print axioms Ens.Sgd.C207_warm_restart_partial
#print axioms Ens.Sgd.C207_warm_restart_refuted
#print axioms Ens.Sgd.C208_annealing_partial
#print axioms Ens.Sgd.C208_annealing_refuted
#print axioms Ens.Fw.C209_textbook
#print axioms Ens.Fw.C209_descent
#print axioms Ens.Fw.C209_descent_partial
#print axioms Ens.Fw.C209_descent_refuted
#print axioms Ens.Fw.C210_ends
#print axioms Ens.Fw.C210_ends_pruned
#print axioms Ens.Fw.C211_prune
#print axioms Ens.Fw.C211_first_choice_partial
#print axioms Ens.Fw.C211_choice_refuted
#print axioms Ens.Fw.C212_feasible
#print axioms Ens.Fw.C212_undefined
#print axioms Ens.Fw.C212_line_search
#print axioms Ens.Fw.C212_start_partial
#print axioms Ens.Fw.C212_descent_refuted
#print axioms Ens.Fw.C213_repeated_partial
#print axioms Ens.Fw.C213_reuse_refuted
#print axioms Ens.Problems.Logistic.C214_gradient
#print axioms Ens.Problems.Logistic.C214_gradient_batch
#print axioms Ens.Problems.Logistic.C214_epoch
#print axioms Ens.Problems.Logistic.C214_evaluateWithGradient
#print axioms Ens.Problems.Logistic.C214_partialGradient
#print axioms Ens.Problems.Logistic.C214_shuffle
#print axioms Ens.Problems.Logistic.C214_textbook
#print axioms Ens.Problems.Logistic.C214_convex
#print axioms Ens.Problems.Logistic.C215_classify_partial
#print axioms Ens.Problems.Logistic.C215_halfspace_partial
#print axioms Ens.Problems.Logistic.C215_classify_refuted
#print axioms Ens.Problems.Logistic.C215_accuracy
#print axioms Ens.Problems.Logistic.C216_initialPoint_refuted
#print axioms Ens.Problems.Logistic.C216_initialPoint_partial
#print axioms Ens.Problems.Logistic.C216_accepted
#print axioms Ens.Problems.Softmax.C217_probabilities
#print axioms Ens.Problems.Softmax.C217_textbook
#print axioms Ens.Problems.Softmax.C217_gradient
#print axioms Ens.Problems.Softmax.C217_convex
#print axioms Ens.Problems.Softmax.C218_gradient_batch
#print axioms Ens.Problems.Softmax.C218_gradient_batch_intercept
#print axioms Ens.Problems.Softmax.C218_epoch_refuted
#print axioms Ens.Problems.Softmax.C218_epoch_partial
#print axioms Ens.Problems.Softmax.C218_evaluate_throws
#print axioms Ens.Problems.Softmax.C218_evaluate_value
#print axioms Ens.Problems.Softmax.C218_evaluate_refuted
#print axioms Ens.Problems.Softmax.C218_evaluate_partial
#print axioms Ens.Problems.Softmax.C219_no_intercept_partial
#print axioms Ens.Problems.Softmax.C219_intercept_partial
#print axioms Ens.Problems.Softmax.C219_intercept_refuted
#print axioms Ens.Problems.Softmax.C220_shuffle_throws
#print axioms Ens.Problems.Softmax.C220_shuffle_result
#print axioms Ens.Problems.Softmax.C220_shuffle_refuted
#print axioms Ens.Problems.Softmax.C220_repaired_partial
#print axioms Ens.Epoch.Spalera.C221_test
#print axioms Ens.Epoch.Spalera.C221_mean
#print axioms Ens.Problems.C222_snyman_gradient
#print axioms Ens.Problems.C222_snyman_constraint_gradient
#print axioms Ens.Problems.C222_snyman_minimum
#print axioms Ens.Problems.C222_gockenbach_gradient
#print axioms Ens.Problems.C222_gockenbach_feasible
#print axioms Ens.Problems.C222_gockenbach_minimum
#print axioms Ens.Problems.C222_gockenbach_constraint_gradient_partial
#print axioms Ens.Problems.C222_gockenbach_constraint_gradient_wrong
#print axioms Ens.Problems.C222_gockenbach_constraint_gradient_refuted
#print axioms Ens.Problems.C223_trace_gradient
#print axioms Ens.Problems.C223_edge_gradient_partial
#print axioms Ens.Problems.C223_edge_gradient_refuted
#print axioms Ens.Problems.C223_objective_derivative
#print axioms Ens.Problems.C223_gradient_square
#print axioms Ens.Problems.C223_gradient_refuted
#print axioms Ens.Problems.C223_gradient_partial
#print axioms Ens.Problems.Multi.C224_schaffer
#print axioms Ens.Problems.Multi.C224_fonseca_fleming
#print axioms Ens.Problems.Multi.C224_zdt1
#print axioms Ens.Problems.Multi.C224_zdt2
#print axioms Ens.Problems.Multi.C224_zdt3
#print axioms Ens.Problems.Multi.C224_zdt4
#print axioms Ens.Problems.Multi.C224_zdt6
#print axioms Ens.Problems.Multi.C224_dtlz7
#print axioms Ens.Problems.Multi.C224_maf1
#print axioms Ens.Problems.Multi.C224_maf2
#print axioms Ens.Problems.Multi.C224_maf3
#print axioms Ens.Problems.Multi.C224_maf5
#print axioms Ens.Problems.Multi.C224_maf6
#print axioms Ens.Problems.Multi.C225_dtlz1_partial
#print axioms Ens.Problems.Multi.C225_sphere_partial
#print axioms Ens.Problems.Multi.C225_dtlz1_refuted
#print axioms Ens.Problems.Multi.C225_dtlz2_refuted
#print axioms Ens.Problems.Multi.C225_dtlz3_refuted
#print axioms Ens.Problems.Multi.C225_dtlz4_refuted
#print axioms Ens.Problems.Multi.C225_dtlz5_refuted
#print axioms Ens.Problems.Multi.C225_dtlz6_refuted
#print axioms Ens.Problems.Multi.C225_maf4_partial
#print axioms Ens.Problems.Multi.C225_maf4_refuted
#print axioms Ens.Problems.Multi.C226_schaffer
#print axioms Ens.Problems.Multi.C226_fonseca_fleming
#print axioms Ens.Problems.Multi.C227_zdt1
#print axioms Ens.Problems.Multi.C227_zdt2
#print axioms Ens.Problems.Multi.C227_zdt3
#print axioms Ens.Problems.Multi.C227_zdt4
#print axioms Ens.Problems.Multi.C227_zdt6
#print axioms Ens.Problems.Multi.C227_zdt1_front
#print axioms Ens.Problems.Multi.C227_zdt2_front
#print axioms Ens.Problems.Multi.C227_zdt4_front
#print axioms Ens.Problems.Multi.C227_zdt6_front
#print axioms Ens.Problems.Multi.C228_dtlz1
#print axioms Ens.Problems.Multi.C228_dtlz1_front
#print axioms Ens.Problems.Multi.C228_dtlz1_tuple_refuted
#print axioms Ens.Problems.Multi.C228_dtlz2
#print axioms Ens.Problems.Multi.C228_dtlz3
#print axioms Ens.Problems.Multi.C228_dtlz4
#print axioms Ens.Problems.Multi.C228_dtlz2_tuple_refuted
#print axioms Ens.Problems.Multi.C228_sphere_front_refuted
#print axioms Ens.Problems.Multi.C229_maf2_refuted
#print axioms Ens.Problems.Multi.C229_maf2_optimal_refuted
#print axioms Ens.Problems.Multi.C229_maf2_set_partial
#print axioms Ens.Problems.Multi.C230_maf1
#print axioms Ens.Problems.Multi.C230_maf3
#print axioms Ens.Problems.Multi.C230_maf4
#print axioms Ens.Problems.Multi.C230_maf5
#print axioms Ens.Problems.Multi.C230_dtlz7
#print axioms Ens.Moo.Moead.C231_tchebycheff_monotone
#print axioms Ens.Moo.Moead.C231_tchebycheff_optimal
#print axioms Ens.Moo.Moead.C231_tchebycheff_minimiser
#print axioms Ens.Moo.Moead.C231_weighted_minimiser
#print axioms Ens.Moo.Moead.C231_step
#print axioms Ens.Moo.Moead.C231_progress_refuted
#print axioms Ens.Moo.Moead.C232_distances
#print axioms Ens.Moo.Moead.C232_ray
#print axioms Ens.Moo.Moead.C232_monotone_partial
#print axioms Ens.Moo.Moead.C232_monotone_refuted
#print axioms Ens.Moo.Moead.C233_bootstrap
#print axioms Ens.Moo.Moead.C233_bootstrap_sum_refuted
#print axioms Ens.Moo.Moead.C233_dirichlet
#print axioms Ens.Report.C234_counts
#print axioms Ens.Report.C234_recorded
#print axioms Ens.Report.C235_table_partial
#print axioms Ens.Report.C235_rows_partial
#print axioms Ens.Report.C235_defined
#print axioms Ens.Report.C235_gradient_refuted
#print axioms Ens.Report.C235_reuse_refuted
#print axioms Ens.Report.C235_zero_percentage_refuted
#print axioms Ens.Report.C235_percentage_refuted
#print axioms Ens.Report.C236_vector_partial
#print axioms Ens.Report.C236_refuted
#print axioms Ens.Report.C236_documented_example_refuted
#print axioms Ens.Report.C236_two_columns_refuted
#print axioms Ens.Report.C237_summary_partial
#print axioms Ens.Report.C237_no_steps
#print axioms Ens.Report.C237_reuse_refuted
#print axioms Ens.Report.C237_optimizer_section_refuted
#print axioms Ens.Report.C237_max_iterations_refuted
#print axioms Ens.Report.C237_precision_refuted
#print axioms Ens.Report.C237_end_epoch_refuted
#print axioms Ens.Report.C238_counts
#print axioms Ens.Report.C238_width_partial
#print axioms Ens.Report.C238_epoch_partial
#print axioms Ens.Report.C238_end_epoch_partial
#print axioms Ens.Report.C238_width_refuted
#print axioms Ens.Report.C238_wide_refuted
#print axioms Ens.Report.C238_step_hangs_refuted
#print axioms Ens.Report.C238_loss_refuted
#print axioms Ens.Update.C239_schedule
#print axioms Ens.Update.C239_demon_sgd
#print axioms Ens.Update.C239_demon_adam
#print axioms Ens.Update.C239_updates
#print axioms Ens.Update.C239_floor
#print axioms Ens.Update.C239_batch_one_partial
#print axioms Ens.Update.C239_after
#print axioms Ens.Update.C239_decay_refuted
#print axioms Ens.Update.C239_second_call_refuted
#print axioms Ens.Update.C239_no_limit_refuted
#print axioms Ens.Update.C239_adam_default_refuted
#print axioms Ens.Update.C240_accessors_partial
#print axioms Ens.Update.C240_what_runs
#print axioms Ens.Update.C240_gamma_read_refuted
#print axioms Ens.Update.C240_gamma_write_refuted
#print axioms Ens.Update.C240_step_refuted
#print axioms Ens.Moo.Genes.C241_side
#print axioms Ens.Moo.Genes.C241_extremes
#print axioms Ens.Moo.Genes.C241_monotone
#print axioms Ens.Moo.Genes.C241_mutate_partial
#print axioms Ens.Moo.Genes.C241_fixed_gene_refuted
#print axioms Ens.Moo.Genes.C242_genes
#print axioms Ens.Moo.Genes.C242_in_bounds
#print axioms Ens.Moo.Genes.C242_spread1
#print axioms Ens.Moo.Genes.C242_spread2_partial
#print axioms Ens.Moo.Genes.C242_candidate1
#print axioms Ens.Moo.Genes.C242_candidate2_partial
#print axioms Ens.Moo.Genes.C242_masks_disagree
#print axioms Ens.Moo.Genes.C242_child
#print axioms Ens.Moo.Genes.C242_spread2_refuted
#print axioms Ens.Moo.Genes.C242_crossed_refuted
#print axioms Ens.Moo.Genes.C242_zero_gene_refuted
#print axioms Ens.Moo.Genes.C243_differential
#print axioms Ens.Moo.Genes.C243_child
#print axioms Ens.Problems.C244_holder_symmetric_partial
#print axioms Ens.Problems.C244_cross_formula_partial
#print axioms Ens.Problems.C244_cross_above
#print axioms Ens.Problems.C244_cross_not_minimiser
#print axioms Ens.Problems.C244_holder_minimum_refuted
#print axioms Ens.Problems.C244_cross_minimum_refuted
#print axioms Ens.Problems.C244_cross_symmetric_refuted
#print axioms Ens.Problems.C245_lower_bound
#print axioms Ens.Problems.C245_symmetric
#print axioms Ens.Problems.C245_minimisers_refuted
#print axioms Ens.Adapter.C246_differentiable
#print axioms Ens.Adapter.C246_separable_partial
#print axioms Ens.Adapter.C246_raw_checks
#print axioms Ens.Adapter.C246_snapshot
#print axioms Ens.Adapter.C246_others
#print axioms Ens.Adapter.C246_either_refuted
#print axioms Ens.Adapter.C246_arbitrary_refuted
#print axioms Ens.Adapter.C246_partial_gradient_refuted
#print axioms Ens.Adapter.C246_sparse_refuted
#print axioms Ens.Adapter.C247_accepted_partial
#print axioms Ens.Adapter.C247_accepted_refuted
#print axioms Ens.PrimalDual.C248_solvable_partial
#print axioms Ens.PrimalDual.C248_default_start
#print axioms Ens.PrimalDual.C248_singular_refuted
#print axioms Ens.Independence.C249_true_sound
#print axioms Ens.Independence.C249_meaning
#print axioms Ens.Independence.C249_dependent
#print axioms Ens.Independence.C249_too_many
#print axioms Ens.Independence.C249_false_partial
#print axioms Ens.Independence.C249_returns
#print axioms Ens.Independence.C249_small_refuted
#print axioms Ens.Independence.C249_empty_refuted
#print axioms Ens.Converge.C250_standard
#print axioms Ens.Converge.C250_momentum
#print axioms Ens.Converge.C250_nesterov
#print axioms Ens.Converge.C250_qh
#print axioms Ens.Converge.C250_step_refuted
#print axioms Ens.Converge.C251_adaGrad
#print axioms Ens.Converge.C251_wnGrad
#print axioms Ens.Converge.C252_textbook
#print axioms Ens.Converge.C252_descent
#print axioms Ens.Converge.C252_fair
#print axioms Ens.Converge.C252_cyclic
#print axioms Ens.Converge.C252_linear
#print axioms Ens.Converge.C252_rate
#print axioms Ens.Converge.C252_greedy_refuted
#print axioms Ens.Converge.C253_sgd_regret
#print axioms Ens.Converge.C254_adaGrad_regret
#print axioms Ens.Converge.C254_adaGrad_limit
#print axioms Ens.Converge.C255_rmsProp_partial
#print axioms Ens.Converge.C255_rmsProp_refuted
#print axioms Ens.Converge.C256_gradient_exit
#print axioms Ens.Converge.C256_linear
#print axioms Ens.Converge.C256_iterations
#print axioms Ens.Converge.C256_terminates
#print axioms Ens.Converge.C256_stationary_refuted
#print axioms Ens.Converge.C257_tolerance
#print axioms Ens.Converge.C257_evaluations
#print axioms Ens.Converge.C257_linear
#print axioms Ens.Converge.C257_tolerance_refuted
#print axioms Ens.Converge.C258_amsGrad_regret
#print axioms Ens.Converge.C258_padam_regret
#print axioms Ens.Converge.C259_sgd
#print axioms Ens.Converge.C259_adaGrad
#print axioms Ens.Converge.C259_amsGrad
#print axioms Ens.Converge.C259_padam
#print axioms Ens.Converge.C259_adam_stays
#print axioms Ens.Converge.C259_rmsProp_stays
#print axioms Ens.Converge.C259_adam_refuted
#print axioms Ens.Converge.C259_rmsProp_refuted
#print axioms Ens.Converge.C260_momentum_regret
#print axioms Ens.Converge.C260_nesterov_regret
#print axioms Ens.Converge.C260_qh_regret
#print axioms Ens.Converge.C260_momentum_close
#print axioms Ens.Converge.C260_nesterov_close
#print axioms Ens.Converge.C260_qh_close
#print axioms Ens.Converge.C261_adaMax_stays
#print axioms Ens.Converge.C261_adaMax_refuted
#print axioms Ens.Converge.C261_nadam_stays
#print axioms Ens.Converge.C261_nadam_refuted
#print axioms Ens.Converge.C261_nadaMax_stays
#print axioms Ens.Converge.C261_nadaMax_refuted
#print axioms Ens.Converge.C261_qhAdam_stays
#print axioms Ens.Converge.C261_qhAdam_refuted
#print axioms Ens.Converge.C261_adaBelief_stays
#print axioms Ens.Converge.C261_adaBelief_refuted
#print axioms Ens.Converge.C261_optimisticAdam_stays
#print axioms Ens.Converge.C261_optimisticAdam_refuted
#print axioms Ens.Converge.C262_svrg_descends
#print axioms Ens.Converge.C262_svrg_tolerance
#print axioms Ens.Converge.C262_svrg_passes
#print axioms Ens.Converge.C262_svrg_terminates
#print axioms Ens.Converge.C262_svrg_linear
#print axioms Ens.Converge.C263_sarah_descends
#print axioms Ens.Converge.C263_sarah_tolerance
#print axioms Ens.Converge.C263_sarah_passes
#print axioms Ens.Converge.C263_sarah_terminates
#print axioms Ens.Converge.C263_sarah_linear
#print axioms Ens.Converge.C263_sarah_fast
#print axioms Ens.Cmaes.Numeric.C264_weights
#print axioms Ens.Cmaes.Numeric.C264_rates
#print axioms Ens.Cmaes.Numeric.C264_damping_thresholds
#print axioms Ens.Cmaes.Numeric.C264_active
#print axioms Ens.Cmaes.Numeric.C265_cmaes
#print axioms Ens.Cmaes.Numeric.C265_active
#print axioms Ens.Cmaes.Numeric.C266_cmaes
#print axioms Ens.Cmaes.Numeric.C266_active
#print axioms Ens.Cmaes.Numeric.C267_path_exact
#print axioms Ens.Cmaes.Numeric.C267_path_partial
#print axioms Ens.Cmaes.Numeric.C267_path_refuted
#print axioms Ens.Cmaes.Numeric.C268_order
#print axioms Ens.Cmaes.Numeric.C268_translation
#print axioms Ens.Cmaes.Numeric.C268_scale
#print axioms Ens.Cmaes.Numeric.C269_repair_exact
#print axioms Ens.Cmaes.Numeric.C269_repair_partial
#print axioms Ens.Cmaes.Numeric.C269_repair_refuted
#print axioms Ens.Cmaes.Numeric.C270_shape_exact
#print axioms Ens.Cmaes.Numeric.C270_shape_partial
#print axioms Ens.Cmaes.Numeric.C270_shape_refuted
#print axioms Ens.Cmaes.Numeric.C271_population_partial
#print axioms Ens.Cmaes.Numeric.C271_population_refuted
#print axioms Ens.De.C272_order
#print axioms Ens.De.C272_translation
#print axioms Ens.Cne.C273_order
#print axioms Ens.Cne.C273_translation
#print axioms Ens.Pso.C274_order
#print axioms Ens.Pso.C274_translation
#print axioms Ens.Sa.C275_invariance
#print axioms Ens.Psgd.C276_flag_partial
#print axioms Ens.Psgd.C276_uninterrupted_partial
#print axioms Ens.Psgd.C276_one_thread_partial
#print axioms Ens.Psgd.C276_flag_refuted
#print axioms Ens.Psgd.C276_optimize_refuted
#print axioms Ens.Lookahead.C277_rate
#print axioms Ens.Lookahead.C277_descent
#print axioms Ens.Lookahead.C277_convexity_needed
#print axioms Ens.Problems.Logistic.C278_smooth
#print axioms Ens.Problems.Logistic.C278_minimiser
#print axioms Ens.Problems.Logistic.C278_gd
#print axioms Ens.Problems.Logistic.C278_sgd
#print axioms Ens.Problems.Logistic.C278_svrg
#print axioms Ens.AugLag.C279_updates
#print axioms Ens.AugLag.C279_converged
#print axioms Ens.AugLag.C279_progress
#print axioms Ens.AugLag.C279_unlimited_refuted
#print axioms Ens.Fw.C280_support
#print axioms Ens.Fw.C280_accuracy
#print axioms Ens.Fw.C280_exact
#print axioms Ens.Fw.C280_ends
#print axioms Ens.Moo.C281_nsga2_units
#print axioms Ens.Moo.C281_monotone_refuted
#print axioms Ens.Moo.Moead.C282_moead
#print axioms Ens.Moo.Moead.C282_tchebycheff
#print axioms Ens.Moo.Moead.C282_weighted
#print axioms Ens.Moo.Moead.C282_pbi
#print axioms Ens.Moo.Moead.C282_units_refuted
#print axioms Ens.Converge.C283_coordinates_partial
#print axioms Ens.Converge.C283_reflections
#print axioms Ens.Converge.C283_demonSgd_refuted
#print axioms Ens.Converge.C284_vanilla
#print axioms Ens.Converge.C284_momentum
#print axioms Ens.Converge.C284_nesterov
#print axioms Ens.Converge.C284_qh
#print axioms Ens.Converge.gradient_transport
#print axioms Ens.Converge.C284_adam_refuted
#print axioms Ens.Converge.C284_adaGrad_refuted
#print axioms Ens.Converge.C284_rmsProp_refuted
#print axioms Ens.Converge.C285_lbfgs
#print axioms Ens.Converge.C285_offset_refuted
#print axioms Ens.Spsa.C286_spsa_converges
#print axioms Ens.Spsa.C286_spsa_probability
#print axioms Ens.Converge.C287_nesterov
#print axioms Ens.Converge.C287_epochs
#print axioms Ens.Converge.C287_standard_slower
#print axioms Ens.Fw.C288_affine
#print axioms Ens.Fw.C288_transported
#print axioms Ens.Fw.C288_runs
#print axioms Ens.Fw.C288_gd_refuted
#print axioms Ens.Gd.C289_rigid
#print axioms Ens.Gd.C289_gradient
#print axioms Ens.Sa.C290_detailed_balance
#print axioms Ens.Sa.C290_stationary
#print axioms Ens.BigBatch.C291_descent
#print axioms Ens.BigBatch.C291_converges
#print axioms Ens.BigBatch.C291_ends
#print axioms Ens.Vr.Katyusha.C292_limit_partial
#print axioms Ens.Vr.Katyusha.C292_limit_is_origin
#print axioms Ens.Vr.Katyusha.C292_whole_batch
#print axioms Ens.Vr.Katyusha.C292_converges_refuted
#print axioms Ens.Converge.C293_standard
#print axioms Ens.Converge.C293_momentum
#print axioms Ens.Converge.C293_nesterov
#print axioms Ens.Converge.C293_qh
#print axioms Ens.Cne.Prob.C294_finds_level
#print axioms Ens.Cne.Prob.C294_finds_level_limit
#print axioms Ens.Cne.Prob.C294_tolerance_stops
#print axioms Ens.De.C295_closure
#print axioms Ens.De.C295_frozen_coordinate
#print axioms Ens.De.C295_weight_zero
#print axioms Ens.De.C295_not_globally_convergent
#print axioms Ens.Converge.C296_mean
#print axioms Ens.Converge.C296_share
#print axioms Ens.Converge.C296_gradient
#print axioms Ens.Converge.C297_distance
#print axioms Ens.Converge.C297_reaches
#print axioms Ens.Converge.C297_bias
#print axioms Ens.Fw.C298_rate
#print axioms Ens.Fw.C298_ends
#print axioms Ens.Fw.C298_stalls
#print axioms Ens.BigBatch.C299_one_move
#print axioms Ens.BigBatch.C299_two
#print axioms Ens.BigBatch.C299_far
#print axioms Ens.BigBatch.C299_crawls
#print axioms Ens.BigBatch.C299_hangs
#print axioms Ens.Iqn.C300_exact
#print axioms Ens.Iqn.C300_uneven
#print axioms Ens.Iqn.C300_uneven_misses
#print axioms Ens.Iqn.C300_stuck
#print axioms Ens.Problems.Schaffer4.C301_value
#print axioms Ens.Problems.Schaffer4.C301_minimisers
#print axioms Ens.AugLag.C302_start
#print axioms Ens.AugLag.C302_left
#print axioms Ens.AugLag.C302_again
#print axioms Ens.Problems.Multi.C303_dtlz5_partial
#print axioms Ens.Problems.Multi.C303_dtlz6_partial
#print axioms Ens.Problems.Multi.C303_others_refuted
#print axioms Ens.Problems.Multi.C303_dtlz6_half_refuted
#print axioms Ens.Problems.Multi.C304_maf6
#print axioms Ens.Converge.C305_rate
#print axioms Ens.Converge.C305_converges
#print axioms Ens.Converge.C305_full_again
#print axioms Ens.Converge.C305_sum_unbounded
#print axioms Ens.Converge.C305_all_or_nothing
#print axioms Ens.Vr.Svrg.C306_svrg_clip
#print axioms Ens.Vr.fullGrad_clip
#print axioms Ens.Vr.C306_sarah_refuted
#print axioms Ens.Vr.C306_katyusha_refuted
#print axioms Ens.Vr.C306_one_batch_partial
#print axioms Ens.Problems.Softmax.C307_constants
#print axioms Ens.Problems.Softmax.C307_minimiser
#print axioms Ens.Problems.Softmax.C307_gd
#print axioms Ens.Problems.Softmax.C307_gd_intercept
#print axioms Ens.Problems.Softmax.C307_lbfgs
#print axioms Ens.Problems.Softmax.C307_cd
#print axioms Ens.Shape.C308_clip_refuted
#print axioms Ens.Shape.C308_clip_partial
#print axioms Ens.Shape.C308_clip_tight
#print axioms Ens.Shape.C308_lbfgs_stop_refuted
#print axioms Ens.Shape.C308_lbfgs_stop_partial
#print axioms Ens.Shape.C308_lbfgs_no_later
#print axioms Ens.Shape.C308_wnGrad_refuted
#print axioms Ens.Shape.C308_wnGrad_partial
#print axioms Ens.Moo.Bounds.C309_first
#print axioms Ens.Moo.Bounds.C309_reuse_refuted
#print axioms Ens.Moo.Bounds.C309_reuse_partial
#print axioms Ens.Moo.Bounds.C309_accepted
#print axioms Ens.Moo.Bounds.C309_vector
#print axioms Ens.Moo.Bounds.C309_vector_mismatch
#print axioms Ens.Moo.Bounds.C309_inside
#print axioms Ens.Moo.Bounds.C309_pso_refuted
#print axioms Ens.Moo.Bounds.C309_pso_partial
#print axioms Ens.Moo.Events.C310_nsga2
#print axioms Ens.Moo.Events.C310_nsga2_cost
#print axioms Ens.Moo.Events.C310_agemoea
#print axioms Ens.Moo.Events.C310_agemoea_cost
#print axioms Ens.Moo.Events.C310_moead
#print axioms Ens.Moo.Events.C310_moead_cost
#print axioms Ens.Sgd.C311_sgd
#print axioms Ens.Sgd.C311_sgd_stop
#print axioms Ens.Sgd.C311_sgd_object
#print axioms Ens.Gd.C311_gd
#print axioms Ens.Gd.C311_gd_stop
#print axioms Ens.Sa.C311_sa
#print axioms Ens.Fw.C311_fw
#print axioms Ens.Sgd.C312_sgdr
#print axioms Ens.Sgd.C312_snapshot_partial
#print axioms Ens.Sgd.C312_snapshot_refuted
#print axioms Ens.Sgd.C313_sgd
#print axioms Ens.Sgd.C313_sgd_object
#print axioms Ens.Sgd.C313_sgd_stateless
#print axioms Ens.Sgd.C313_reset_needed
#print axioms Ens.Gd.C313_gd
#print axioms Ens.Sa.C314_sa_cold_partial
#print axioms Ens.Sa.C314_sa_budget_partial
#print axioms Ens.Sa.C314_sa_budget_coordinates_partial
#print axioms Ens.Sa.C314_sa_refuted
#print axioms Ens.De.C314_de_refuted
#print axioms Ens.Cne.C314_cne_refuted
#print axioms Ens.Psgd.C315_round
#print axioms Ens.Psgd.C315_distance
#print axioms Ens.Psgd.C315_reaches
#print axioms Ens.Psgd.C315_snapshot_is_torn
#print axioms Ens.Psgd.C315_snapshot_reads
#print axioms Ens.Psgd.C316_converges_refuted
#print axioms Ens.Psgd.C316_stalls
#print axioms Ens.Psgd.C316_round_moves
#print axioms Ens.Psgd.C316_bounded_partial
#print axioms Ens.Fw.C317_fw_partial
#print axioms Ens.Fw.C317_fw_stalls
#print axioms Ens.Fw.C317_fw_classic_refuted
#print axioms Ens.Cd.C317_cd_partial
#print axioms Ens.Cd.C317_cyclic_period
#print axioms Ens.Cd.C317_cyclic_first_feature
#print axioms Ens.Cd.C317_cyclic_calls
#print axioms Ens.Cd.C317_cd_cyclic_refuted
#print axioms Ens.Moo.Agemoea.C318_unit_partial
#print axioms Ens.Moo.Agemoea.C318_units_refuted
#print axioms Ens.Moo.Agemoea.C318_later_refuted
#print axioms Ens.Pso.C319_plateau_partial
#print axioms Ens.Pso.C319_collapse_partial
#print axioms Ens.Pso.C319_global_minimum_refuted
#print axioms Ens.Prob.ville
#print axioms Ens.Converge.C320_amsgrad_refuted
#print axioms Ens.Converge.C320_converges_only_where_all_vanish
#print axioms Ens.Converge.restless_vanilla
#print axioms Ens.Converge.restless_momentum
#print axioms Ens.Converge.restless_nesterov
#print axioms Ens.Converge.restless_qh
#print axioms Ens.Converge.restless_rmsProp
#print axioms Ens.Converge.restless_adaDelta
#print axioms Ens.Converge.restless_adam
#print axioms Ens.Converge.restless_amsGrad
#print axioms Ens.Converge.restless_padam
#print axioms Ens.Converge.restless_adaMax
#print axioms Ens.Converge.restless_adaBelief
#print axioms Ens.Converge.restless_yogi
#print axioms Ens.Converge.restless_adaBound
#print axioms Ens.Converge.restless_optimisticAdam
#print axioms Ens.EndLast.C321_fw
#print axioms Ens.EndLast.C321_augLag
#print axioms Ens.EndLast.C321_lbfgs
#print axioms Ens.EndLast.C321_psgd
#print axioms Ens.EndLast.C321_iqn
#print axioms Ens.EndLast.C321_svrg
#print axioms Ens.EndLast.C321_sarah
#print axioms Ens.EndLast.C321_katyusha
#print axioms Ens.EndLast.C321_primalDual_refuted
#print axioms Ens.Spsa.C322_setter_is_constructor_refuted
#print axioms Ens.Spsa.C322_stale_gain
#print axioms Ens.Spsa.C322_lowering_cuts_short_partial
#print axioms Ens.Spsa.C322_same_without_decay_partial
#print axioms Ens.Update.C323_setter_is_constructor_refuted
#print axioms Ens.Update.C323_raised_limit
#print axioms Ens.Update.C323_raised_limit_adam
#print axioms Ens.Update.C323_same_product_partial
#print axioms Ens.Spsa.C324_continue_refuted
#print axioms Ens.Spsa.C324_constant_gains_partial
#print axioms Ens.Spsa.after_x
#print axioms Ens.Vr.Svrg.C325_svrg
#print axioms Ens.Vr.Sarah.C325_sarah
#print axioms Ens.Vr.Katyusha.C325_katyusha_refuted
#print axioms Ens.AugLag.C326_continue_refuted
#print axioms Ens.AugLag.C326_short_calls
#print axioms Ens.AugLag.C326_continue_partial
#print axioms Ens.Lbfgs.C327_continue_refuted
#print axioms Ens.Lbfgs.C327_one_iteration
#print axioms Ens.Lbfgs.C327_last_call
#print axioms Ens.Lbfgs.direction_zero
#print axioms Ens.Psgd.C328_continue_partial
#print axioms Ens.Psgd.C328_short_calls
#print axioms Ens.Psgd.C328_continue_refuted
#print axioms Ens.Iqn.C329_stays_partial
#print axioms Ens.Iqn.C329_line
#print axioms Ens.Iqn.C329_stays_refuted
