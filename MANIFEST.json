{
 "claims": [
  {
   "property": "C01",
   "status": "proved",
   "theorems": [
    "Ens.Callbacks.C01_dispatch_in_order",
    "Ens.Callbacks.C01_stop_iff",
    "Ens.Callbacks.C01_void_or_missing_never_stops",
    "Ens.Callbacks.C01_begin_end_reach_everybody"
   ],
   "note": "callbacks called in order, each once; stop iff some bool callback asked"
  },
  {
   "property": "C02",
   "status": "proved",
   "theorems": [
    "Ens.Callbacks.C02_evaluate_then_gradient"
   ],
   "note": ""
  },
  {
   "property": "C03",
   "status": "proved",
   "theorems": [
    "Ens.Callbacks.C03_early_stop_patience",
    "Ens.Callbacks.C03_never_stops_at_record"
   ],
   "note": ""
  },
  {
   "property": "C04",
   "status": "proved",
   "theorems": [
    "Ens.Callbacks.C04_store_best_first_minimum"
   ],
   "note": "for one run with a new callback object; arbitrary strict partial order on objectives (NaN allowed)"
  },
  {
   "property": "C05",
   "status": "partial",
   "theorems": [
    "Ens.Callbacks.C05_reused_store_best_refuted",
    "Ens.Callbacks.C05_reused_store_best_partial"
   ],
   "note": "false: a reused StoreBestCoordinates keeps the best of earlier runs; the partial theorem says exactly what it returns"
  },
  {
   "property": "C06",
   "status": "proved",
   "theorems": [
    "Ens.Callbacks.C06_clip_by_norm",
    "Ens.Callbacks.C06_clip_by_norm_idem"
   ],
   "note": ""
  },
  {
   "property": "C07",
   "status": "proved",
   "theorems": [
    "Ens.Callbacks.C07_clip_by_value"
   ],
   "note": ""
  },
  {
   "property": "C08",
   "status": "proved",
   "theorems": [
    "Ens.Sgd.C08_sgd_cyclic_visits",
    "Ens.Sgd.C08_sgd_epoch_visits_each_once"
   ],
   "note": ""
  },
  {
   "property": "C09",
   "status": "proved",
   "theorems": [
    "Ens.Sgd.C09_sgd_budget",
    "Ens.Sgd.C09_sgd_terminates",
    "Ens.Sgd.C09_sgd_fuel_irrelevant"
   ],
   "note": ""
  },
  {
   "property": "C10",
   "status": "proved",
   "theorems": [
    "Ens.Sgd.C10_sgd_exact_objective",
    "Ens.Sgd.C10_sgd_exact_objective_sum"
   ],
   "note": ""
  },
  {
   "property": "C11",
   "status": "partial",
   "theorems": [
    "Ens.Sgd.C11_sgd_protocol",
    "Ens.Sgd.C11_sgd_prompt_stop_partial",
    "Ens.Sgd.C11_sgd_no_step_after_stop_refuted"
   ],
   "note": "protocol proved; the claim that no step is taken after a stop request is false: the update of the requesting iteration is still applied; the partial theorem bounds what happens after a request"
  },
  {
   "property": "C12",
   "status": "partial",
   "theorems": [
    "Ens.Sgd.C12_sgd_returned_value_partial",
    "Ens.Sgd.C12_sgd_returned_value_refuted"
   ],
   "note": "false: a stop request at an epoch end makes the returned objective 0; the partial theorem characterises the returned value in all cases"
  },
  {
   "property": "C13",
   "status": "partial",
   "theorems": [
    "Ens.Sgd.C13_reset_policy_like_new_partial",
    "Ens.Sgd.C13_sgdr_reuse_refuted"
   ],
   "note": "holds for stateless decay policies (everything but SGDR); refuted for SGDR"
  },
  {
   "property": "C14",
   "status": "proved",
   "theorems": [
    "Ens.Gd.C14_gd_count_and_objective",
    "Ens.Gd.C14_gd_early_exit_point",
    "Ens.Gd.C14_gd_terminates",
    "Ens.Gd.C14_gd_protocol",
    "Ens.Gd.C14_gd_categorical_overload"
   ],
   "note": ""
  },
  {
   "property": "C15",
   "status": "partial",
   "theorems": [
    "Ens.Gd.C15_gd_objective_of_result_refuted",
    "Ens.Gd.C15_gd_one_iteration_refuted",
    "Ens.Gd.C15_gd_objective_of_result_partial"
   ],
   "note": "false when the run ends by iteration limit or stop request: the objective is that of the previous iterate; the partial theorem covers the other exits"
  },
  {
   "property": "C16",
   "status": "proved",
   "theorems": [
    "Ens.Gd.C16_gd_descent",
    "Ens.Gd.C16_gd_stationarity_rate",
    "Ens.Gd.C16_gd_convex_rate"
   ],
   "note": "real inner product spaces"
  },
  {
   "property": "C17",
   "status": "proved",
   "theorems": [
    "Ens.Grid.C17_grid_search_exhaustive_minimum",
    "Ens.Grid.C17_grid_search_global_minimum",
    "Ens.Grid.C17_grid_search_rejects"
   ],
   "note": ""
  },
  {
   "property": "C18",
   "status": "partial",
   "theorems": [
    "Ens.Cd.C18_cd_terminates",
    "Ens.Cd.C18_cd_step_changes_one_column",
    "Ens.Cd.C18_cd_returned_value",
    "Ens.Cd.C18_cyclic_descent_fair",
    "Ens.Cd.C18_cyclic_random_in_range",
    "Ens.Cd.C18_greedy_descent_partial",
    "Ens.Cd.C18_greedy_largest_magnitude_refuted"
   ],
   "note": "all parts proved except the greedy policy, which compares signed sums of partial gradients: refuted as documented, exact behaviour in the partial theorem"
  },
  {
   "property": "C19",
   "status": "proved",
   "theorems": [
    "Ens.Sa.C19_sa_returned_energy",
    "Ens.Sa.C19_sa_moves",
    "Ens.Sa.C19_sa_energy_is_objective",
    "Ens.Sa.C19_sa_acceptance",
    "Ens.Sa.C19_sa_metropolis_probability",
    "Ens.Sa.C19_sa_move_size_bounds",
    "Ens.Sa.C19_sa_exponential_cooling"
   ],
   "note": ""
  },
  {
   "property": "C20",
   "status": "proved",
   "theorems": [
    "Ens.De.C20_de_consistent",
    "Ens.De.C20_de_total"
   ],
   "note": ""
  },
  {
   "property": "C21",
   "status": "partial",
   "theorems": [
    "Ens.De.C21_de_distinct_members_refuted",
    "Ens.De.C21_de_equal_pair_refuted",
    "Ens.De.C21_de_first_index_partial",
    "Ens.De.C21_de_second_loop_never_repeats"
   ],
   "note": "false; what does hold is the partial theorem"
  },
  {
   "property": "C22",
   "status": "partial",
   "theorems": [
    "Ens.De.C22_de_returns_population_minimum_refuted",
    "Ens.De.C22_de_population_minimum_partial"
   ],
   "note": "false on the tolerance exit"
  },
  {
   "property": "C23",
   "status": "proved",
   "theorems": [
    "Ens.Pso.C23_pso_result",
    "Ens.Pso.C23_pso_best_seen"
   ],
   "note": ""
  },
  {
   "property": "C24",
   "status": "partial",
   "theorems": [
    "Ens.Pso.C24_lbest_ring_refuted",
    "Ens.Pso.C24_lbest_self_and_right_partial",
    "Ens.Pso.C24_lbest_ring"
   ],
   "note": "false; partial: never worse than self and right neighbour, and exact when the left neighbour is not the best"
  },
  {
   "property": "C25",
   "status": "partial",
   "theorems": [
    "Ens.Pso.C25_pso_scalar_bounds_refuted",
    "Ens.Pso.C25_pso_scalar_bounds_partial",
    "Ens.Pso.C25_pso_matrix_bounds",
    "Ens.Pso.C25_pso_reuse_refuted"
   ],
   "note": "false for scalar bounds and for a second call; proved for matrix bounds on first use"
  },
  {
   "property": "C26",
   "status": "proved",
   "theorems": [
    "Ens.Cmaes.C26_transform_in_box",
    "Ens.Cmaes.C26_transform_identity",
    "Ens.Cmaes.C26_transform_reaches_bounds",
    "Ens.Cmaes.C26_identity_in_box_refuted"
   ],
   "note": "the property as stated is proved; the stronger claim of the class comment (identity on the whole box) is refuted"
  },
  {
   "property": "C27",
   "status": "proved",
   "theorems": [
    "Ens.Cmaes.C27_full_selection",
    "Ens.Cmaes.C27_cmaes_result"
   ],
   "note": "for FullSelection; see C84"
  },
  {
   "property": "C28",
   "status": "partial",
   "theorems": [
    "Ens.Cmaes.C28_pop_result",
    "Ens.Cmaes.C28_one_batch_faithful",
    "Ens.Cmaes.C28_pop_batches_refuted"
   ],
   "note": "proved for objectives evaluated in one batch; false with several batches"
  },
  {
   "property": "C29",
   "status": "proved",
   "theorems": [
    "Ens.Moo.C29_dominates_iff",
    "Ens.Moo.C29_dominates_strict_order",
    "Ens.Moo.C29_dominates_asymm_any",
    "Ens.Moo.C29_nan_transitive_refuted"
   ],
   "note": "over linear orders; with NaN objectives transitivity fails (refuted)"
  },
  {
   "property": "C30",
   "status": "proved",
   "theorems": [
    "Ens.Moo.C30_fast_non_dominated_sort",
    "Ens.Moo.C30_pareto_fronts",
    "Ens.Moo.C30_nan_no_front_refuted"
   ],
   "note": "for every strict partial order; NaN objectives can leave individuals in no front"
  },
  {
   "property": "C31",
   "status": "proved",
   "theorems": [
    "Ens.Moo.C31_nsga2_in_bounds",
    "Ens.Moo.Agemoea.C31_agemoea_in_bounds",
    "Ens.Moo.Moead.C31_moead_in_bounds"
   ],
   "note": ""
  },
  {
   "property": "C32",
   "status": "partial",
   "theorems": [
    "Ens.Moo.C32_guard_refuted",
    "Ens.Moo.C32_guard_partial",
    "Ens.Moo.C32_empty_population_refuted"
   ],
   "note": "false; the partial theorem gives the exact set of rejected sizes"
  },
  {
   "property": "C33",
   "status": "partial",
   "theorems": [
    "Ens.Moo.C33_crossover_refuted",
    "Ens.Moo.C33_crossover_partial"
   ],
   "note": "false; exact children given"
  },
  {
   "property": "C34",
   "status": "partial",
   "theorems": [
    "Ens.Moo.C34_pareto_set_refuted",
    "Ens.Moo.C34_pareto_front_partial"
   ],
   "note": "false; partial: the front holds the objectives of members of the previous population"
  },
  {
   "property": "C35",
   "status": "partial",
   "theorems": [
    "Ens.Moo.Agemoea.C35_agemoea_final_iterate_refuted",
    "Ens.Moo.Agemoea.C35_agemoea_final_iterate_partial",
    "Ens.Moo.Agemoea.C35_agemoea_iterate_nondominated_refuted"
   ],
   "note": "false"
  },
  {
   "property": "C36",
   "status": "proved",
   "theorems": [
    "Ens.Moo.Moead.C36_ideal_point"
   ],
   "note": ""
  },
  {
   "property": "C37",
   "status": "proved",
   "theorems": [
    "Ens.Moo.Moead.C37_replacement"
   ],
   "note": ""
  },
  {
   "property": "C38",
   "status": "partial",
   "theorems": [
    "Ens.Moo.DasDennis.C38_binomial",
    "Ens.Moo.DasDennis.C38_uniform_weights",
    "Ens.Moo.DasDennis.C38_weights_sum_partial",
    "Ens.Moo.DasDennis.C38_weights_sum_refuted"
   ],
   "note": "count, distinctness, completeness proved; the sum is 1 + numObjectives * epsilon, so \"sums to 1\" is refuted for the default epsilon"
  },
  {
   "property": "C39",
   "status": "proved",
   "theorems": [
    "Ens.Lbfgs.C39_bfgs_direction",
    "Ens.Lbfgs.C39_descent_direction",
    "Ens.Lbfgs.C39_secant"
   ],
   "note": ""
  },
  {
   "property": "C40",
   "status": "proved",
   "theorems": [
    "Ens.Lbfgs.C40_memory"
   ],
   "note": ""
  },
  {
   "property": "C41",
   "status": "proved",
   "theorems": [
    "Ens.Psgd.C41_ranges",
    "Ens.Psgd.C41_uncovered"
   ],
   "note": ""
  },
  {
   "property": "C42",
   "status": "proved",
   "theorems": [
    "Ens.Psgd.C42_no_lost_update",
    "Ens.Psgd.C42_schedule_independent",
    "Ens.Psgd.C42_progress"
   ],
   "note": "exact arithmetic; reading a gradient is one step with an arbitrary result"
  },
  {
   "property": "C43",
   "status": "proved",
   "theorems": [
    "Ens.Vr.Svrg.C43_full_gradient",
    "Ens.Vr.Svrg.C43_exact_at_snapshot",
    "Ens.Vr.Svrg.C43_unbiased",
    "Ens.Vr.Svrg.C43_unbiased_single",
    "Ens.Vr.Svrg.C43_unbiased_batches_refuted"
   ],
   "note": "for batches of unequal size the average must be weighted by batch size; the plain average over batches is refuted"
  },
  {
   "property": "C44",
   "status": "partial",
   "theorems": [
    "Ens.Iqn.C44_aggregates_partial",
    "Ens.Iqn.C44_aggregates_uneven_partial",
    "Ens.Iqn.C44_aggregates_refuted"
   ],
   "note": "proved when the batch size divides the number of functions; otherwise the gradient aggregate has a constant error, given exactly"
  },
  {
   "property": "C45",
   "status": "proved",
   "theorems": [
    "Ens.Fw.C45_feasible",
    "Ens.Fw.C45_classic",
    "Ens.Fw.C45_linesearch"
   ],
   "note": ""
  },
  {
   "property": "C46",
   "status": "partial",
   "theorems": [
    "Ens.Fw.Lp.C46_linf",
    "Ens.Fw.Lp.C46_l1",
    "Ens.Fw.Lp.C46_lp_feasible",
    "Ens.Fw.Lp.C46_lp_partial",
    "Ens.Fw.Lp.C46_lp_refuted"
   ],
   "note": "proved for p = 1, infinity and integers; false for other p > 1, where only feasibility holds"
  },
  {
   "property": "C47",
   "status": "proved",
   "theorems": [
    "Ens.Fw.C47_gap",
    "Ens.Fw.C47_rate",
    "Ens.Fw.C47_textbook_rate_refuted"
   ],
   "note": ""
  },
  {
   "property": "C48",
   "status": "partial",
   "theorems": [
    "Ens.Fw.Proximal.C48_projection_partial",
    "Ens.Fw.Proximal.C48_nearest_refuted"
   ],
   "note": "false; in the ball, and nearest for its own radius"
  },
  {
   "property": "C49",
   "status": "proved",
   "theorems": [
    "Ens.Fw.Proximal.C49_sparse",
    "Ens.Fw.Proximal.C49_large_tau"
   ],
   "note": ""
  },
  {
   "property": "C50",
   "status": "proved",
   "theorems": [
    "Ens.AugLag.C50_gradient"
   ],
   "note": ""
  },
  {
   "property": "C51",
   "status": "proved",
   "theorems": [
    "Ens.AugLag.C51_outer_loop"
   ],
   "note": ""
  },
  {
   "property": "C52",
   "status": "proved",
   "theorems": [
    "Ens.Sdp.C52_index",
    "Ens.Sdp.C52_sparse",
    "Ens.Sdp.C52_smat_svec",
    "Ens.Sdp.C52_svec_smat",
    "Ens.Sdp.C52_isometry"
   ],
   "note": "Over the reals."
  },
  {
   "property": "C53",
   "status": "proved",
   "theorems": [
    "Ens.Sdp.C53_symkron"
   ],
   "note": "Over the reals; A need not be symmetric."
  },
  {
   "property": "C54",
   "status": "proved",
   "theorems": [
    "Ens.Holder.C54_as",
    "Ens.Holder.C54_as_empty",
    "Ens.Holder.C54_once",
    "Ens.Holder.C54_sgd",
    "Ens.Holder.C54_sgd_never_throws"
   ],
   "note": "Holders and heap modelled; the same pattern is used by SVRG, SPALeRA, BigBatchSGD, PSO and Lookahead, which are not modelled here."
  },
  {
   "property": "C55",
   "status": "partial",
   "theorems": [
    "Ens.Holder.C55_copy_refuted",
    "Ens.Holder.C55_use_refuted",
    "Ens.Holder.C55_fresh_copy_partial"
   ],
   "note": "False: the implicit copy shares the policies. A copy taken before the first Optimize() is safe (constructor then copy, then any copy-free program)."
  },
  {
   "property": "C56",
   "status": "proved",
   "theorems": [
    "Ens.Adapter.C56_values",
    "Ens.Adapter.C56_available",
    "Ens.Adapter.C56_calls"
   ],
   "note": "Full and separable forms; types and overload resolution modelled as data."
  },
  {
   "property": "C57",
   "status": "proved",
   "theorems": [
    "Ens.Update.C57_adam",
    "Ens.Update.C57_amsGrad",
    "Ens.Update.C57_padam",
    "Ens.Update.C57_qhAdam",
    "Ens.Update.C57_optimisticAdam",
    "Ens.Update.C57_adaBelief",
    "Ens.Update.C57_yogi",
    "Ens.Update.C57_rmsProp",
    "Ens.Update.C57_adaGrad",
    "Ens.Update.C57_adaSqrt",
    "Ens.Update.C57_adaDelta",
    "Ens.Update.C57_smorms3",
    "Ens.Update.C57_adaMax",
    "Ens.Update.C57_nadaMax",
    "Ens.Update.C57_nadam",
    "Ens.Update.C57_adaBound",
    "Ens.Update.C57_ftml"
   ],
   "note": "Over the reals, coordinate-wise; FTML from counter 0."
  },
  {
   "property": "C58",
   "status": "proved",
   "theorems": [
    "Ens.Update.C58_adaGrad",
    "Ens.Update.C58_rmsProp",
    "Ens.Update.C58_amsGrad_mono",
    "Ens.Update.C58_adaBound",
    "Ens.Update.C58_adam",
    "Ens.Update.C58_amsGrad"
   ],
   "note": "Over the reals."
  },
  {
   "property": "C59",
   "status": "proved",
   "theorems": [
    "Ens.Update.C59_momentum",
    "Ens.Update.C59_nesterov",
    "Ens.Update.C59_vanilla",
    "Ens.Update.C59_qh_one"
   ],
   "note": "Over the reals."
  },
  {
   "property": "C60",
   "status": "proved",
   "theorems": [
    "Ens.Update.C60_moments",
    "Ens.Update.C60_step"
   ],
   "note": "Over the reals."
  },
  {
   "property": "C61",
   "status": "proved",
   "theorems": [
    "Ens.Lookahead.C61_run_shape",
    "Ens.Lookahead.C61_ends",
    "Ens.Lookahead.C61_iteration_limit",
    "Ens.Lookahead.C61_segment",
    "Ens.Lookahead.C61_noDecay"
   ],
   "note": "Convex combination over real vector spaces; the run shape holds with abstract arithmetic."
  },
  {
   "property": "C62",
   "status": "proved",
   "theorems": [
    "Ens.Spsa.C62_run_shape",
    "Ens.Spsa.C62_returned_objective"
   ],
   "note": "Over the reals (the probes cancel exactly only without rounding)."
  },
  {
   "property": "C63",
   "status": "proved",
   "theorems": [
    "Ens.BigBatch.C63_armijo",
    "Ens.BigBatch.C63_search_ends",
    "Ens.BigBatch.C63_moves_decrease"
   ],
   "note": "Over the reals; termination for smooth batch objectives and their gradient."
  },
  {
   "property": "C64",
   "status": "proved",
   "theorems": [
    "Ens.Indicators.C64_nonneg",
    "Ens.Indicators.C64_igd_zero",
    "Ens.Indicators.C64_igdPlus_zero",
    "Ens.Indicators.C64_igdPlus_compliant",
    "Ens.Indicators.C64_igd_more_points",
    "Ens.Indicators.C64_igdPlus_le_igd",
    "Ens.Indicators.C64_nearest_is_min"
   ],
   "note": "Real arithmetic; the empty reference front (0/0) is the outcome none."
  },
  {
   "property": "C65",
   "status": "proved",
   "theorems": [
    "Ens.Problems.C65_beale",
    "Ens.Problems.C65_booth",
    "Ens.Problems.C65_colville",
    "Ens.Problems.C65_easom",
    "Ens.Problems.C65_goldsteinPrice",
    "Ens.Problems.C65_himmelblau",
    "Ens.Problems.C65_levy13",
    "Ens.Problems.C65_mcCormick",
    "Ens.Problems.C65_rosenbrock",
    "Ens.Problems.C65_threeHump",
    "Ens.Problems.C65_wood",
    "Ens.Problems.C65_gdTest",
    "Ens.Problems.C65_schaffer2",
    "Ens.Problems.C65_sphere",
    "Ens.Problems.C65_styblinski",
    "Ens.Problems.C65_sparseTest",
    "Ens.Problems.C65_sparseTestPartial",
    "Ens.Problems.C65_genRosen",
    "Ens.Problems.C65_rosenWood"
   ],
   "note": "Over the reals; Frechet derivative."
  },
  {
   "property": "C66",
   "status": "proved",
   "theorems": [
    "Ens.Problems.C66_sphere",
    "Ens.Problems.C66_styblinski",
    "Ens.Problems.C66_schwefel",
    "Ens.Problems.C66_sgdTest",
    "Ens.Problems.C66_sparseTest",
    "Ens.Problems.C66_sparseTestGrad",
    "Ens.Problems.C66_genRosen"
   ],
   "note": "Over the reals."
  },
  {
   "property": "C67",
   "status": "proved",
   "theorems": [
    "Ens.Problems.C67_ackley",
    "Ens.Problems.C67_beale",
    "Ens.Problems.C67_booth",
    "Ens.Problems.C67_bukin",
    "Ens.Problems.C67_colville",
    "Ens.Problems.C67_goldsteinPrice",
    "Ens.Problems.C67_himmelblau",
    "Ens.Problems.C67_levy13",
    "Ens.Problems.C67_matyas",
    "Ens.Problems.C67_rosenbrock",
    "Ens.Problems.C67_schaffer2",
    "Ens.Problems.C67_threeHump",
    "Ens.Problems.C67_wood",
    "Ens.Problems.C67_gdTest",
    "Ens.Problems.C67_testFuncFW",
    "Ens.Problems.C67_sphere",
    "Ens.Problems.C67_rastrigin",
    "Ens.Problems.C67_genRosen",
    "Ens.Problems.C67_rosenWood",
    "Ens.Problems.C67_sgdTest",
    "Ens.Problems.C67_sparseTest"
   ],
   "note": "Over the reals. The minimiser of TestFuncFW is that of its comment (it has no GetFinalPoint)."
  },
  {
   "property": "C68",
   "status": "partial",
   "theorems": [
    "Ens.Cne.C68_cne_crossover_complementary",
    "Ens.Cne.C68_cne_parents_distinct",
    "Ens.Cne.C68_cne_best_never_lost",
    "Ens.Cne.C68_cne_returns",
    "Ens.Cne.C68_cne_elite_unchanged_refuted"
   ],
   "note": "the best member is never lost (proved); elite members other than the best are mutated (refuted part)"
  },
  {
   "property": "C69",
   "status": "proved",
   "theorems": [
    "Ens.Fw.C69_line_search"
   ],
   "note": ""
  },
  {
   "property": "C70",
   "status": "partial",
   "theorems": [
    "Ens.Lrsdp.C70_history_partial",
    "Ens.Lrsdp.C70_history_refuted"
   ],
   "note": "False in general: Gradient, Evaluate and sparse EvaluateConstraint answer for the coordinates of the latest augmented Evaluate. Proved for every sequence of calls whose reads are at those coordinates."
  },
  {
   "property": "C71",
   "status": "proved",
   "theorems": [
    "Ens.Callbacks.C71_query_front",
    "Ens.Callbacks.C71_query_front_reuse"
   ],
   "note": ""
  },
  {
   "property": "C72",
   "status": "proved",
   "theorems": [
    "Ens.Sgd.C72_sgdr_step_in_range",
    "Ens.Sgd.C72_sgdr_restart_full_step",
    "Ens.Sgd.C72_sgdr_no_decay_before_start"
   ],
   "note": "real arithmetic"
  },
  {
   "property": "C73",
   "status": "partial",
   "theorems": [
    "Ens.Sgd.C73_sgdr_decay_starts_after_epochs_refuted",
    "Ens.Sgd.C72_sgdr_no_decay_before_start"
   ],
   "note": "false: the schedule counts batches; C72_sgdr_no_decay_before_start is the true counterpart"
  },
  {
   "property": "C74",
   "status": "partial",
   "theorems": [
    "Ens.Sa.C74_sa_zero_means_no_limit_refuted",
    "Ens.Sa.C74_sa_zero_iterations_partial"
   ],
   "note": "false; the partial theorem says what happens instead"
  },
  {
   "property": "C75",
   "status": "partial",
   "theorems": [
    "Ens.Sa.C75_sa_reuse_like_new_refuted",
    "Ens.Sa.C75_sa_temperature_left_partial"
   ],
   "note": "false; the partial theorem gives the temperature a run leaves behind"
  },
  {
   "property": "C76",
   "status": "partial",
   "theorems": [
    "Ens.De.C76_de_crossover_all_coordinates_refuted",
    "Ens.De.C76_de_crossover_partial"
   ],
   "note": "false for matrices with more than one column; the partial theorem gives the crossed elements"
  },
  {
   "property": "C77",
   "status": "partial",
   "theorems": [
    "Ens.Cne.C77_cne_stop_before_first_generation_refuted",
    "Ens.Cne.C77_cne_zero_generations_refuted",
    "Ens.Cne.C68_cne_returns"
   ],
   "note": "false; C68_cne_returns is the positive counterpart"
  },
  {
   "property": "C78",
   "status": "partial",
   "theorems": [
    "Ens.Cne.C78_cne_guard_refuted",
    "Ens.Cne.C78_cne_guard_partial"
   ],
   "note": "false for zero elite members and an odd population; exact otherwise"
  },
  {
   "property": "C79",
   "status": "partial",
   "theorems": [
    "Ens.Pso.C79_pso_consistent_refuted",
    "Ens.Pso.C79_pso_zero_horizon_refuted",
    "Ens.Pso.C79_pso_nan_refuted",
    "Ens.Pso.C23_pso_result"
   ],
   "note": "false in three ways; C23 is the positive counterpart"
  },
  {
   "property": "C80",
   "status": "proved",
   "theorems": [
    "Ens.Pso.C80_pso_iterations",
    "Ens.Pso.C80_pso_negative_tolerance"
   ],
   "note": ""
  },
  {
   "property": "C81",
   "status": "partial",
   "theorems": [
    "Ens.Pso.C81_constriction_own_factors_refuted",
    "Ens.Pso.C81_constriction_first_call",
    "Ens.Pso.C81_constriction_partial"
   ],
   "note": "false for the second object in a process; proved for the first call"
  },
  {
   "property": "C83",
   "status": "proved",
   "theorems": [
    "Ens.Cmaes.C83_cmaes_stopping"
   ],
   "note": ""
  },
  {
   "property": "C84",
   "status": "partial",
   "theorems": [
    "Ens.Cmaes.C84_random_selection_refuted",
    "Ens.Cmaes.C84_any_selection_partial",
    "Ens.Cmaes.C84_random_value_partial"
   ],
   "note": "false for RandomSelection; C27 for FullSelection; the partial theorems say what the value is for any policy"
  },
  {
   "property": "C85",
   "status": "partial",
   "theorems": [
    "Ens.Cmaes.C85_pop_budget_refuted",
    "Ens.Cmaes.C85_pop_budget_partial"
   ],
   "note": "false; the partial theorem gives the quantity that is compared with the budget"
  },
  {
   "property": "C86",
   "status": "partial",
   "theorems": [
    "Ens.Cmaes.C86_pop_stop_refuted",
    "Ens.Cmaes.C86_pop_stop_partial"
   ],
   "note": "false; proved: another run is started only while restarts and (counted) evaluations remain"
  },
  {
   "property": "C87",
   "status": "partial",
   "theorems": [
    "Ens.Cmaes.C87_pop_best_candidate_refuted",
    "Ens.Cmaes.C87_pop_best_candidate_partial"
   ],
   "note": "false; proved for the candidates of a run that returned less than all before it, and of those before it; C28_pop_result bounds the returned value by the results of the runs"
  },
  {
   "property": "C88",
   "status": "partial",
   "theorems": [
    "Ens.Moo.C88_evaluation_count_refuted",
    "Ens.Moo.C88_evaluation_count_partial"
   ],
   "note": "false; exact count given"
  },
  {
   "property": "C89",
   "status": "partial",
   "theorems": [
    "Ens.Moo.C89_nsga2_value_partial",
    "Ens.Moo.C89_nsga2_value_refuted",
    "Ens.Moo.Agemoea.C89_agemoea_value_refuted",
    "Ens.Moo.Agemoea.C89_agemoea_value_partial",
    "Ens.Moo.Moead.C89_moead_value_refuted",
    "Ens.Moo.Moead.C89_moead_value_partial"
   ],
   "note": "false for all three; what is returned is stated in the partial theorems"
  },
  {
   "property": "C90",
   "status": "proved",
   "theorems": [
    "Ens.Moo.C90_crowding_distance",
    "Ens.Moo.C90_extremes_preferred"
   ],
   "note": ""
  },
  {
   "property": "C91",
   "status": "partial",
   "theorems": [
    "Ens.Moo.C91_nsga2_elitism_refuted",
    "Ens.Moo.C91_best_kept_partial",
    "Ens.Moo.C91_copies_refuted"
   ],
   "note": "false; proved: the best value of every objective is kept if no child equals a parent and the parents differ; false with copies"
  },
  {
   "property": "C92",
   "status": "partial",
   "theorems": [
    "Ens.Moo.C92_nsga2_returns",
    "Ens.Moo.C92_nsga2_no_generations_refuted"
   ],
   "note": "false for maxGenerations = 0; proved for at least 4 members and one generation"
  },
  {
   "property": "C93",
   "status": "partial",
   "theorems": [
    "Ens.Moo.Moead.C93_moead_nondominated_refuted",
    "Ens.Moo.Moead.C93_position_partial"
   ],
   "note": "false; no member is dominated by an earlier one of its position"
  },
  {
   "property": "C94",
   "status": "proved",
   "theorems": [
    "Ens.Moo.Agemoea.C94_agemoea_set_and_front"
   ],
   "note": ""
  },
  {
   "property": "C95",
   "status": "proved",
   "theorems": [
    "Ens.Moo.Moead.C95_moead_set_and_front"
   ],
   "note": ""
  },
  {
   "property": "C96",
   "status": "proved",
   "theorems": [
    "Ens.Moo.Moead.C96_weighted_monotone"
   ],
   "note": ""
  },
  {
   "property": "C97",
   "status": "partial",
   "theorems": [
    "Ens.Moo.Moead.C97_mating_distinct",
    "Ens.Moo.Moead.C97_mating_neighbours_partial",
    "Ens.Moo.Moead.C97_mating_neighbours_refuted"
   ],
   "note": "distinctness proved; neighbourhood membership false when the draws coincide"
  },
  {
   "property": "C98",
   "status": "partial",
   "theorems": [
    "Ens.Moo.Moead.C98_neighbours_partial",
    "Ens.Moo.Moead.C98_neighbours_refuted"
   ],
   "note": "proved for weights different from all others"
  },
  {
   "property": "C99",
   "status": "partial",
   "theorems": [
    "Ens.Lbfgs.C99_value_partial",
    "Ens.Lbfgs.C99_value_refuted"
   ],
   "note": "equality is false; the inequality is proved"
  },
  {
   "property": "C100",
   "status": "partial",
   "theorems": [
    "Ens.Lbfgs.C100_progress_partial",
    "Ens.Lbfgs.C100_progress_refuted"
   ],
   "note": "false for the last iteration"
  },
  {
   "property": "C101",
   "status": "partial",
   "theorems": [
    "Ens.Lbfgs.C101_reuse_partial",
    "Ens.Lbfgs.C101_reuse_refuted"
   ],
   "note": "false; what the second call does is proved"
  },
  {
   "property": "C102",
   "status": "proved",
   "theorems": [
    "Ens.Lbfgs.C102_line_search"
   ],
   "note": ""
  },
  {
   "property": "C103",
   "status": "partial",
   "theorems": [
    "Ens.Lbfgs.C103_gradient_partial",
    "Ens.Lbfgs.C103_gradient_refuted"
   ],
   "note": "false when the best trial is not the last"
  },
  {
   "property": "C104",
   "status": "partial",
   "theorems": [
    "Ens.Psgd.C104_rounds_partial",
    "Ens.Psgd.C104_value_refuted"
   ],
   "note": "false as stated; exact round count proved"
  },
  {
   "property": "C105",
   "status": "proved",
   "theorems": [
    "Ens.Psgd.C105_step",
    "Ens.Psgd.C105_positive_decreasing",
    "Ens.Psgd.C105_summable"
   ],
   "note": ""
  },
  {
   "property": "C106",
   "status": "partial",
   "theorems": [
    "Ens.Vr.Svrg.C106_svrg_protocol",
    "Ens.Vr.Svrg.C106_svrg_record",
    "Ens.Vr.Svrg.C106_svrg_value",
    "Ens.Vr.Svrg.C106_svrg_stale_value_refuted",
    "Ens.Vr.Sarah.C106_sarah_protocol",
    "Ens.Vr.Sarah.C106_sarah_record",
    "Ens.Vr.Sarah.C106_sarah_value",
    "Ens.Vr.Katyusha.C106_katyusha_protocol",
    "Ens.Vr.Katyusha.C106_katyusha_record",
    "Ens.Vr.Katyusha.C106_katyusha_value_partial",
    "Ens.Vr.Katyusha.C106_katyusha_value_refuted"
   ],
   "note": "protocol proved for all three, and that its trace is the record user code keeps; the value is false without exactObjective (and for Katyusha on the tolerance exit)"
  },
  {
   "property": "C107",
   "status": "partial",
   "theorems": [
    "Ens.Vr.Svrg.C107_bb_partial",
    "Ens.Vr.Svrg.C107_bb_curvature",
    "Ens.Vr.Svrg.C107_bb_scalar",
    "Ens.Vr.Svrg.C107_bb_refuted",
    "Ens.Vr.Svrg.C107_bb_diverges_refuted"
   ],
   "note": "false; bounds proved under a sign condition"
  },
  {
   "property": "C108",
   "status": "partial",
   "theorems": [
    "Ens.Vr.Sarah.C108_estimator_partial",
    "Ens.Vr.Sarah.C108_estimator_refuted"
   ],
   "note": "false; exact estimator proved"
  },
  {
   "property": "C109",
   "status": "partial",
   "theorems": [
    "Ens.Vr.Sarah.C109_notified_refuted",
    "Ens.Vr.Sarah.C109_notified_partial"
   ],
   "note": "false; proved: exactly one step per epoch is not notified (SARAH), at most two (SARAH+)"
  },
  {
   "property": "C110",
   "status": "partial",
   "theorems": [
    "Ens.Vr.Katyusha.C110_weights_refuted",
    "Ens.Vr.Katyusha.C110_fixed_point_partial",
    "Ens.Vr.Katyusha.C110_minimiser_not_fixed_refuted"
   ],
   "note": "false for all parameters; what the epoch computes is proved"
  },
  {
   "property": "C111",
   "status": "partial",
   "theorems": [
    "Ens.Vr.Katyusha.C111_full_gradient_partial",
    "Ens.Vr.Katyusha.C111_full_gradient_refuted"
   ],
   "note": "false from the second epoch on"
  },
  {
   "property": "C112",
   "status": "partial",
   "theorems": [
    "Ens.Vr.Reuse.C112_svrg_reuse_partial",
    "Ens.Vr.Reuse.C112_svrg_reuse_refuted",
    "Ens.Vr.Reuse.C112_sarah_reuse_refuted",
    "Ens.Vr.Reuse.C112_katyusha_reuse_refuted"
   ],
   "note": "false for innerIterations = 0"
  },
  {
   "property": "C113",
   "status": "proved",
   "theorems": [
    "Ens.Iqn.C113_pass"
   ],
   "note": ""
  },
  {
   "property": "C114",
   "status": "proved",
   "theorems": [
    "Ens.Iqn.C114_secant",
    "Ens.Iqn.C114_step"
   ],
   "note": ""
  },
  {
   "property": "C115",
   "status": "partial",
   "theorems": [
    "Ens.Iqn.C115_run_partial",
    "Ens.Iqn.C115_stop_refuted",
    "Ens.Iqn.C115_value_refuted"
   ],
   "note": "false; exact number of passes and value proved"
  },
  {
   "property": "C116",
   "status": "partial",
   "theorems": [
    "Ens.Iqn.C116_shape_partial",
    "Ens.Iqn.C116_shape_refuted"
   ],
   "note": "false; row vectors only"
  },
  {
   "property": "C117",
   "status": "partial",
   "theorems": [
    "Ens.Fw.C117_descent_partial",
    "Ens.Fw.C117_descent_refuted"
   ],
   "note": "false in general"
  },
  {
   "property": "C118",
   "status": "partial",
   "theorems": [
    "Ens.Fw.C118_run_partial",
    "Ens.Fw.C118_value_refuted",
    "Ens.Fw.C118_stop_refuted"
   ],
   "note": "false; exact behaviour proved"
  },
  {
   "property": "C119",
   "status": "partial",
   "theorems": [
    "Ens.Fw.Lp.C119_matrix_refuted",
    "Ens.Fw.Lp.C119_columns_partial"
   ],
   "note": "false"
  },
  {
   "property": "C120",
   "status": "partial",
   "theorems": [
    "Ens.Fw.Lp.C120_scan",
    "Ens.Fw.Lp.C120_groups_partial",
    "Ens.Fw.Lp.C120_groups_refuted"
   ],
   "note": "proved for p = 1, 2, infinity; false for p = 3"
  },
  {
   "property": "C121",
   "status": "proved",
   "theorems": [
    "Ens.AugLag.C121_stop"
   ],
   "note": ""
  },
  {
   "property": "C122",
   "status": "partial",
   "theorems": [
    "Ens.AugLag.C122_reuse_refuted",
    "Ens.AugLag.C122_reuse_partial"
   ],
   "note": "false: proved that runs are independent of earlier ones as long as no callback has asked to stop, and that every run after a stopped one does nothing"
  },
  {
   "property": "C123",
   "status": "partial",
   "theorems": [
    "Ens.AugLag.C123_feasible_refuted",
    "Ens.AugLag.C279_converged"
   ],
   "note": "false in general; proved with a bound when the problem has a saddle point and the inner solver minimises (C279)"
  },
  {
   "property": "C124",
   "status": "partial",
   "theorems": [
    "Ens.AugLag.C124_value_refuted",
    "Ens.AugLag.C124_value_partial"
   ],
   "note": "false; proved: it is the value or its square, for an existing constraint at the point told"
  },
  {
   "property": "C125",
   "status": "proved",
   "theorems": [
    "Ens.AugLag.C125_multipliers",
    "Ens.AugLag.C125_exact"
   ],
   "note": ""
  },
  {
   "property": "C126",
   "status": "partial",
   "theorems": [
    "Ens.AugLag.C126_size_refuted",
    "Ens.AugLag.C126_size_partial"
   ],
   "note": "false: proved that none or as many multipliers as constraints are safe and that too few multipliers are always read out of bounds"
  },
  {
   "property": "C127",
   "status": "partial",
   "theorems": [
    "Ens.Holder.C127_leak_refuted",
    "Ens.Holder.C127_lost_partial"
   ],
   "note": "False: Set on a full holder loses the old object; proved that exactly one object is lost for each such Set."
  },
  {
   "property": "C128",
   "status": "partial",
   "theorems": [
    "Ens.Adapter.C128_preferred_refuted",
    "Ens.Adapter.C128_ewg_refuted",
    "Ens.Adapter.C128_preferred_partial",
    "Ens.Adapter.C128_static_refuted"
   ],
   "note": "False for some mixed declaration forms and for static methods; proved for the rest."
  },
  {
   "property": "C129",
   "status": "partial",
   "theorems": [
    "Ens.Update.C129_still",
    "Ens.Update.C129_demonSgd_refuted",
    "Ens.Update.C129_demonAdam_refuted",
    "Ens.Update.C129_demonSgd",
    "Ens.Update.C135_still"
   ],
   "note": "Holds for all policies but the DEMON ones (FTML from counter 0)."
  },
  {
   "property": "C130",
   "status": "proved",
   "theorems": [
    "Ens.Update.C130_adam",
    "Ens.Update.C130_amsGrad",
    "Ens.Update.C130_adaMax",
    "Ens.Update.C130_yogi",
    "Ens.Update.C130_rmsProp",
    "Ens.Update.C130_adaGrad",
    "Ens.Update.C130_optimisticAdam",
    "Ens.Update.C130_qhAdam",
    "Ens.Update.C130_nadam",
    "Ens.Update.C130_adaBound_refuted"
   ],
   "note": "Over the reals; AdaBound shown not to have the property, which is not claimed for it."
  },
  {
   "property": "C131",
   "status": "partial",
   "theorems": [
    "Ens.Update.C131_qhAdam_adam_partial",
    "Ens.Update.C131_qhAdam_adam_refuted",
    "Ens.Update.C131_qhAdam_rmsProp_refuted",
    "Ens.Update.C131_qhAdam_rmsProp_partial",
    "Ens.Update.C131_qhAdam_nadam_refuted",
    "Ens.Update.C131_padam_amsGrad",
    "Ens.Update.C131_adam_rmsProp"
   ],
   "note": "The documented equivalences are false as stated; what holds is proved for epsilon = 0."
  },
  {
   "property": "C132",
   "status": "proved",
   "theorems": [
    "Ens.Update.C132_growth",
    "Ens.Update.C132_step"
   ],
   "note": "In any normed space."
  },
  {
   "property": "C133",
   "status": "partial",
   "theorems": [
    "Ens.Update.C133_wnGrad_refuted",
    "Ens.Update.C133_demonSgd_refuted",
    "Ens.Update.C133_swats_refuted",
    "Ens.Update.C133_stateless",
    "Ens.Update.C133_stateless_run"
   ],
   "note": "False for three policies; true for those with stateless parents."
  },
  {
   "property": "C134",
   "status": "partial",
   "theorems": [
    "Ens.Update.C134_range",
    "Ens.Update.C134_forgets",
    "Ens.Update.C134_range_refuted"
   ],
   "note": "Holds up to momentumIterations only."
  },
  {
   "property": "C135",
   "status": "partial",
   "theorems": [
    "Ens.Update.C135_ftml",
    "Ens.Update.C135_still",
    "Ens.Update.C135_counter_refuted"
   ],
   "note": "Closed form proved for a counter starting from 0; the code does not initialise it."
  },
  {
   "property": "C136",
   "status": "proved",
   "theorems": [
    "Ens.Update.C136_clipping",
    "Ens.Update.C136_step"
   ],
   "note": ""
  },
  {
   "property": "C137",
   "status": "proved",
   "theorems": [
    "Ens.Update.C137_telescopes"
   ],
   "note": "Over the reals."
  },
  {
   "property": "C138",
   "status": "partial",
   "theorems": [
    "Ens.Update.C138_latch",
    "Ens.Update.C138_rate_refuted"
   ],
   "note": "The rate can be negative."
  },
  {
   "property": "C139",
   "status": "partial",
   "theorems": [
    "Ens.Spsa.C139_tolerance_partial",
    "Ens.Spsa.C139_tolerance_refuted",
    "Ens.Spsa.C139_zero_means_no_limit_refuted"
   ],
   "note": "Both rules are refuted; the tolerance rule holds after two moves."
  },
  {
   "property": "C140",
   "status": "partial",
   "theorems": [
    "Ens.Lookahead.C140_exact_objective",
    "Ens.Lookahead.C140_inner_exit",
    "Ens.Lookahead.C140_objective_of_coordinates_refuted"
   ],
   "note": "Holds with exactObjective and on the tolerance and failure exits."
  },
  {
   "property": "C141",
   "status": "partial",
   "theorems": [
    "Ens.Lookahead.C141_begin_count_partial",
    "Ens.Lookahead.C141_stop_request_honoured_refuted"
   ],
   "note": "Exact number of announcements proved; the stop request claim refuted."
  },
  {
   "property": "C142",
   "status": "proved",
   "theorems": [
    "Ens.Spsa.C142_unbiased",
    "Ens.Spsa.C142_descent_direction"
   ],
   "note": "Over the reals."
  },
  {
   "property": "C143",
   "status": "proved",
   "theorems": [
    "Ens.BigBatch.C143_ends_in_bounds"
   ],
   "note": "Abstract arithmetic; the step size policy is assumed to return."
  },
  {
   "property": "C144",
   "status": "proved",
   "theorems": [
    "Ens.BigBatch.C144_batch_size"
   ],
   "note": ""
  },
  {
   "property": "C145",
   "status": "partial",
   "theorems": [
    "Ens.BigBatch.C145_gradient_limit_partial",
    "Ens.BigBatch.C145_gradient_limit_refuted"
   ],
   "note": "Refuted; fewer than maxIterations + numFunctions proved."
  },
  {
   "property": "C146",
   "status": "partial",
   "theorems": [
    "Ens.BigBatch.C146_batch_gradient_partial",
    "Ens.BigBatch.C146_batch_gradient_refuted"
   ],
   "note": "Holds when the batch does not grow; exact description otherwise."
  },
  {
   "property": "C147",
   "status": "partial",
   "theorems": [
    "Ens.BigBatch.C147_two_samples",
    "Ens.BigBatch.C147_variance_refuted"
   ],
   "note": "Refuted."
  },
  {
   "property": "C148",
   "status": "partial",
   "theorems": [
    "Ens.BigBatch.C148_two_moves",
    "Ens.BigBatch.C148_search_ends_refuted"
   ],
   "note": "The conditions hold when it returns; returning is refuted over the reals."
  },
  {
   "property": "C149",
   "status": "proved",
   "theorems": [
    "Ens.Sgd.C149_sgd_is_textbook"
   ],
   "note": "Abstract arithmetic and policies."
  },
  {
   "property": "C150",
   "status": "proved",
   "theorems": [
    "Ens.Sgd.C150_sgd_epoch_tests"
   ],
   "note": "Abstract arithmetic."
  },
  {
   "property": "C151",
   "status": "proved",
   "theorems": [
    "Ens.Gd.C151_gd_is_textbook"
   ],
   "note": "Abstract arithmetic."
  },
  {
   "property": "C152",
   "status": "proved",
   "theorems": [
    "Ens.Callbacks.C152_timer_stop_exact",
    "Ens.Callbacks.C152_timer_stop_monotone"
   ],
   "note": "Clock readings abstract; monotonicity in an ordered group."
  },
  {
   "property": "C153",
   "status": "partial",
   "theorems": [
    "Ens.Indicators.C153_epsilon_is_factor_partial",
    "Ens.Indicators.C153_epsilon_le_one_partial",
    "Ens.Indicators.C153_epsilon_compliant_partial",
    "Ens.Indicators.C153_epsilon_negative_refuted",
    "Ens.Indicators.C153_epsilon_zero_reference_refuted"
   ],
   "note": "Holds for positive reference values; refuted for negative values and for zeros in the reference."
  },
  {
   "property": "C154",
   "status": "partial",
   "theorems": [
    "Ens.Problems.C154_ackley_partial",
    "Ens.Problems.C154_ackley_close",
    "Ens.Problems.C154_ackley_refuted",
    "Ens.Problems.C154_bukin_partial",
    "Ens.Problems.C154_dropWave_partial",
    "Ens.Problems.C154_eggholder_partial",
    "Ens.Problems.C154_eggholder_refuted",
    "Ens.Problems.C154_matyas_exact",
    "Ens.Problems.C154_matyas_refuted",
    "Ens.Problems.C154_rastrigin_scaled",
    "Ens.Problems.C154_rastrigin_refuted",
    "Ens.Problems.C154_schwefel_partial",
    "Ens.Problems.C154_sgdTest_partial",
    "Ens.Problems.C154_testFuncFW_half",
    "Ens.Problems.C154_testFuncFW_refuted",
    "Ens.Problems.C154_genRosenBatch_partial",
    "Ens.Problems.C154_genRosenBatch_overwritten_partial",
    "Ens.Problems.C154_genRosenBatch_refuted"
   ],
   "note": "Refuted for six problems, with what the code computes instead; for the others away from kinks."
  },
  {
   "property": "C155",
   "status": "partial",
   "theorems": [
    "Ens.Problems.C155_rastrigin_partial",
    "Ens.Problems.C155_rastrigin_refuted"
   ],
   "note": "Refuted; the gradients do add up."
  },
  {
   "property": "C156",
   "status": "partial",
   "theorems": [
    "Ens.Problems.C156_dropWave_partial",
    "Ens.Problems.C156_dropWave_refuted",
    "Ens.Problems.C156_easom_partial",
    "Ens.Problems.C156_easom_close",
    "Ens.Problems.C156_mcCormick_refuted",
    "Ens.Problems.C156_mcCormick_partial",
    "Ens.Problems.C156_mcCormick_close",
    "Ens.Problems.C156_styblinski_partial",
    "Ens.Problems.C156_styblinski_refuted",
    "Ens.Problems.C156_schwefel_refuted"
   ],
   "note": "Refuted as documented; the true minima (or bounds on them) are proved, except for Schwefel."
  },
  {
   "property": "C157",
   "status": "proved",
   "theorems": [
    "Ens.De.C157_de_stop",
    "Ens.Sa.C157_sa_stop",
    "Ens.Pso.C157_pso_stop",
    "Ens.Cne.C157_cne_stop",
    "Ens.Cmaes.C157_cmaes_stop",
    "Ens.Cmaes.C157_full_selection_honest",
    "Ens.Cmaes.C157_random_selection_honest"
   ],
   "note": "Abstract arithmetic; a custom CMA-ES selection policy is assumed to pass on the requests of its callbacks."
  },
  {
   "property": "C158",
   "status": "proved",
   "theorems": [
    "Ens.Sa.C158_sa_frozen"
   ],
   "note": "Callbacks leave the coordinates alone; the product is 64-bit."
  },
  {
   "property": "C159",
   "status": "proved",
   "theorems": [
    "Ens.Sa.C159_sa_move_control",
    "Ens.Sa.C159_sa_control_target",
    "Ens.Sa.C159_sa_proposal_symmetric",
    "Ens.Sa.C159_sa_laplace"
   ],
   "note": "Move control with abstract arithmetic; distribution over the reals."
  },
  {
   "property": "C160",
   "status": "proved",
   "theorems": [
    "Ens.Pso.C160_pso_is_textbook",
    "Ens.Pso.C160_pso_horizon_guard"
   ],
   "note": "Abstract arithmetic."
  },
  {
   "property": "C161",
   "status": "proved",
   "theorems": [
    "Ens.Cne.C161_cne_run"
   ],
   "note": "Abstract arithmetic; for runs that return."
  },
  {
   "property": "C162",
   "status": "proved",
   "theorems": [
    "Ens.Lbfgs.C162_lbfgs_stop",
    "Ens.Lbfgs.traced_run"
   ],
   "note": "Abstract arithmetic; stated for user code that logs its calls, which does not change the run."
  },
  {
   "property": "C163",
   "status": "proved",
   "theorems": [
    "Ens.Lbfgs.C163_trial_steps"
   ],
   "note": "Ordered field; deterministic gradient, callbacks leave it alone."
  },
  {
   "property": "C164",
   "status": "proved",
   "theorems": [
    "Ens.Lbfgs.C164_basis_pairs"
   ],
   "note": "Abstract arithmetic; the memory of pairs keeps everything."
  },
  {
   "property": "C165",
   "status": "proved",
   "theorems": [
    "Ens.Psgd.C165_psgd_is_textbook"
   ],
   "note": "Abstract arithmetic; parallel region as an arbitrary function of the world."
  },
  {
   "property": "C166",
   "status": "proved",
   "theorems": [
    "Ens.Iqn.C166_iqn_stopping"
   ],
   "note": "For runs that return."
  },
  {
   "property": "C167",
   "status": "proved",
   "theorems": [
    "Ens.Cd.C167_cd_stopping"
   ],
   "note": "Abstract arithmetic; for runs that return."
  },
  {
   "property": "C168",
   "status": "proved",
   "theorems": [
    "Ens.Epoch.C168_terminates",
    "Ens.Epoch.C168_visits"
   ],
   "note": "Common model of both loops; maxIterations = 0 is 2^64 - 1."
  },
  {
   "property": "C169",
   "status": "proved",
   "theorems": [
    "Ens.Epoch.C169_protocol"
   ],
   "note": "Common model of both loops; for runs that return."
  },
  {
   "property": "C170",
   "status": "proved",
   "theorems": [
    "Ens.Epoch.C170_epochs",
    "Ens.Epoch.C170_stopping",
    "Ens.Epoch.C170_exact"
   ],
   "note": "Abstract arithmetic, except C170_exact which needs exact addition."
  },
  {
   "property": "C171",
   "status": "partial",
   "theorems": [
    "Ens.Epoch.C171_average_partial",
    "Ens.Epoch.C171_spalera_average_refuted"
   ],
   "note": "True for Eve and for SPALeRA from the second epoch; SPALeRA's first epoch also counts the objective computed before the loop."
  },
  {
   "property": "C172",
   "status": "proved",
   "theorems": [
    "Ens.Epoch.Eve.C172_dt",
    "Ens.Epoch.Eve.C172_bound"
   ],
   "note": "Over the reals; needs the usual parameter ranges."
  },
  {
   "property": "C173",
   "status": "partial",
   "theorems": [
    "Ens.Epoch.Eve.C173_bias_correction_partial",
    "Ens.Epoch.Eve.C173_bias_correction_refuted"
   ],
   "note": "Exact for batchSize = 1; false for larger batches, since the exponent counts functions and not steps."
  },
  {
   "property": "C174",
   "status": "partial",
   "theorems": [
    "Ens.Epoch.Spalera.C174_shape_partial",
    "Ens.Epoch.Spalera.C174_shape_refuted"
   ],
   "note": "True for lambda >= 0; with a negative initial objective the first step empties the coordinates."
  },
  {
   "property": "C175",
   "status": "proved",
   "theorems": [
    "Ens.Epoch.Spalera.C175_backtrack",
    "Ens.Epoch.Spalera.C175_rates"
   ],
   "note": "Over the reals."
  },
  {
   "property": "C176",
   "status": "proved",
   "theorems": [
    "Ens.Vr.Svrg.C176_svrg_is_textbook",
    "Ens.Vr.Svrg.seq_exists",
    "Ens.Vr.Katyusha.C176_katyusha_is_textbook",
    "Ens.Vr.Katyusha.seq_exists"
   ],
   "note": "Exact arithmetic for Katyusha; SVRG over abstract arithmetic. seq_exists: the published sequences exist."
  },
  {
   "property": "C177",
   "status": "proved",
   "theorems": [
    "Ens.Update.C177_adaGrad",
    "Ens.Update.C177_adaSqrt",
    "Ens.Update.C177_rmsProp",
    "Ens.Update.C177_adaDelta",
    "Ens.Update.C177_adaDelta_bound",
    "Ens.Update.C177_adam",
    "Ens.Update.C177_amsGrad",
    "Ens.Update.C177_padam",
    "Ens.Update.C177_adaMax",
    "Ens.Update.C177_optimisticAdam",
    "Ens.Update.C177_adaBelief",
    "Ens.Update.C177_qhAdam",
    "Ens.Update.C177_nadam",
    "Ens.Update.C177_nadaMax",
    "Ens.Update.C177_adaBound"
   ],
   "note": "Over the reals, one coordinate."
  },
  {
   "property": "C178",
   "status": "proved",
   "theorems": [
    "Ens.Spsa.C178_moves",
    "Ens.Spsa.C178_gains"
   ],
   "note": "Over the reals."
  },
  {
   "property": "C179",
   "status": "proved",
   "theorems": [
    "Ens.BigBatch.C179_shape",
    "Ens.BigBatch.C179_values"
   ],
   "note": "Law of every event of a run, in terms of the events before it; with a deterministic objective every evaluation reports the value at the coordinates listed."
  },
  {
   "property": "C180",
   "status": "proved",
   "theorems": [
    "Ens.BigBatch.C180_stopping"
   ],
   "note": "Abstract arithmetic; for runs that return."
  },
  {
   "property": "C181",
   "status": "partial",
   "theorems": [
    "Ens.BigBatch.C181_returned_partial",
    "Ens.BigBatch.C181_returned_refuted"
   ],
   "note": "True unless a callback stops the run at the end of an epoch; then 0 is returned."
  },
  {
   "property": "C182",
   "status": "proved",
   "theorems": [
    "Ens.Cmaes.C182_batches",
    "Ens.Cmaes.C182_stopping"
   ],
   "note": "Abstract arithmetic; for runs that return. When the step size diverges is a parameter."
  },
  {
   "property": "C183",
   "status": "proved",
   "theorems": [
    "Ens.Lrsdp.C183_augmented"
   ],
   "note": "Value is the augmented Lagrangian of the program; gradient checked through the derivative along every direction. Exact arithmetic."
  },
  {
   "property": "C184",
   "status": "partial",
   "theorems": [
    "Ens.Lrsdp.C184_symmetry_refuted",
    "Ens.Lrsdp.C183_augmented"
   ],
   "note": "False: 2x2 witness with a non-symmetric C. Holds for symmetric matrices (C183_augmented)."
  },
  {
   "property": "C185",
   "status": "partial",
   "theorems": [
    "Ens.Lrsdp.C185_lrsdp_partial",
    "Ens.Lrsdp.C185_returned_refuted"
   ],
   "note": "Run equality with the method on the program itself if the inner optimizer ends with an evaluation at the coordinates it hands back; refuted with the L-BFGS model as inner optimizer."
  },
  {
   "property": "C186",
   "status": "partial",
   "theorems": [
    "Ens.BigBatch.C186_variance_partial",
    "Ens.BigBatch.C186_small_batch_partial",
    "Ens.BigBatch.C186_variance_refuted"
   ],
   "note": "False: the mean is divided by k instead of k + 1, so that the first gradient is dropped. Proved: the term is the deviation of the other gradients (iterations that do not enlarge the batch)."
  },
  {
   "property": "C187",
   "status": "proved",
   "theorems": [
    "Ens.PrimalDual.C187_kkt"
   ],
   "note": "Library routines are specified by `Exact`, shown satisfiable in every dimension (`exactEnv_exact`)."
  },
  {
   "property": "C188",
   "status": "partial",
   "theorems": [
    "Ens.PrimalDual.C188_alpha_partial",
    "Ens.PrimalDual.C188_alpha_refuted"
   ],
   "note": "Step in (0, 1], definiteness kept, formula as documented if the cone is left; a direction that stays in the cone gets tau instead of 1."
  },
  {
   "property": "C189",
   "status": "proved",
   "theorems": [
    "Ens.PrimalDual.C189_residuals"
   ],
   "note": "Exact arithmetic, callbacks that leave the coordinates alone."
  },
  {
   "property": "C190",
   "status": "proved",
   "theorems": [
    "Ens.PrimalDual.C190_certificate"
   ],
   "note": "Weak duality for the exit by the KKT test."
  },
  {
   "property": "C191",
   "status": "partial",
   "theorems": [
    "Ens.PrimalDual.C191_run_partial",
    "Ens.PrimalDual.C191_end_refuted"
   ],
   "note": "False: EndOptimization is missing on success. Proved: the exact shape of the callbacks of every run."
  },
  {
   "property": "C192",
   "status": "partial",
   "theorems": [
    "Ens.PrimalDual.C191_run_partial",
    "Ens.PrimalDual.C192_value_refuted"
   ],
   "note": "False when no iteration is made (0 is returned); proved otherwise."
  },
  {
   "property": "C193",
   "status": "proved",
   "theorems": [
    "Ens.Moo.Agemoea.C193_ideal",
    "Ens.Moo.Agemoea.C193_normalised"
   ],
   "note": "Least value over the whole population; nonnegative normalised objectives as seen by the callback."
  },
  {
   "property": "C194",
   "status": "partial",
   "theorems": [
    "Ens.Moo.Agemoea.C194_normalisation_partial",
    "Ens.Moo.Agemoea.C194_divisor_refuted"
   ],
   "note": "Proved for first fronts with at least as many members as objectives; a smaller one may lead to a division by 0."
  },
  {
   "property": "C195",
   "status": "proved",
   "theorems": [
    "Ens.Moo.Agemoea.C195_scores"
   ],
   "note": "First fronts with at least as many members as objectives. Power, logarithm and linear solver are parameters (`Ops`), shown satisfiable over the rationals and reals."
  },
  {
   "property": "C196",
   "status": "proved",
   "theorems": [
    "Ens.Moo.Agemoea.C196_exponent",
    "Ens.Moo.Agemoea.C195_scores"
   ],
   "note": "Real arithmetic; C195_scores says which member is the central one."
  },
  {
   "property": "C197",
   "status": "partial",
   "theorems": [
    "Ens.Moo.Agemoea.C195_scores",
    "Ens.Moo.Agemoea.C197_proximity_refuted"
   ],
   "note": "False: each distance is divided by the proximity of the selected member. What is computed is C195_scores."
  },
  {
   "property": "C198",
   "status": "partial",
   "theorems": [
    "Ens.Moo.Agemoea.C198_translation_partial",
    "Ens.Moo.Agemoea.C198_translation_refuted"
   ],
   "note": "First front with at least as many members as objectives: scores unchanged. Later fronts: refuted."
  },
  {
   "property": "C199",
   "status": "partial",
   "theorems": [
    "Ens.Moo.Agemoea.C199_elitism_partial",
    "Ens.Moo.Agemoea.C199_best_monotone",
    "Ens.Moo.Agemoea.C199_elitism_refuted"
   ],
   "note": "Proved if only equal individuals are taken for equal; refuted for near-duplicates."
  },
  {
   "property": "C200",
   "status": "partial",
   "theorems": [
    "Ens.Moo.Agemoea.C200_later_fronts_partial",
    "Ens.Moo.Agemoea.C200_later_fronts_refuted"
   ],
   "note": "Proved if the ideal point is the origin, refuted otherwise."
  },
  {
   "property": "C201",
   "status": "proved",
   "theorems": [
    "Ens.PrimalDual.C201_predictor_corrector"
   ],
   "note": "Exact arithmetic; the steps are stated in terms of the program only."
  },
  {
   "property": "C202",
   "status": "proved",
   "theorems": [
    "Ens.Sgd.C202_ensemble"
   ],
   "note": "First call of a new object; step callbacks may map the coordinates."
  },
  {
   "property": "C203",
   "status": "partial",
   "theorems": [
    "Ens.Sgd.C203_snapshot_limit_partial",
    "Ens.Sgd.C203_snapshot_number",
    "Ens.Sgd.C203_snapshot_limit_refuted"
   ],
   "note": "Limit proved for every real multiplier that makes each cycle longer; exact number for natural multipliers from 2; refuted for multFactor 1."
  },
  {
   "property": "C204",
   "status": "partial",
   "theorems": [
    "Ens.Sgd.C204_constructor_partial",
    "Ens.Sgd.C204_constructor_refuted"
   ],
   "note": "Undefined behaviour for maxIterations = 0 and for short budgets with the default number of snapshots."
  },
  {
   "property": "C205",
   "status": "partial",
   "theorems": [
    "Ens.Sgd.C205_reuse_partial",
    "Ens.Sgd.C205_reuse_refuted"
   ],
   "note": "Earlier snapshots enter the mean."
  },
  {
   "property": "C206",
   "status": "partial",
   "theorems": [
    "Ens.Sgd.C206_same_schedule_partial",
    "Ens.Sgd.C206_same_schedule_refuted"
   ],
   "note": "Refuted after BatchSize() was changed."
  },
  {
   "property": "C207",
   "status": "partial",
   "theorems": [
    "Ens.Sgd.C207_warm_restart_partial",
    "Ens.Sgd.C207_warm_restart_refuted"
   ],
   "note": "Proved for multiplier 1, refuted for 2."
  },
  {
   "property": "C208",
   "status": "partial",
   "theorems": [
    "Ens.Sgd.C208_annealing_partial",
    "Ens.Sgd.C208_annealing_refuted"
   ],
   "note": "Proved up to one epoch into a cycle."
  },
  {
   "property": "C209",
   "status": "partial",
   "theorems": [
    "Ens.Fw.C209_textbook",
    "Ens.Fw.C209_descent",
    "Ens.Fw.C209_descent_partial",
    "Ens.Fw.C209_descent_refuted"
   ],
   "note": "arma::solve is a parameter assumed to return a least squares solution for independent columns (such a solver exists: exists_leastSquares). Refuted: the first step from a start other than 0 forgets the start and can raise the objective."
  },
  {
   "property": "C210",
   "status": "proved",
   "theorems": [
    "Ens.Fw.C210_ends",
    "Ens.Fw.C210_ends_pruned"
   ],
   "note": "Same assumption on arma::solve; independence of the columns is proved."
  },
  {
   "property": "C211",
   "status": "partial",
   "theorems": [
    "Ens.Fw.C211_prune",
    "Ens.Fw.C211_first_choice_partial",
    "Ens.Fw.C211_choice_refuted"
   ],
   "note": "Refuted for passes after the first: sqTerm is not renewed when the coefficients change."
  },
  {
   "property": "C212",
   "status": "partial",
   "theorems": [
    "Ens.Fw.C212_feasible",
    "Ens.Fw.C212_undefined",
    "Ens.Fw.C212_line_search",
    "Ens.Fw.C212_start_partial",
    "Ens.Fw.C212_descent_refuted"
   ],
   "note": "Refuted: a projected gradient pass that raises the objective is kept."
  },
  {
   "property": "C213",
   "status": "partial",
   "theorems": [
    "Ens.Fw.C213_repeated_partial",
    "Ens.Fw.C213_reuse_refuted"
   ],
   "note": "Refuted: atoms of earlier calls stay; a second call on the same function from 0 solves a system with a repeated column."
  },
  {
   "property": "C214",
   "status": "proved",
   "theorems": [
    "Ens.Problems.Logistic.C214_gradient",
    "Ens.Problems.Logistic.C214_gradient_batch",
    "Ens.Problems.Logistic.C214_epoch",
    "Ens.Problems.Logistic.C214_evaluateWithGradient",
    "Ens.Problems.Logistic.C214_partialGradient",
    "Ens.Problems.Logistic.C214_shuffle",
    "Ens.Problems.Logistic.C214_textbook",
    "Ens.Problems.Logistic.C214_convex"
   ],
   "note": "Over the reals: no overflow of exp."
  },
  {
   "property": "C215",
   "status": "partial",
   "theorems": [
    "Ens.Problems.Logistic.C215_classify_partial",
    "Ens.Problems.Logistic.C215_halfspace_partial",
    "Ens.Problems.Logistic.C215_classify_refuted",
    "Ens.Problems.Logistic.C215_accuracy"
   ],
   "note": "Refuted at equality: a point on the boundary is classified 1, the documentation says 0."
  },
  {
   "property": "C216",
   "status": "partial",
   "theorems": [
    "Ens.Problems.Logistic.C216_initialPoint_refuted",
    "Ens.Problems.Logistic.C216_initialPoint_partial",
    "Ens.Problems.Logistic.C216_accepted"
   ],
   "note": "Refuted: the check wants a column, Evaluate wants a row; an initial point that Evaluate accepts is replaced by zeros."
  },
  {
   "property": "C217",
   "status": "proved",
   "theorems": [
    "Ens.Problems.Softmax.C217_probabilities",
    "Ens.Problems.Softmax.C217_textbook",
    "Ens.Problems.Softmax.C217_gradient",
    "Ens.Problems.Softmax.C217_convex"
   ],
   "note": "Over the reals: no overflow of exp."
  },
  {
   "property": "C218",
   "status": "partial",
   "theorems": [
    "Ens.Problems.Softmax.C218_gradient_batch",
    "Ens.Problems.Softmax.C218_gradient_batch_intercept",
    "Ens.Problems.Softmax.C218_epoch_refuted",
    "Ens.Problems.Softmax.C218_epoch_partial",
    "Ens.Problems.Softmax.C218_evaluate_throws",
    "Ens.Problems.Softmax.C218_evaluate_value",
    "Ens.Problems.Softmax.C218_evaluate_refuted",
    "Ens.Problems.Softmax.C218_evaluate_partial"
   ],
   "note": "Refuted: batch values are means, so they add up to a multiple; the batch Evaluate multiplies matrices where squares are meant, which throws unless square."
  },
  {
   "property": "C219",
   "status": "partial",
   "theorems": [
    "Ens.Problems.Softmax.C219_no_intercept_partial",
    "Ens.Problems.Softmax.C219_intercept_partial",
    "Ens.Problems.Softmax.C219_intercept_refuted"
   ],
   "note": "Refuted with intercept: column j is made from data row j instead of j - 1, the last column throws."
  },
  {
   "property": "C220",
   "status": "partial",
   "theorems": [
    "Ens.Problems.Softmax.C220_shuffle_throws",
    "Ens.Problems.Softmax.C220_shuffle_result",
    "Ens.Problems.Softmax.C220_shuffle_refuted",
    "Ens.Problems.Softmax.C220_repaired_partial"
   ],
   "note": "Refuted: rows and columns of the new label matrix are exchanged; with more points than classes Shuffle throws."
  },
  {
   "property": "C221",
   "status": "proved",
   "theorems": [
    "Ens.Epoch.Spalera.C221_test",
    "Ens.Epoch.Spalera.C221_mean"
   ],
   "note": ""
  },
  {
   "property": "C222",
   "status": "partial",
   "theorems": [
    "Ens.Problems.C222_snyman_gradient",
    "Ens.Problems.C222_snyman_constraint_gradient",
    "Ens.Problems.C222_snyman_minimum",
    "Ens.Problems.C222_gockenbach_gradient",
    "Ens.Problems.C222_gockenbach_feasible",
    "Ens.Problems.C222_gockenbach_minimum",
    "Ens.Problems.C222_gockenbach_constraint_gradient_partial",
    "Ens.Problems.C222_gockenbach_constraint_gradient_wrong",
    "Ens.Problems.C222_gockenbach_constraint_gradient_refuted"
   ],
   "note": "Refuted: where the inequality of Gockenbach's problem holds strictly, EvaluateConstraint(1) is constantly zero but GradientConstraint(1) is not."
  },
  {
   "property": "C223",
   "status": "partial",
   "theorems": [
    "Ens.Problems.C223_trace_gradient",
    "Ens.Problems.C223_edge_gradient_partial",
    "Ens.Problems.C223_edge_gradient_refuted",
    "Ens.Problems.C223_objective_derivative",
    "Ens.Problems.C223_gradient_square",
    "Ens.Problems.C223_gradient_refuted",
    "Ens.Problems.C223_gradient_partial"
   ],
   "note": "Refuted: Gradient is that of the augmented Lagrangian (for symmetric coordinates), not of Evaluate, and throws unless the coordinates are square; the gradient of an edge constraint has the wrong sign for negative products."
  },
  {
   "property": "C224",
   "status": "proved",
   "theorems": [
    "Ens.Problems.Multi.C224_schaffer",
    "Ens.Problems.Multi.C224_fonseca_fleming",
    "Ens.Problems.Multi.C224_zdt1",
    "Ens.Problems.Multi.C224_zdt2",
    "Ens.Problems.Multi.C224_zdt3",
    "Ens.Problems.Multi.C224_zdt4",
    "Ens.Problems.Multi.C224_zdt6",
    "Ens.Problems.Multi.C224_dtlz7",
    "Ens.Problems.Multi.C224_maf1",
    "Ens.Problems.Multi.C224_maf2",
    "Ens.Problems.Multi.C224_maf3",
    "Ens.Problems.Multi.C224_maf5",
    "Ens.Problems.Multi.C224_maf6"
   ],
   "note": "Over the reals."
  },
  {
   "property": "C225",
   "status": "partial",
   "theorems": [
    "Ens.Problems.Multi.C225_dtlz1_partial",
    "Ens.Problems.Multi.C225_sphere_partial",
    "Ens.Problems.Multi.C225_dtlz1_refuted",
    "Ens.Problems.Multi.C225_dtlz2_refuted",
    "Ens.Problems.Multi.C225_dtlz3_refuted",
    "Ens.Problems.Multi.C225_dtlz4_refuted",
    "Ens.Problems.Multi.C225_dtlz5_refuted",
    "Ens.Problems.Multi.C225_dtlz6_refuted",
    "Ens.Problems.Multi.C225_maf4_partial",
    "Ens.Problems.Multi.C225_maf4_refuted"
   ],
   "note": "Refuted: the objectives of the tuple of DTLZ1-6 multiply one factor too many (the last) and differ from Evaluate; the first objectives agree (partial). MAF4: agrees for integer a; GetA truncates."
  },
  {
   "property": "C226",
   "status": "proved",
   "theorems": [
    "Ens.Problems.Multi.C226_schaffer",
    "Ens.Problems.Multi.C226_fonseca_fleming"
   ],
   "note": ""
  },
  {
   "property": "C227",
   "status": "proved",
   "theorems": [
    "Ens.Problems.Multi.C227_zdt1",
    "Ens.Problems.Multi.C227_zdt2",
    "Ens.Problems.Multi.C227_zdt3",
    "Ens.Problems.Multi.C227_zdt4",
    "Ens.Problems.Multi.C227_zdt6",
    "Ens.Problems.Multi.C227_zdt1_front",
    "Ens.Problems.Multi.C227_zdt2_front",
    "Ens.Problems.Multi.C227_zdt4_front",
    "Ens.Problems.Multi.C227_zdt6_front"
   ],
   "note": "Reference front of ZDT3 not covered: its region limits are rounded decimals."
  },
  {
   "property": "C228",
   "status": "partial",
   "theorems": [
    "Ens.Problems.Multi.C228_dtlz1",
    "Ens.Problems.Multi.C228_dtlz1_front",
    "Ens.Problems.Multi.C228_dtlz1_tuple_refuted",
    "Ens.Problems.Multi.C228_dtlz2",
    "Ens.Problems.Multi.C228_dtlz3",
    "Ens.Problems.Multi.C228_dtlz4",
    "Ens.Problems.Multi.C228_dtlz2_tuple_refuted",
    "Ens.Problems.Multi.C228_sphere_front_refuted"
   ],
   "note": "Holds for Evaluate; refuted for the objective functions of the tuple, and the reference front of DTLZ2-4 always throws."
  },
  {
   "property": "C229",
   "status": "partial",
   "theorems": [
    "Ens.Problems.Multi.C229_maf2_refuted",
    "Ens.Problems.Multi.C229_maf2_optimal_refuted",
    "Ens.Problems.Multi.C229_maf2_set_partial"
   ],
   "note": "Refuted: g uses coordinate 1 only; as a result every point of the box is Pareto optimal (proved)."
  },
  {
   "property": "C230",
   "status": "proved",
   "theorems": [
    "Ens.Problems.Multi.C230_maf1",
    "Ens.Problems.Multi.C230_maf3",
    "Ens.Problems.Multi.C230_maf4",
    "Ens.Problems.Multi.C230_maf5",
    "Ens.Problems.Multi.C230_dtlz7"
   ],
   "note": "MAF1, 3, 5 and DTLZ7 for the objectives of the tuple (equal to Evaluate by C224), MAF4 for Evaluate."
  },
  {
   "property": "C231",
   "status": "partial",
   "theorems": [
    "Ens.Moo.Moead.C231_tchebycheff_monotone",
    "Ens.Moo.Moead.C231_tchebycheff_optimal",
    "Ens.Moo.Moead.C231_tchebycheff_minimiser",
    "Ens.Moo.Moead.C231_weighted_minimiser",
    "Ens.Moo.Moead.C231_step",
    "Ens.Moo.Moead.C231_progress_refuted"
   ],
   "note": "Refuted: measured at the final ideal point a subproblem can get worse with Tchebycheff, because the ideal point moves. The rest holds."
  },
  {
   "property": "C232",
   "status": "partial",
   "theorems": [
    "Ens.Moo.Moead.C232_distances",
    "Ens.Moo.Moead.C232_ray",
    "Ens.Moo.Moead.C232_monotone_partial",
    "Ens.Moo.Moead.C232_monotone_refuted"
   ],
   "note": "Refuted for the default penalty: a dominated vector can have the smaller value."
  },
  {
   "property": "C233",
   "status": "partial",
   "theorems": [
    "Ens.Moo.Moead.C233_bootstrap",
    "Ens.Moo.Moead.C233_bootstrap_sum_refuted",
    "Ens.Moo.Moead.C233_dirichlet"
   ],
   "note": "Bootstrap columns add up to 1 + numObjectives * epsilon, so \"sums up to 1\" is refuted for the default epsilon; Dirichlet holds."
  },
  {
   "property": "C234",
   "status": "proved",
   "theorems": [
    "Ens.Report.C234_counts",
    "Ens.Report.C234_recorded"
   ],
   "note": "exact state of Report after any callback sequence"
  },
  {
   "property": "C235",
   "status": "partial",
   "theorems": [
    "Ens.Report.C235_table_partial",
    "Ens.Report.C235_rows_partial",
    "Ens.Report.C235_defined",
    "Ens.Report.C235_gradient_refuted",
    "Ens.Report.C235_reuse_refuted",
    "Ens.Report.C235_zero_percentage_refuted",
    "Ens.Report.C235_percentage_refuted"
   ],
   "note": "table proved when a gradient precedes the first recorded event or there is none; refuted for a Report object reused after a gradient-free optimiser (read past the end of gradientsNorm), for percentage 0 (division by zero), and the percentage is not the share of iterations (100 p to 200 p rows whatever their number)"
  },
  {
   "property": "C236",
   "status": "partial",
   "theorems": [
    "Ens.Report.C236_vector_partial",
    "Ens.Report.C236_refuted",
    "Ens.Report.C236_documented_example_refuted",
    "Ens.Report.C236_two_columns_refuted"
   ],
   "note": "column vectors as documented; matrices with more columns are printed with wrong entries, and with two columns and size 2 the access is out of bounds"
  },
  {
   "property": "C237",
   "status": "partial",
   "theorems": [
    "Ens.Report.C237_summary_partial",
    "Ens.Report.C237_no_steps",
    "Ens.Report.C237_reuse_refuted",
    "Ens.Report.C237_optimizer_section_refuted",
    "Ens.Report.C237_max_iterations_refuted",
    "Ens.Report.C237_precision_refuted",
    "Ens.Report.C237_end_epoch_refuted"
   ],
   "note": "summary proved for a new Report; refuted: reuse (nothing is reset), optimiser section only for functions with NumFunctions, \"Reached maximum iterations\" compares with the number of epochs, precision not restored on the error path"
  },
  {
   "property": "C238",
   "status": "partial",
   "theorems": [
    "Ens.Report.C238_counts",
    "Ens.Report.C238_width_partial",
    "Ens.Report.C238_epoch_partial",
    "Ens.Report.C238_end_epoch_partial",
    "Ens.Report.C238_width_refuted",
    "Ens.Report.C238_wide_refuted",
    "Ens.Report.C238_step_hangs_refuted",
    "Ens.Report.C238_loss_refuted"
   ],
   "note": "counts, step numbers, progress and header proved; the width is truncated in the loop variable (70 draws 100 characters, above 100 the loop never ends) and the loss is divided by one step too many"
  },
  {
   "property": "C239",
   "status": "partial",
   "theorems": [
    "Ens.Update.C239_schedule",
    "Ens.Update.C239_demon_sgd",
    "Ens.Update.C239_demon_adam",
    "Ens.Update.C239_updates",
    "Ens.Update.C239_floor",
    "Ens.Update.C239_batch_one_partial",
    "Ens.Update.C239_after",
    "Ens.Update.C239_decay_refuted",
    "Ens.Update.C239_second_call_refuted",
    "Ens.Update.C239_no_limit_refuted",
    "Ens.Update.C239_adam_default_refuted"
   ],
   "note": "holds for batch size 1 and a new object; with larger batches the schedule has length maxIterations * batchSize but at most maxIterations updates are made, so the momentum stays above an explicit bound; a second call uses negative momentum; maxIterations = 0 fails the assertion; the message of the DemonAdam assertion names maxIterations / batchSize, that of DemonSGD the product"
  },
  {
   "property": "C240",
   "status": "partial",
   "theorems": [
    "Ens.Update.C240_accessors_partial",
    "Ens.Update.C240_what_runs",
    "Ens.Update.C240_gamma_read_refuted",
    "Ens.Update.C240_gamma_write_refuted",
    "Ens.Update.C240_step_refuted"
   ],
   "note": "Epsilon, Beta1 and Beta2 proved; Gamma() reads and sets finalLr, so the convergence speed cannot be changed after construction"
  },
  {
   "property": "C241",
   "status": "partial",
   "theorems": [
    "Ens.Moo.Genes.C241_side",
    "Ens.Moo.Genes.C241_extremes",
    "Ens.Moo.Genes.C241_monotone",
    "Ens.Moo.Genes.C241_mutate_partial",
    "Ens.Moo.Genes.C241_fixed_gene_refuted"
   ],
   "note": "proved for genes with lower bound < upper bound; a gene with equal bounds divides zero by zero"
  },
  {
   "property": "C242",
   "status": "partial",
   "theorems": [
    "Ens.Moo.Genes.C242_genes",
    "Ens.Moo.Genes.C242_in_bounds",
    "Ens.Moo.Genes.C242_spread1",
    "Ens.Moo.Genes.C242_spread2_partial",
    "Ens.Moo.Genes.C242_candidate1",
    "Ens.Moo.Genes.C242_candidate2_partial",
    "Ens.Moo.Genes.C242_masks_disagree",
    "Ens.Moo.Genes.C242_child",
    "Ens.Moo.Genes.C242_spread2_refuted",
    "Ens.Moo.Genes.C242_crossed_refuted",
    "Ens.Moo.Genes.C242_zero_gene_refuted"
   ],
   "note": "exact effect and bounds proved; parents are crossed only if the first exceeds the second in every gene, the spread of the second candidate mixes two masks, and a kept gene with value zero is overwritten"
  },
  {
   "property": "C243",
   "status": "proved",
   "theorems": [
    "Ens.Moo.Genes.C243_differential",
    "Ens.Moo.Genes.C243_child"
   ],
   "note": "gene by gene, one column"
  },
  {
   "property": "C244",
   "status": "partial",
   "theorems": [
    "Ens.Problems.C244_holder_symmetric_partial",
    "Ens.Problems.C244_cross_formula_partial",
    "Ens.Problems.C244_cross_above",
    "Ens.Problems.C244_cross_not_minimiser",
    "Ens.Problems.C244_holder_minimum_refuted",
    "Ens.Problems.C244_cross_minimum_refuted",
    "Ens.Problems.C244_cross_symmetric_refuted"
   ],
   "note": "both are unbounded below on the plane; Cross-in-Tray adds 1 inside the absolute value, so it exceeds the documented formula where the sines have opposite signs and two of the four documented points are not minimisers; that the documented points are minimisers in some box is not proved"
  },
  {
   "property": "C245",
   "status": "partial",
   "theorems": [
    "Ens.Problems.C245_lower_bound",
    "Ens.Problems.C245_symmetric",
    "Ens.Problems.C245_minimisers_refuted"
   ],
   "note": "bound and symmetry proved; the documented list of minimisers is not complete; that (0, 1.25313) is a minimiser is not proved"
  },
  {
   "property": "C246",
   "status": "partial",
   "theorems": [
    "Ens.Adapter.C246_differentiable",
    "Ens.Adapter.C246_separable_partial",
    "Ens.Adapter.C246_raw_checks",
    "Ens.Adapter.C246_snapshot",
    "Ens.Adapter.C246_others",
    "Ens.Adapter.C246_either_refuted",
    "Ens.Adapter.C246_arbitrary_refuted",
    "Ens.Adapter.C246_partial_gradient_refuted",
    "Ens.Adapter.C246_sparse_refuted"
   ],
   "note": "exact condition for every optimizer; SVRG, SARAH, Katyusha and IQN check the class itself and so need all three methods, Snapshot SGDR needs Evaluate, coordinate descent looks for PartialGradient instead of the documented overload of Gradient, ParallelSGD calls the non-separable Evaluate"
  },
  {
   "property": "C247",
   "status": "partial",
   "theorems": [
    "Ens.Adapter.C247_accepted_partial",
    "Ens.Adapter.C247_accepted_refuted"
   ],
   "note": "holds except for CMA-ES (NumFunctions), ParallelSGD (Evaluate(x)) and Snapshot SGDR (separable Evaluate of the class itself)"
  },
  {
   "property": "C248",
   "status": "partial",
   "theorems": [
    "Ens.PrimalDual.C248_solvable_partial",
    "Ens.PrimalDual.C248_default_start",
    "Ens.PrimalDual.C248_singular_refuted"
   ],
   "note": "proved if XZ + ZX is positive semidefinite, which includes the first iteration from the default dual point; refuted for general positive definite X and Z (2x2 example, one constraint)"
  },
  {
   "property": "C249",
   "status": "partial",
   "theorems": [
    "Ens.Independence.C249_true_sound",
    "Ens.Independence.C249_meaning",
    "Ens.Independence.C249_dependent",
    "Ens.Independence.C249_too_many",
    "Ens.Independence.C249_false_partial",
    "Ens.Independence.C249_returns",
    "Ens.Independence.C249_small_refuted",
    "Ens.Independence.C249_empty_refuted"
   ],
   "note": "true is right and dependent constraints give false; independent but small constraints give false (absolute threshold 1e-5), and a program without constraints reads out of bounds"
  },
  {
   "property": "C250",
   "status": "proved",
   "theorems": [
    "Ens.Converge.C250_standard",
    "Ens.Converge.C250_momentum",
    "Ens.Converge.C250_nesterov",
    "Ens.Converge.C250_qh",
    "Ens.Converge.C250_step_refuted"
   ],
   "note": "exact arithmetic; nothing stops the run early (tolerance, callbacks); at the limit 2/L the gradient need not tend to zero"
  },
  {
   "property": "C251",
   "status": "proved",
   "theorems": [
    "Ens.Converge.C251_adaGrad",
    "Ens.Converge.C251_wnGrad"
   ],
   "note": "exact arithmetic; nothing stops the run early"
  },
  {
   "property": "C252",
   "status": "partial",
   "theorems": [
    "Ens.Converge.C252_textbook",
    "Ens.Converge.C252_descent",
    "Ens.Converge.C252_fair",
    "Ens.Converge.C252_cyclic",
    "Ens.Converge.C252_linear",
    "Ens.Converge.C252_rate",
    "Ens.Converge.C252_greedy_refuted"
   ],
   "note": "proved for CyclicDescent and fair policies; GreedyDescent can stay at a point with non-zero gradient; exact arithmetic, nothing stops the run early"
  },
  {
   "property": "C253",
   "status": "proved",
   "theorems": [
    "Ens.Converge.C253_sgd_regret"
   ],
   "note": "exact arithmetic, NoDecay"
  },
  {
   "property": "C254",
   "status": "proved",
   "theorems": [
    "Ens.Converge.C254_adaGrad_regret",
    "Ens.Converge.C254_adaGrad_limit"
   ],
   "note": "exact arithmetic, new object"
  },
  {
   "property": "C255",
   "status": "partial",
   "theorems": [
    "Ens.Converge.C255_rmsProp_partial",
    "Ens.Converge.C255_rmsProp_refuted"
   ],
   "note": "holds for step sizes below 2 epsilon / L; for every step size there is a smooth convex function on which it fails"
  },
  {
   "property": "C256",
   "status": "partial",
   "theorems": [
    "Ens.Converge.C256_gradient_exit",
    "Ens.Converge.C256_linear",
    "Ens.Converge.C256_iterations",
    "Ens.Converge.C256_terminates",
    "Ens.Converge.C256_stationary_refuted"
   ],
   "note": "exact arithmetic; rate, iteration count and termination for runs whose line searches are clean (strong Wolfe step that is the best trial); without convexity the gradient test can pass at a point with a large gradient"
  },
  {
   "property": "C257",
   "status": "partial",
   "theorems": [
    "Ens.Converge.C257_tolerance",
    "Ens.Converge.C257_evaluations",
    "Ens.Converge.C257_linear",
    "Ens.Converge.C257_tolerance_refuted"
   ],
   "note": "exact arithmetic; no multiple of the tolerance bounds the gap when the strong convexity constant is not fixed"
  },
  {
   "property": "C258",
   "status": "proved",
   "theorems": [
    "Ens.Converge.C258_amsGrad_regret",
    "Ens.Converge.C258_padam_regret"
   ],
   "note": "Over the reals."
  },
  {
   "property": "C259",
   "status": "partial",
   "theorems": [
    "Ens.Converge.C259_sgd",
    "Ens.Converge.C259_adaGrad",
    "Ens.Converge.C259_amsGrad",
    "Ens.Converge.C259_padam",
    "Ens.Converge.C259_adam_stays",
    "Ens.Converge.C259_rmsProp_stays",
    "Ens.Converge.C259_adam_refuted",
    "Ens.Converge.C259_rmsProp_refuted"
   ],
   "note": "Proved for StandardSGD, AdaGrad, AMSGrad and Padam; refuted for Adam and RMSProp with every choice of their parameters (beta2 > 0, epsilon > 0): n linear functions, of which one has a large slope."
  },
  {
   "property": "C260",
   "status": "proved",
   "theorems": [
    "Ens.Converge.C260_momentum_regret",
    "Ens.Converge.C260_nesterov_regret",
    "Ens.Converge.C260_qh_regret",
    "Ens.Converge.C260_momentum_close",
    "Ens.Converge.C260_nesterov_close",
    "Ens.Converge.C260_qh_close"
   ],
   "note": "Over the reals."
  },
  {
   "property": "C261",
   "status": "partial",
   "theorems": [
    "Ens.Converge.C261_adaMax_stays",
    "Ens.Converge.C261_adaMax_refuted",
    "Ens.Converge.C261_nadam_stays",
    "Ens.Converge.C261_nadam_refuted",
    "Ens.Converge.C261_nadaMax_stays",
    "Ens.Converge.C261_nadaMax_refuted",
    "Ens.Converge.C261_qhAdam_stays",
    "Ens.Converge.C261_qhAdam_refuted",
    "Ens.Converge.C261_adaBelief_stays",
    "Ens.Converge.C261_adaBelief_refuted",
    "Ens.Converge.C261_optimisticAdam_stays",
    "Ens.Converge.C261_optimisticAdam_refuted"
   ],
   "note": "Refuted for all six, with every choice of their parameters in range (beta2 > 0, epsilon > 0; AdaBelief beta1 > 0; QHAdam v2 > 0)."
  },
  {
   "property": "C262",
   "status": "proved",
   "theorems": [
    "Ens.Converge.C262_svrg_descends",
    "Ens.Converge.C262_svrg_tolerance",
    "Ens.Converge.C262_svrg_passes",
    "Ens.Converge.C262_svrg_terminates",
    "Ens.Converge.C262_svrg_linear"
   ],
   "note": "Over the reals; callbacks may stop the run but do not change coordinates or gradients."
  },
  {
   "property": "C263",
   "status": "proved",
   "theorems": [
    "Ens.Converge.C263_sarah_descends",
    "Ens.Converge.C263_sarah_tolerance",
    "Ens.Converge.C263_sarah_passes",
    "Ens.Converge.C263_sarah_terminates",
    "Ens.Converge.C263_sarah_linear",
    "Ens.Converge.C263_sarah_fast"
   ],
   "note": "Over the reals; callbacks may stop the run but do not change coordinates or gradients."
  },
  {
   "property": "C264",
   "status": "proved",
   "theorems": [
    "Ens.Cmaes.Numeric.C264_weights",
    "Ens.Cmaes.Numeric.C264_rates",
    "Ens.Cmaes.Numeric.C264_damping_thresholds",
    "Ens.Cmaes.Numeric.C264_active"
   ],
   "note": "Exact real arithmetic."
  },
  {
   "property": "C265",
   "status": "proved",
   "theorems": [
    "Ens.Cmaes.Numeric.C265_cmaes",
    "Ens.Cmaes.Numeric.C265_active"
   ],
   "note": "Exact real arithmetic; arma::chol, eig_sym and sort_index behave as documented. Vector-shaped iterates (see C270)."
  },
  {
   "property": "C266",
   "status": "proved",
   "theorems": [
    "Ens.Cmaes.Numeric.C266_cmaes",
    "Ens.Cmaes.Numeric.C266_active"
   ],
   "note": "Exact real arithmetic; no NaN objectives."
  },
  {
   "property": "C267",
   "status": "partial",
   "theorems": [
    "Ens.Cmaes.Numeric.C267_path_exact",
    "Ens.Cmaes.Numeric.C267_path_partial",
    "Ens.Cmaes.Numeric.C267_path_refuted"
   ],
   "note": "Refuted: the code multiplies by the inverse of the covariance matrix instead of its inverse square root; proved while the matrix is the identity, and the exact rule of the code in general."
  },
  {
   "property": "C268",
   "status": "proved",
   "theorems": [
    "Ens.Cmaes.Numeric.C268_order",
    "Ens.Cmaes.Numeric.C268_translation",
    "Ens.Cmaes.Numeric.C268_scale"
   ],
   "note": "Exact real arithmetic, FullSelection, EmptyTransformation, one function, no callbacks; sort_index is assumed to depend on comparisons only."
  },
  {
   "property": "C269",
   "status": "partial",
   "theorems": [
    "Ens.Cmaes.Numeric.C269_repair_exact",
    "Ens.Cmaes.Numeric.C269_repair_partial",
    "Ens.Cmaes.Numeric.C269_repair_refuted"
   ],
   "note": "Refuted: eigenvalues come in ascending order, so a negative one is always found at index 0 and the whole matrix is set to zero; proved when no eigenvalue is negative."
  },
  {
   "property": "C270",
   "status": "partial",
   "theorems": [
    "Ens.Cmaes.Numeric.C270_shape_exact",
    "Ens.Cmaes.Numeric.C270_shape_partial",
    "Ens.Cmaes.Numeric.C270_shape_refuted"
   ],
   "note": "Refuted for matrices with at least two rows and two columns; proved for row and column vectors."
  },
  {
   "property": "C271",
   "status": "partial",
   "theorems": [
    "Ens.Cmaes.Numeric.C271_population_partial",
    "Ens.Cmaes.Numeric.C271_population_refuted"
   ],
   "note": "Refuted for a population of one; proved from two on (four for ActiveCMAES)."
  },
  {
   "property": "C272",
   "status": "proved",
   "theorems": [
    "Ens.De.C272_order",
    "Ens.De.C272_translation"
   ],
   "note": "Exact real arithmetic, values below DBL_MAX, no callbacks; EReal objectives."
  },
  {
   "property": "C273",
   "status": "proved",
   "theorems": [
    "Ens.Cne.C273_order",
    "Ens.Cne.C273_translation"
   ],
   "note": "Exact real arithmetic, no callbacks; sort_index is assumed to depend on comparisons only."
  },
  {
   "property": "C274",
   "status": "proved",
   "theorems": [
    "Ens.Pso.C274_order",
    "Ens.Pso.C274_translation"
   ],
   "note": "Exact real arithmetic, DefaultInit, LBestUpdate, horizon > 0, values below DBL_MAX, no callbacks."
  },
  {
   "property": "C275",
   "status": "proved",
   "theorems": [
    "Ens.Sa.C275_invariance"
   ],
   "note": "Exact real arithmetic, ExponentialSchedule, no callbacks."
  },
  {
   "property": "C276",
   "status": "partial",
   "theorems": [
    "Ens.Psgd.C276_flag_partial",
    "Ens.Psgd.C276_uninterrupted_partial",
    "Ens.Psgd.C276_one_thread_partial",
    "Ens.Psgd.C276_flag_refuted",
    "Ens.Psgd.C276_optimize_refuted"
   ],
   "note": "Refuted: the flag is read and written without synchronisation, a thread that read it before a request overwrites the request; the run may go on until maxIterations. Proved: no invented requests, one thread or uninterrupted updates lose nothing, and nothing is lost if every thread ends with a request."
  },
  {
   "property": "C277",
   "status": "proved",
   "theorems": [
    "Ens.Lookahead.C277_rate",
    "Ens.Lookahead.C277_descent",
    "Ens.Lookahead.C277_convexity_needed"
   ],
   "note": "Exact real arithmetic, NoDecay, callbacks that do not change coordinates; convexity is shown to be needed."
  },
  {
   "property": "C278",
   "status": "proved",
   "theorems": [
    "Ens.Problems.Logistic.C278_smooth",
    "Ens.Problems.Logistic.C278_minimiser",
    "Ens.Problems.Logistic.C278_gd",
    "Ens.Problems.Logistic.C278_sgd",
    "Ens.Problems.Logistic.C278_svrg"
   ],
   "note": "Exact real arithmetic, no callbacks; SGD for lambda = 0 (bounded gradients) only."
  },
  {
   "property": "C279",
   "status": "partial",
   "theorems": [
    "Ens.AugLag.C279_updates",
    "Ens.AugLag.C279_converged",
    "Ens.AugLag.C279_progress",
    "Ens.AugLag.C279_unlimited_refuted"
   ],
   "note": "Exact real arithmetic. The part about results is proved; that the outer loop ends without a limit on the iterations is refuted in exact arithmetic: multipliers may be updated for ever while sigma stays below 500000."
  },
  {
   "property": "C280",
   "status": "proved",
   "theorems": [
    "Ens.Fw.C280_support",
    "Ens.Fw.C280_accuracy",
    "Ens.Fw.C280_exact",
    "Ens.Fw.C280_ends"
   ],
   "note": "Exact real arithmetic; solve returns a least squares solution for independent columns; callbacks do not change coordinates or gradients; the update rule is fresh (see C213 for a reused one)."
  },
  {
   "property": "C281",
   "status": "proved",
   "theorems": [
    "Ens.Moo.C281_nsga2_units",
    "Ens.Moo.C281_monotone_refuted"
   ],
   "note": "Exact arithmetic in an ordered field; random draws do not depend on objective values. The last sentence (other increasing maps) is the refutation theorem."
  },
  {
   "property": "C282",
   "status": "proved",
   "theorems": [
    "Ens.Moo.Moead.C282_moead",
    "Ens.Moo.Moead.C282_tchebycheff",
    "Ens.Moo.Moead.C282_weighted",
    "Ens.Moo.Moead.C282_pbi",
    "Ens.Moo.Moead.C282_units_refuted"
   ],
   "note": "Exact arithmetic; the last sentence (different factors) is the refutation theorem."
  },
  {
   "property": "C283",
   "status": "partial",
   "theorems": [
    "Ens.Converge.C283_coordinates_partial",
    "Ens.Converge.C283_reflections",
    "Ens.Converge.C283_demonSgd_refuted"
   ],
   "note": "All listed policies through the model of SGD with objects, callbacks and any functions; NoDecay. DemonSGD is refuted for translations; FTML and DemonAdam are covered for renumbering and signs only."
  },
  {
   "property": "C284",
   "status": "proved",
   "theorems": [
    "Ens.Converge.C284_vanilla",
    "Ens.Converge.C284_momentum",
    "Ens.Converge.C284_nesterov",
    "Ens.Converge.C284_qh",
    "Ens.Converge.gradient_transport",
    "Ens.Converge.C284_adam_refuted",
    "Ens.Converge.C284_adaGrad_refuted",
    "Ens.Converge.C284_rmsProp_refuted"
   ],
   "note": "Whole runs, any linear map; gradient_transport shows that for rotations the transported gradient is the gradient of the transported function. The negative part of the claim is proved by the refutations."
  },
  {
   "property": "C285",
   "status": "partial",
   "theorems": [
    "Ens.Converge.C285_lbfgs",
    "Ens.Converge.C285_offset_refuted"
   ],
   "note": "Exact arithmetic over any real inner product space; independence of an added constant is refuted with a concrete run."
  },
  {
   "property": "C286",
   "status": "proved",
   "theorems": [
    "Ens.Spsa.C286_spsa_converges",
    "Ens.Spsa.C286_spsa_probability"
   ],
   "note": "Real arithmetic; random signs as uniformly distributed bits (the average is the finite average over all bit sequences); callbacks that do nothing; tolerance 0."
  },
  {
   "property": "C287",
   "status": "proved",
   "theorems": [
    "Ens.Converge.C287_nesterov",
    "Ens.Converge.C287_epochs",
    "Ens.Converge.C287_standard_slower"
   ],
   "note": "Real arithmetic; NoDecay; every batch is the whole sum; nothing stops the run early."
  },
  {
   "property": "C288",
   "status": "proved",
   "theorems": [
    "Ens.Fw.C288_affine",
    "Ens.Fw.C288_transported",
    "Ens.Fw.C288_runs",
    "Ens.Fw.C288_gd_refuted"
   ],
   "note": "Real arithmetic; callbacks may stop the run but change neither gradient nor coordinates. The contrast with gradient descent is a concrete run."
  },
  {
   "property": "C289",
   "status": "proved",
   "theorems": [
    "Ens.Gd.C289_rigid",
    "Ens.Gd.C289_gradient"
   ],
   "note": "Real arithmetic; callbacks may stop the run but change neither gradient nor coordinates; no objective comes within the tolerance of the largest number, with which the first one is compared."
  },
  {
   "property": "C290",
   "status": "proved",
   "theorems": [
    "Ens.Sa.C290_detailed_balance",
    "Ens.Sa.C290_stationary"
   ],
   "note": "Draws are independent and uniform on (0, 1); no callbacks; the second theorem is about Optimize with maxIterations = 0, i.e. the initial moves only. Main-loop moves cool the temperature, so no fixed distribution is preserved there."
  },
  {
   "property": "C291",
   "status": "proved",
   "theorems": [
    "Ens.BigBatch.C291_descent",
    "Ens.BigBatch.C291_converges",
    "Ens.BigBatch.C291_ends"
   ],
   "note": "Real arithmetic, no callbacks; the world of the model is the step size. Iteration limits are multiples of the number of functions in the first two theorems."
  },
  {
   "property": "C292",
   "status": "partial",
   "theorems": [
    "Ens.Vr.Katyusha.C292_limit_partial",
    "Ens.Vr.Katyusha.C292_limit_is_origin",
    "Ens.Vr.Katyusha.C292_whole_batch",
    "Ens.Vr.Katyusha.C292_converges_refuted"
   ],
   "note": "Refuted for every problem with minimiser away from the origin; the partial theorem gives the equations that any limit satisfies. Real arithmetic; objective and callbacks deterministic and passive; batches of equal size. Cause: the normaliser of the snapshot weights (C110) together with the first batch of the full gradient being taken at the iterate."
  },
  {
   "property": "C293",
   "status": "proved",
   "theorems": [
    "Ens.Converge.C293_standard",
    "Ens.Converge.C293_momentum",
    "Ens.Converge.C293_nesterov",
    "Ens.Converge.C293_qh"
   ],
   "note": "Real arithmetic; NoDecay; every batch is the whole sum; nothing stops the run early."
  },
  {
   "property": "C294",
   "status": "proved",
   "theorems": [
    "Ens.Cne.Prob.C294_finds_level",
    "Ens.Cne.Prob.C294_finds_level_limit",
    "Ens.Cne.Prob.C294_tolerance_stops"
   ],
   "note": "The CNE model is run on the list of random draws still to come; probabilities are those of independent draws from an arbitrary discrete distribution (Mathlib PMF). Draws are discrete, as those of a floating point generator are; the noise of one mutation counts as one draw. The number of elite candidates must leave two children (e + 2 <= n, see C78)."
  },
  {
   "property": "C295",
   "status": "proved",
   "theorems": [
    "Ens.De.C295_closure",
    "Ens.De.C295_frozen_coordinate",
    "Ens.De.C295_weight_zero",
    "Ens.De.C295_not_globally_convergent"
   ],
   "note": "Column vectors, no callbacks, real coordinates. Contrast with C294 (CNE)."
  },
  {
   "property": "C296",
   "status": "proved",
   "theorems": [
    "Ens.Converge.C296_mean",
    "Ens.Converge.C296_share",
    "Ens.Converge.C296_gradient"
   ],
   "note": "Real arithmetic; exact partial gradients; nothing stops the run early. Expectation is the mean over all sequences of draws (independent uniform draws). Only smoothness along single columns is needed, so the constant is that of the worst column."
  },
  {
   "property": "C297",
   "status": "proved",
   "theorems": [
    "Ens.Converge.C297_distance",
    "Ens.Converge.C297_reaches",
    "Ens.Converge.C297_bias"
   ],
   "note": "Real arithmetic; NoDecay; callbacks may watch and stop the run but change neither gradients nor coordinates. Contrast with C253/C259, which bound the mean of the reported losses; here it is the returned point."
  },
  {
   "property": "C298",
   "status": "proved",
   "theorems": [
    "Ens.Fw.C298_rate",
    "Ens.Fw.C298_ends",
    "Ens.Fw.C298_stalls"
   ],
   "note": "Real arithmetic; quadratic means that the derivative along every line is affine; callbacks change nothing. C298_stalls is the negative part of the statement (default tolerances)."
  },
  {
   "property": "C299",
   "status": "proved",
   "theorems": [
    "Ens.BigBatch.C299_one_move",
    "Ens.BigBatch.C299_two",
    "Ens.BigBatch.C299_far",
    "Ens.BigBatch.C299_crawls",
    "Ens.BigBatch.C299_hangs"
   ],
   "note": "Runs over the reals without callbacks and with functions kept in order; C299_hangs is about one call of the policy."
  },
  {
   "property": "C300",
   "status": "proved",
   "theorems": [
    "Ens.Iqn.C300_exact",
    "Ens.Iqn.C300_uneven",
    "Ens.Iqn.C300_uneven_misses",
    "Ens.Iqn.C300_stuck"
   ],
   "note": "Exact arithmetic over any ordered field; callbacks change neither gradients nor coordinates. The statement about uneven batches follows from the defect of the gradient aggregate in C44."
  },
  {
   "property": "C301",
   "status": "proved",
   "theorems": [
    "Ens.Problems.Schaffer4.C301_value",
    "Ens.Problems.Schaffer4.C301_minimisers"
   ],
   "note": "the documentation names two of the four minimisers"
  },
  {
   "property": "C302",
   "status": "proved",
   "theorems": [
    "Ens.AugLag.C302_start",
    "Ens.AugLag.C302_left",
    "Ens.AugLag.C302_again"
   ],
   "note": "C302_again: callbacks that watch only; objective depends on the point only; more than one iteration allowed"
  },
  {
   "property": "C303",
   "status": "partial",
   "theorems": [
    "Ens.Problems.Multi.C303_dtlz5_partial",
    "Ens.Problems.Multi.C303_dtlz6_partial",
    "Ens.Problems.Multi.C303_others_refuted",
    "Ens.Problems.Multi.C303_dtlz6_half_refuted"
   ],
   "note": "The points with distance variables one half (DTLZ6: zero) are optimal, but all have the same objectives; others are optimal too (refuted), and for DTLZ6 the documented value one half is not optimal (refuted)."
  },
  {
   "property": "C304",
   "status": "proved",
   "theorems": [
    "Ens.Problems.Multi.C304_maf6"
   ],
   "note": ""
  },
  {
   "property": "C305",
   "status": "proved",
   "theorems": [
    "Ens.Converge.C305_rate",
    "Ens.Converge.C305_converges",
    "Ens.Converge.C305_full_again",
    "Ens.Converge.C305_sum_unbounded",
    "Ens.Converge.C305_all_or_nothing"
   ],
   "note": "Real arithmetic; nothing stops the run early; VanillaUpdate (the default is MomentumUpdate)."
  },
  {
   "property": "C306",
   "status": "partial",
   "theorems": [
    "Ens.Vr.Svrg.C306_svrg_clip",
    "Ens.Vr.fullGrad_clip",
    "Ens.Vr.C306_sarah_refuted",
    "Ens.Vr.C306_katyusha_refuted",
    "Ens.Vr.C306_one_batch_partial"
   ],
   "note": "Proved for SVRG. Refuted for SARAH, whose full gradient takes all batches but the first without running the callback, and for Katyusha, which adds the later batches before running it: both move arbitrarily far in one epoch. When one batch holds all functions their full gradient is clipped."
  },
  {
   "property": "C307",
   "status": "proved",
   "theorems": [
    "Ens.Problems.Softmax.C307_constants",
    "Ens.Problems.Softmax.C307_minimiser",
    "Ens.Problems.Softmax.C307_gd",
    "Ens.Problems.Softmax.C307_gd_intercept",
    "Ens.Problems.Softmax.C307_lbfgs",
    "Ens.Problems.Softmax.C307_cd"
   ],
   "note": "Exact arithmetic.  The L-BFGS part is about runs that stop by the gradient norm; coordinate descent is without intercept, where PartialGradient is right (C219)."
  },
  {
   "property": "C308",
   "status": "partial",
   "theorems": [
    "Ens.Shape.C308_clip_refuted",
    "Ens.Shape.C308_clip_partial",
    "Ens.Shape.C308_clip_tight",
    "Ens.Shape.C308_lbfgs_stop_refuted",
    "Ens.Shape.C308_lbfgs_stop_partial",
    "Ens.Shape.C308_lbfgs_no_later",
    "Ens.Shape.C308_wnGrad_refuted",
    "Ens.Shape.C308_wnGrad_partial"
   ],
   "note": "The documented bounds fail for parameter matrices; the bounds that hold instead are proved.  That arma::norm of a matrix is its largest singular value is a fact about Armadillo (trusted); exact arithmetic."
  },
  {
   "property": "C309",
   "status": "partial",
   "theorems": [
    "Ens.Moo.Bounds.C309_first",
    "Ens.Moo.Bounds.C309_reuse_refuted",
    "Ens.Moo.Bounds.C309_reuse_partial",
    "Ens.Moo.Bounds.C309_accepted",
    "Ens.Moo.Bounds.C309_vector",
    "Ens.Moo.Bounds.C309_vector_mismatch",
    "Ens.Moo.Bounds.C309_inside",
    "Ens.Moo.Bounds.C309_pso_refuted",
    "Ens.Moo.Bounds.C309_pso_partial"
   ],
   "note": "Refuted for a change of the number of variables: Optimize stores the widened bounds in the object. Proved: exactly which sequences of calls are accepted, that an accepted call uses the bounds of a new object, that vector bounds are kept, that clamped individuals are within the scalars; PSO: same shape with at least two rows."
  },
  {
   "property": "C310",
   "status": "proved",
   "theorems": [
    "Ens.Moo.Events.C310_nsga2",
    "Ens.Moo.Events.C310_nsga2_cost",
    "Ens.Moo.Events.C310_agemoea",
    "Ens.Moo.Events.C310_agemoea_cost",
    "Ens.Moo.Events.C310_moead",
    "Ens.Moo.Events.C310_moead_cost"
   ],
   "note": "Runs that return (see C32, C92 for those that do not); the record of events is part of the user code (recording_watched: any user code can keep one). That the number of calls is a power of the population size is the defect of C88."
  },
  {
   "property": "C311",
   "status": "proved",
   "theorems": [
    "Ens.Sgd.C311_sgd",
    "Ens.Sgd.C311_sgd_stop",
    "Ens.Sgd.C311_sgd_object",
    "Ens.Gd.C311_gd",
    "Ens.Gd.C311_gd_stop",
    "Ens.Sa.C311_sa",
    "Ens.Fw.C311_fw"
   ],
   "note": "the same for NSGA2, AGEMOEA, MOEA/D is C310, for SVRG, SARAH, Katyusha part of C106"
  },
  {
   "property": "C312",
   "status": "partial",
   "theorems": [
    "Ens.Sgd.C312_sgdr",
    "Ens.Sgd.C312_snapshot_partial",
    "Ens.Sgd.C312_snapshot_refuted"
   ],
   "note": "Proved for SGDR. For SnapshotSGDR it holds when the batch size is unchanged and the new iteration limit has as many restarts as the constructed one; false otherwise (the threshold for snapshots is computed in the constructor from the iteration limit given there; the batch size: C206_same_schedule_refuted)."
  },
  {
   "property": "C313",
   "status": "proved",
   "theorems": [
    "Ens.Sgd.C313_sgd",
    "Ens.Sgd.C313_sgd_object",
    "Ens.Sgd.C313_sgd_stateless",
    "Ens.Sgd.C313_reset_needed",
    "Ens.Gd.C313_gd"
   ],
   "note": "Any update and decay policy, any history of the object, shuffling allowed; C313_reset_needed shows that resetPolicy = false is needed for policies with state."
  },
  {
   "property": "C314",
   "status": "partial",
   "theorems": [
    "Ens.Sa.C314_sa_cold_partial",
    "Ens.Sa.C314_sa_budget_partial",
    "Ens.Sa.C314_sa_budget_coordinates_partial",
    "Ens.Sa.C314_sa_refuted",
    "Ens.De.C314_de_refuted",
    "Ens.Cne.C314_cne_refuted"
   ],
   "note": "False for SA, DE and CNE (one concrete run each). SA: not worse when worse energies are never accepted; with the code's rule over the reals and exponential cooling the loss is bounded by T0 (initMoves + 1/lambda) log(1/xi0) for every objective and run length. DE and CNE: not worse than the members of the first population is C20 and C68."
  },
  {
   "property": "C315",
   "status": "proved",
   "theorems": [
    "Ens.Psgd.C315_round",
    "Ens.Psgd.C315_distance",
    "Ens.Psgd.C315_reaches",
    "Ens.Psgd.C315_snapshot_is_torn",
    "Ens.Psgd.C315_snapshot_reads"
   ],
   "note": "Over the transition system of C42: reading a gradient is one step (placed at the end of its computation), every coordinate update is atomic. The single functions need not be convex. A read may return for each coordinate any value within what the gradients computed so far can have changed; consistent reads are shown to be of this kind. Exact real arithmetic, ConstantStep."
  },
  {
   "property": "C316",
   "status": "partial",
   "theorems": [
    "Ens.Psgd.C316_converges_refuted",
    "Ens.Psgd.C316_stalls",
    "Ens.Psgd.C316_round_moves",
    "Ens.Psgd.C316_bounded_partial"
   ],
   "note": "The documented convergence is refuted for every sum whose functions share the minimiser (C316_stalls) and for a concrete object; an upper bound on the distance holds for every schedule. Exact real arithmetic; the increment of the cutoff is the integer part of firstBackoffEpoch / beta."
  },
  {
   "property": "C317",
   "status": "partial",
   "theorems": [
    "Ens.Fw.C317_fw_partial",
    "Ens.Fw.C317_fw_stalls",
    "Ens.Fw.C317_fw_classic_refuted",
    "Ens.Cd.C317_cd_partial",
    "Ens.Cd.C317_cyclic_period",
    "Ens.Cd.C317_cyclic_first_feature",
    "Ens.Cd.C317_cyclic_calls",
    "Ens.Cd.C317_cd_cyclic_refuted"
   ],
   "note": "Refuted for UpdateClassic and CyclicDescent (iteration numbers restart); holds for rules and policies that do not depend on the number, or repeat with a period dividing a."
  },
  {
   "property": "C318",
   "status": "partial",
   "theorems": [
    "Ens.Moo.Agemoea.C318_unit_partial",
    "Ens.Moo.Agemoea.C318_units_refuted",
    "Ens.Moo.Agemoea.C318_later_refuted"
   ],
   "note": "Common factor and first front: proved. Different factors, and later fronts with a common factor: refuted by concrete populations. Exact arithmetic."
  },
  {
   "property": "C319",
   "status": "partial",
   "theorems": [
    "Ens.Pso.C319_plateau_partial",
    "Ens.Pso.C319_collapse_partial",
    "Ens.Pso.C319_global_minimum_refuted",
    "Ens.Prob.ville"
   ],
   "note": "documented convergence to the global minimum refuted: on a plateau the swarm stays near its starting points with a probability bounded away from zero uniformly in the number of iterations (quadratic form that does not grow on average, Ville inequality); exact real arithmetic, finitely many outcomes per draw, moments of the uniform distribution to 1/1000"
  },
  {
   "property": "C320",
   "status": "partial",
   "theorems": [
    "Ens.Converge.C320_amsgrad_refuted",
    "Ens.Converge.C320_converges_only_where_all_vanish",
    "Ens.Converge.restless_vanilla",
    "Ens.Converge.restless_momentum",
    "Ens.Converge.restless_nesterov",
    "Ens.Converge.restless_qh",
    "Ens.Converge.restless_rmsProp",
    "Ens.Converge.restless_adaDelta",
    "Ens.Converge.restless_adam",
    "Ens.Converge.restless_amsGrad",
    "Ens.Converge.restless_padam",
    "Ens.Converge.restless_adaMax",
    "Ens.Converge.restless_adaBelief",
    "Ens.Converge.restless_yogi",
    "Ens.Converge.restless_adaBound",
    "Ens.Converge.restless_optimisticAdam"
   ],
   "note": "documented guaranteed convergence refuted for the constant step size of the class: the results tend to no point on a strongly convex sum of two functions; necessary condition proved for fifteen update rules. What does hold is C258/C259 (averages) and C297 (ends near the minimiser). Batch size 1, functions visited in order, exact real arithmetic"
  },
  {
   "property": "C321",
   "status": "partial",
   "theorems": [
    "Ens.EndLast.C321_fw",
    "Ens.EndLast.C321_augLag",
    "Ens.EndLast.C321_lbfgs",
    "Ens.EndLast.C321_psgd",
    "Ens.EndLast.C321_iqn",
    "Ens.EndLast.C321_svrg",
    "Ens.EndLast.C321_sarah",
    "Ens.EndLast.C321_katyusha",
    "Ens.EndLast.C321_primalDual_refuted"
   ],
   "note": "refuted for PrimalDualSolver, whose successful exit does not call EndOptimization; proved for the eight others. The models of SGD, GradientDescent and CD record the coordinates passed to the callback, not those it leaves, so they are not covered."
  },
  {
   "property": "C322",
   "status": "partial",
   "theorems": [
    "Ens.Spsa.C322_setter_is_constructor_refuted",
    "Ens.Spsa.C322_stale_gain",
    "Ens.Spsa.C322_lowering_cuts_short_partial",
    "Ens.Spsa.C322_same_without_decay_partial"
   ],
   "note": "refuted for every alpha > 0 and every other limit; what the accessor does instead is proved (moves of the run as constructed, cut short). Exact real arithmetic."
  },
  {
   "property": "C323",
   "status": "partial",
   "theorems": [
    "Ens.Update.C323_setter_is_constructor_refuted",
    "Ens.Update.C323_raised_limit",
    "Ens.Update.C323_raised_limit_adam",
    "Ens.Update.C323_same_product_partial"
   ],
   "note": "refuted whenever the product of limit and batch size changes from the one at construction (witness: limit 2, batch size 1); the consequences of a raised limit are proved for every run. The user can repair it by assigning MomentumIterations() as well."
  },
  {
   "property": "C324",
   "status": "partial",
   "theorems": [
    "Ens.Spsa.C324_continue_refuted",
    "Ens.Spsa.C324_constant_gains_partial",
    "Ens.Spsa.after_x"
   ],
   "note": "refuted for every decaying step size; holds for alpha = gamma = 0 with callbacks that do nothing and stopping rules that do not apply. Exact real arithmetic."
  },
  {
   "property": "C325",
   "status": "partial",
   "theorems": [
    "Ens.Vr.Svrg.C325_svrg",
    "Ens.Vr.Sarah.C325_sarah",
    "Ens.Vr.Katyusha.C325_katyusha_refuted"
   ],
   "note": "proved for SVRG and SARAH, refuted for Katyusha by a concrete run"
  },
  {
   "property": "C326",
   "status": "partial",
   "theorems": [
    "Ens.AugLag.C326_continue_refuted",
    "Ens.AugLag.C326_short_calls",
    "Ens.AugLag.C326_continue_partial"
   ],
   "note": "refuted: with the default factors any number of calls with maxIterations = 7 never returns true where one call with 9 does; the general form of this is C326_short_calls. Continuing works with the overload that takes the multipliers and the penalty parameter reached, if the next pass would have updated the multipliers."
  },
  {
   "property": "C327",
   "status": "partial",
   "theorems": [
    "Ens.Lbfgs.C327_continue_refuted",
    "Ens.Lbfgs.C327_one_iteration",
    "Ens.Lbfgs.C327_last_call",
    "Ens.Lbfgs.direction_zero"
   ],
   "note": "refuted on a quadratic; what repeated calls do instead is proved for one iteration per call: the memory, hence numBasis, has no effect and every step goes along the negative gradient. Exact arithmetic in the concrete run."
  },
  {
   "property": "C328",
   "status": "partial",
   "theorems": [
    "Ens.Psgd.C328_continue_partial",
    "Ens.Psgd.C328_short_calls",
    "Ens.Psgd.C328_continue_refuted"
   ],
   "note": "proved for decay policies that do not look at the epoch number (ConstantStep); refuted for ExponentialBackoff, where calls shorter than the first backoff epoch never reduce the step size. The parallel region is a parameter acting on the world, so the visitation order a new call starts from is part of it."
  },
  {
   "property": "C329",
   "status": "partial",
   "theorems": [
    "Ens.Iqn.C329_stays_partial",
    "Ens.Iqn.C329_line",
    "Ens.Iqn.C329_stays_refuted"
   ],
   "note": "refuted with more than one batch by a concrete run; holds with one batch if the approximation of the first step is inverted correctly there, which in one variable it always is when the stationary point is the only one. Exact arithmetic."
  }
 ]
}