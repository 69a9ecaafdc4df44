{
 "claims": [
  {
   "property": "C01",
   "status": "proved",
   "theorems": [
    "Miniboosts.Props.adaboost_queries_are_distributions"
   ],
   "note": ""
  },
  {
   "property": "C02",
   "status": "proved",
   "theorems": [
    "Miniboosts.Props.adaboost_weights_closed_form"
   ],
   "note": ""
  },
  {
   "property": "C03",
   "status": "proved",
   "theorems": [
    "Miniboosts.Props.adaboost_new_edge_zero"
   ],
   "note": ""
  },
  {
   "property": "C04",
   "status": "proved",
   "theorems": [
    "Miniboosts.Props.adaboost_terminates",
    "Miniboosts.Props.adaboost_run_calls"
   ],
   "note": ""
  },
  {
   "property": "C05",
   "status": "proved",
   "theorems": [
    "Miniboosts.Props.adaboost_training_error",
    "Miniboosts.Props.adaboost_zero_error_after",
    "Miniboosts.Props.adaboost_run_zero_error"
   ],
   "note": ""
  },
  {
   "property": "C06",
   "status": "partial",
   "theorems": [
    "Miniboosts.Props.adaboost_perfect_hypothesis",
    "Miniboosts.Props.adaboost_perfect_hypothesis_no_error",
    "Miniboosts.Props.adaboost_perfectly_wrong_hypothesis_panics",
    "Miniboosts.Props.adaboost_postprocess_ok_iff"
   ],
   "note": "edge >= 1: proved. edge <= -1: the property is false of the code (negation proved: the run panics)."
  },
  {
   "property": "C08",
   "status": "proved",
   "theorems": [
    "Miniboosts.Props.fromSlices_ok_iff",
    "Miniboosts.Props.fromSlices_panics_iff",
    "Miniboosts.Props.fromSlices_spec"
   ],
   "note": ""
  },
  {
   "property": "C09",
   "status": "proved",
   "theorems": [
    "Miniboosts.Props.confidence_between",
    "Miniboosts.Props.predict_eq_one_iff",
    "Miniboosts.Props.batch_rows"
   ],
   "note": ""
  },
  {
   "property": "C10",
   "status": "proved",
   "theorems": [
    "Miniboosts.Props.fromSlices_scale",
    "Miniboosts.Props.predict_fromSlices_eq_raw",
    "Miniboosts.Props.norm_predict"
   ],
   "note": ""
  },
  {
   "property": "C21",
   "status": "proved",
   "theorems": [
    "Miniboosts.Props.naiveAggregation_predict",
    "Miniboosts.Props.naiveAggregation_training_positive"
   ],
   "note": ""
  },
  {
   "property": "C58",
   "status": "proved",
   "theorems": [
    "Miniboosts.Props.edge_eq",
    "Miniboosts.Props.weightedEdge_eq",
    "Miniboosts.Props.edge_between_margins"
   ],
   "note": ""
  },
  {
   "property": "C07",
   "status": "proved",
   "theorems": [
    "Miniboosts.Props.adaboostv_queries_are_distributions",
    "Miniboosts.Props.adaboostv_weights_closed_form",
    "Miniboosts.Props.adaboostv_terminates",
    "Miniboosts.Props.adaboostv_run_calls",
    "Miniboosts.Props.adaboostv_target"
   ],
   "note": ""
  },
  {
   "property": "C11",
   "status": "proved",
   "theorems": [
    "Miniboosts.Props.project_ok_iff",
    "Miniboosts.Props.project_capped"
   ],
   "note": ""
  },
  {
   "property": "C12",
   "status": "proved",
   "theorems": [
    "Miniboosts.Props.project_shape",
    "Miniboosts.Props.project_order",
    "Miniboosts.Props.project_pythagoras",
    "Miniboosts.Props.project_optimal",
    "Miniboosts.Props.project_one",
    "Miniboosts.Props.project_shift",
    "Miniboosts.Props.expDistribution_shape"
   ],
   "note": ""
  },
  {
   "property": "C49",
   "status": "proved",
   "theorems": [
    "Miniboosts.Props.softMargin_is_min",
    "Miniboosts.Props.softMargin_ok_iff",
    "Miniboosts.Props.hardMargin_is_min_margin",
    "Miniboosts.Props.softMargin_between"
   ],
   "note": ""
  },
  {
   "property": "C50",
   "status": "proved",
   "theorems": [
    "Miniboosts.Props.expLoss_dominates_error",
    "Miniboosts.Props.expLoss_not_of_confidence"
   ],
   "note": "the code evaluates the loss at the predictions, not the confidences as documented (negation proved)"
  },
  {
   "property": "C59",
   "status": "proved",
   "theorems": [
    "Miniboosts.Props.entropyFromUni_eq",
    "Miniboosts.Props.entropyFromUni_bounds"
   ],
   "note": ""
  },
  {
   "property": "C13",
   "status": "proved",
   "theorems": [
    "Miniboosts.Props.madaboost_weights",
    "Miniboosts.Props.madaboost_cap"
   ],
   "note": ""
  },
  {
   "property": "C14",
   "status": "partial",
   "theorems": [
    "Miniboosts.Props.madaboost_favours_correct_examples",
    "Miniboosts.Props.madaboost_favours_correct_witness"
   ],
   "note": "false of the code: the update raises the weight of correctly classified examples; the negation is proved, with a concrete witness"
  },
  {
   "property": "C15",
   "status": "proved",
   "theorems": [
    "Miniboosts.Props.smoothboost_smooth"
   ],
   "note": ""
  },
  {
   "property": "C16",
   "status": "proved",
   "theorems": [
    "Miniboosts.Props.smoothboost_terminates",
    "Miniboosts.Props.smoothboost_rounds",
    "Miniboosts.Props.smooth_assumption_iff_edge",
    "Miniboosts.Props.smoothboost_run_margin_partial"
   ],
   "note": "the margin guarantee is proved for runs with at most as many rounds as examples (see C17)"
  },
  {
   "property": "C17",
   "status": "partial",
   "theorems": [
    "Miniboosts.Props.smoothboost_output",
    "Miniboosts.Props.smoothboost_output_all_partial",
    "Miniboosts.Props.smoothboost_drops_hypotheses",
    "Miniboosts.Props.smoothboost_drops_hypotheses_witness"
   ],
   "note": "false of the code for runs with more rounds than examples (negation with witness); true when rounds <= examples"
  },
  {
   "property": "C18",
   "status": "proved",
   "theorems": [
    "Miniboosts.Props.graphsep_edges_exact",
    "Miniboosts.Props.graphsep_queries_are_distributions",
    "Miniboosts.Props.graphsep_progress"
   ],
   "note": ""
  },
  {
   "property": "C19",
   "status": "proved",
   "theorems": [
    "Miniboosts.Props.naiveAggregation_consistent_iff",
    "Miniboosts.Props.graphsep_consistent",
    "Miniboosts.Props.graphsep_run_zero_error"
   ],
   "note": ""
  },
  {
   "property": "C20",
   "status": "proved",
   "theorems": [
    "Miniboosts.Props.graphsep_terminates",
    "Miniboosts.Props.graphsep_rate",
    "Miniboosts.Props.graphsep_calls"
   ],
   "note": ""
  },
  {
   "property": "C52",
   "status": "proved",
   "theorems": [
    "Miniboosts.Props.used_setting",
    "Miniboosts.Props.adaboost_rerun",
    "Miniboosts.Props.adaboostv_rerun",
    "Miniboosts.Props.madaboost_rerun",
    "Miniboosts.Props.smoothboost_rerun",
    "Miniboosts.Props.cerlp_rerun",
    "Miniboosts.Props.lpboost_rerun",
    "Miniboosts.Props.erlp_rerun",
    "Miniboosts.Props.softboost_rerun",
    "Miniboosts.Props.totalboost_rerun",
    "Miniboosts.Props.mlp_rerun",
    "Miniboosts.Props.graphsep_rerun",
    "Miniboosts.Props.gbm_rerun",
    "Miniboosts.Props.mlp_history_independent",
    "Miniboosts.Props.softboost_history_independent",
    "Miniboosts.Props.erlp_history_independent",
    "Miniboosts.Props.lpboost_history_independent",
    "Miniboosts.Props.cerlp_history_independent",
    "Miniboosts.Props.gbm_run_history_independent",
    "Miniboosts.Props.graphsep_run_history_independent",
    "Miniboosts.Props.adaboost_run_history_independent",
    "Miniboosts.Props.adaboostv_run_history_independent",
    "Miniboosts.Props.madaboost_run_history_independent",
    "Miniboosts.Props.smoothboost_run_history_independent"
   ],
   "note": "After any number of earlier runs (finished or interrupted, each with a weak learner of its own) a further run gives what a fresh object with the same settings gives, for all twelve boosters; the solver is a function of the program, and MLPBoost's perturbation a function of the draw within the run."
  },
  {
   "property": "C61",
   "status": "partial",
   "theorems": [
    "Miniboosts.Props.run_returns_iff",
    "Miniboosts.Props.adaboost_returns_iff_general",
    "Miniboosts.Props.adaboostv_returns_iff",
    "Miniboosts.Props.adaboostv_returns_iff_general",
    "Miniboosts.Props.adaboostv_round_iff",
    "Miniboosts.Props.adaboostv_equal_edges_need_tolerance",
    "Miniboosts.Props.madaboost_returns_iff",
    "Miniboosts.Props.smoothboost_returns_iff",
    "Miniboosts.Props.graphsep_returns_iff",
    "Miniboosts.Props.gbm_returns_iff",
    "Miniboosts.Props.line_search_ok_iff",
    "Miniboosts.Props.softboost_returns_iff",
    "Miniboosts.Props.totalboost_returns_iff",
    "Miniboosts.Props.lpboost_returns_iff",
    "Miniboosts.Props.erlp_returns_iff",
    "Miniboosts.Props.cerlp_returns_iff",
    "Miniboosts.Props.cerlp_returns_iff_any",
    "Miniboosts.Props.mlp_returns_iff",
    "Miniboosts.Props.mlp_returns_iff_any",
    "Miniboosts.Props.adaboost_returns_iff",
    "Miniboosts.Props.lpboost_returns_always",
    "Miniboosts.Props.mlp_returns",
    "Miniboosts.Props.mlp_nu_eq_m_panics",
    "Miniboosts.Props.softboost_returns",
    "Miniboosts.Props.softboost_full_cap_panics",
    "Miniboosts.Props.lpboost_returns",
    "Miniboosts.Props.erlp_returns",
    "Miniboosts.Props.erlp_first_round_stop_panics",
    "Miniboosts.Props.adaboost_postprocess_ok_iff",
    "Miniboosts.Props.adaboost_run_zero_error",
    "Miniboosts.Props.adaboostv_run_margin",
    "Miniboosts.Props.adaboostv_bad_target_not_finite",
    "Miniboosts.Props.madaboost_boost_never_panics",
    "Miniboosts.Props.smoothboost_default_panics",
    "Miniboosts.Props.smoothboost_preprocess_ok_iff",
    "Miniboosts.Props.gbm_l2_panics",
    "Miniboosts.Props.mlp_blended_can_panic"
   ],
   "note": "False in general; the exact condition under which run returns is proved for all twelve boosters, CERLPBoost with all four Frank-Wolfe strategies.  AdaBoostV for any tolerance; MLPBoost with the blended pairwise strategy for weak learners that never repeat an answer.  With a repeated answer it can panic (proved: two examples, answers A, B, A; the step loses weight, C32, and the assertion on the weights fails). The conic boosters assume a correct solver."
  },
  {
   "property": "C62",
   "status": "proved",
   "theorems": [
    "Miniboosts.Props.adaboostv_vote_margin",
    "Miniboosts.Props.adaboostv_output",
    "Miniboosts.Props.adaboostv_margin",
    "Miniboosts.Props.adaboostv_margin_at_limit",
    "Miniboosts.Props.adaboostv_run_margin",
    "Miniboosts.Props.adaboostv_run_margin_at_limit"
   ],
   "note": ""
  },
  {
   "property": "C63",
   "status": "proved",
   "theorems": [
    "Miniboosts.Props.madaboost_terminates",
    "Miniboosts.Props.madaboost_boost_never_panics",
    "Miniboosts.Props.madaboost_vote_weights"
   ],
   "note": ""
  },
  {
   "property": "C22",
   "status": "partial",
   "theorems": [
    "Miniboosts.Props.gbm_output",
    "Miniboosts.Props.gbm_output_partial",
    "Miniboosts.Props.gbm_output_not_accumulated",
    "Miniboosts.Props.gbm_overshoots"
   ],
   "note": "false of the code: the output is normalised and negative coefficients are dropped (negation with witness); what it does return is proved exactly"
  },
  {
   "property": "C23",
   "status": "proved",
   "theorems": [
    "Miniboosts.Props.weightedMedian_optimal",
    "Miniboosts.Props.l1_bestCoefficient_optimal"
   ],
   "note": ""
  },
  {
   "property": "C24",
   "status": "partial",
   "theorems": [
    "Miniboosts.Props.l2_bestCoefficient_residual",
    "Miniboosts.Props.l2_bestCoefficient_optimal_partial",
    "Miniboosts.Props.l2_bestCoefficient_not_optimal"
   ],
   "note": "false of the code: it returns sum(y)/sum(p), which is optimal only in special cases (negation with witness)"
  },
  {
   "property": "C64",
   "status": "partial",
   "theorems": [
    "Miniboosts.Props.loss_eval_spec",
    "Miniboosts.Props.l2_gradient_is_derivative",
    "Miniboosts.Props.l1_gradient_sign_reversed"
   ],
   "note": "true for L2; for L1 the gradient has the wrong sign everywhere the loss is differentiable (proved)"
  },
  {
   "property": "C65",
   "status": "proved",
   "theorems": [
    "Miniboosts.Props.gbm_accumulates",
    "Miniboosts.Props.gbm_terminates",
    "Miniboosts.Props.gbm_tolerance_ignored"
   ],
   "note": ""
  },
  {
   "property": "C30",
   "status": "proved",
   "theorems": [
    "Miniboosts.Props.nextIterate_simplex",
    "Miniboosts.Props.classic_step",
    "Miniboosts.Props.shortStepSize_optimal"
   ],
   "note": "Simplex preservation for classic, short step and line search; the two step sizes are characterised (2/(t+1); optimum of the quadratic bound)."
  },
  {
   "property": "C31",
   "status": "partial",
   "theorems": [
    "Miniboosts.Props.lineSearch_ignores_better_hypothesis",
    "Miniboosts.Props.lineSearch_jumps_to_worse_hypothesis",
    "Miniboosts.Props.lineSearch_simplex_partial"
   ],
   "note": "The full statement is FALSE of the code: the bisection moves in the wrong direction. Proved: the two failing directions for all inputs, and that the result stays in the simplex."
  },
  {
   "property": "C32",
   "status": "partial",
   "theorems": [
    "Miniboosts.Props.blendedPairwise_simplex_partial",
    "Miniboosts.Props.blendedPairwise_loses_mass"
   ],
   "note": "FALSE of the code in general (the weight of the chosen hypothesis is overwritten): counterexample proved for every eta>0. Proved for a fresh hypothesis."
  },
  {
   "property": "C33",
   "status": "proved",
   "theorems": [
    "Miniboosts.Props.cerlp_weights_simplex",
    "Miniboosts.Props.cerlp_round",
    "Miniboosts.Props.cerlp_round_any",
    "Miniboosts.Props.cerlp_terminates",
    "Miniboosts.Props.cerlp_soft_margin",
    "Miniboosts.Props.cerlp_returns",
    "Miniboosts.Props.cerlp_nu_eq_m_panics"
   ],
   "note": "Classic and short-step strategies; cerlp_round_any covers all four (no panic, capped distributions, stopping rule); includes the soft margin guarantee rho - tolerance of the returned hypothesis."
  },
  {
   "property": "C25",
   "status": "partial",
   "theorems": [
    "Miniboosts.Props.lpboost_dual_partial",
    "Miniboosts.Props.lpboost_cap_not_respected",
    "Miniboosts.Props.lpboost_program_meaning",
    "Miniboosts.Props.lpboost_program_wellFormed",
    "Miniboosts.Props.lpboost_solution_hard_margin",
    "Miniboosts.Props.lpboost_solver_answers"
   ],
   "note": "FALSE of the code: the slack coefficient is nu instead of 1/nu, so the cap is not enforced (negation with witness); what the program does solve (the hard-margin pair) is proved exactly."
  },
  {
   "property": "C26",
   "status": "proved",
   "theorems": [
    "Miniboosts.Props.lpboost_queries",
    "Miniboosts.Props.lpboost_upper_estimate",
    "Miniboosts.Props.lpboost_certificate",
    "Miniboosts.Props.lpboost_margin",
    "Miniboosts.Props.lpboost_near_optimal",
    "Miniboosts.Props.lpboost_terminates",
    "Miniboosts.Props.lpboost_returns",
    "Miniboosts.Props.lpboost_terminates_always",
    "Miniboosts.Props.lpboost_returns_always",
    "Miniboosts.Props.exists_correct_solver"
   ],
   "note": "Relative to a solver returning an optimal primal-dual pair whenever one exists; such pairs are proved to exist."
  },
  {
   "property": "C28",
   "status": "proved",
   "theorems": [
    "Miniboosts.Props.erlp_programs",
    "Miniboosts.Props.erlp_solver_answers",
    "Miniboosts.Props.erlp_queries_capped",
    "Miniboosts.Props.erlp_no_panic",
    "Miniboosts.Props.erlp_returns"
   ],
   "note": "Relative to a solver that returns an optimal primal-dual pair whenever one exists; the pairs are proved to exist and the inner loop is proved to end."
  },
  {
   "property": "C29",
   "status": "proved",
   "theorems": [
    "Miniboosts.Props.erlp_estimates",
    "Miniboosts.Props.erlp_stopping",
    "Miniboosts.Props.erlp_terminates",
    "Miniboosts.Props.erlp_first_round_stop_panics",
    "Miniboosts.Props.erlp_preprocess_iff"
   ],
   "note": "For every solver."
  },
  {
   "property": "C27",
   "status": "partial",
   "theorems": [
    "Miniboosts.Props.softboost_queries_partial",
    "Miniboosts.Props.softboost_programs",
    "Miniboosts.Props.softboost_target",
    "Miniboosts.Props.softboost_terminates",
    "Miniboosts.Props.softboost_cap_not_respected",
    "Miniboosts.Props.totalboost_is_softboost",
    "Miniboosts.Props.softboost_preprocess_iff"
   ],
   "note": "the cap 1/nu is not in the program (proved with a witness): the program is the documented one for nu = 1; everything else is proved"
  },
  {
   "property": "C66",
   "status": "proved",
   "theorems": [
    "Miniboosts.Props.softboost_output",
    "Miniboosts.Props.softboost_output_optimal",
    "Miniboosts.Props.totalboost_is_softboost"
   ],
   "note": ""
  },
  {
   "property": "C67",
   "status": "partial",
   "theorems": [
    "Miniboosts.Props.softboost_stuck",
    "Miniboosts.Props.softboost_stuck_run",
    "Miniboosts.Props.softboost_guarantee_fails"
   ],
   "note": "false of this code, proved: the edge constraint does not subtract the tolerance, so a deterministic weak learner is asked with the uniform distribution in every round"
  },
  {
   "property": "C34",
   "status": "proved",
   "theorems": [
    "Miniboosts.Props.mlp_adopts_better",
    "Miniboosts.Props.mlp_no_duplicates",
    "Miniboosts.Props.mlp_weights_simplex",
    "Miniboosts.Props.mlp_round_any"
   ],
   "note": "The comparison and the absence of duplicates hold for any solver, perturbation and strategy; equal lengths need a correct solver and any strategy but blended pairwise."
  },
  {
   "property": "C68",
   "status": "partial",
   "theorems": [
    "Miniboosts.Props.mlp_cap_not_respected",
    "Miniboosts.Props.mlp_adopts_better"
   ],
   "note": "FALSE of the code for every nu > 1 (the cap row has the coefficient 1/nu on both sides): proved; the program is the one with cap 1."
  },
  {
   "property": "C69",
   "status": "proved",
   "theorems": [
    "Miniboosts.Props.mlp_round",
    "Miniboosts.Props.mlp_terminates",
    "Miniboosts.Props.mlp_soft_margin",
    "Miniboosts.Props.mlp_returns",
    "Miniboosts.Props.mlp_nu_eq_m_panics"
   ],
   "note": ""
  },
  {
   "property": "C43",
   "status": "proved",
   "theorems": [
    "Miniboosts.Props.csv_header_keeps_cells",
    "Miniboosts.Props.csv_noheader_keeps_cells",
    "Miniboosts.Props.csv_short_line_shifts",
    "Miniboosts.Props.csv_long_line_panics"
   ],
   "note": "with and without header; beyond the property: non-rectangular files"
  },
  {
   "property": "C44",
   "status": "proved",
   "theorems": [
    "Miniboosts.Props.sparse_reads_back",
    "Miniboosts.Props.sparse_dense_index",
    "Miniboosts.Props.exists_dense",
    "Miniboosts.Props.svmlight_keeps_values"
   ],
   "note": "files in which no line repeats a feature index"
  },
  {
   "property": "C45",
   "status": "partial",
   "theorems": [
    "Miniboosts.Props.mean_same",
    "Miniboosts.Props.variance_same",
    "Miniboosts.Props.mean_and_variance_same",
    "Miniboosts.Props.distinct_same_partial",
    "Miniboosts.Props.label_variance_excess_partial",
    "Miniboosts.Props.sparse_label_mean_zero",
    "Miniboosts.Props.label_mean_differs",
    "Miniboosts.Props.label_variance_differs",
    "Miniboosts.Props.distinct_differs"
   ],
   "note": "true for the overall mean and variance; false of the code for the per-label statistics and for the distinct count with explicit zeros (witnesses), exact excess proved"
  },
  {
   "property": "C46",
   "status": "partial",
   "theorems": [
    "Miniboosts.Props.unique_target_spec",
    "Miniboosts.Props.valid_binary_iff_partial",
    "Miniboosts.Props.valid_binary_accepts_three_labels"
   ],
   "note": "unique_target proved; the label check saturates at the i32 range, so it accepts three labels beyond it (witness); exact when the integer labels fit i32"
  },
  {
   "property": "C47",
   "status": "proved",
   "theorems": [
    "Miniboosts.Props.rename_panics_iff",
    "Miniboosts.Props.rename_spec"
   ],
   "note": ""
  },
  {
   "property": "C48",
   "status": "partial",
   "theorems": [
    "Miniboosts.Props.cv_start",
    "Miniboosts.Props.cv_fold_partial",
    "Miniboosts.Props.cv_iteration_partial",
    "Miniboosts.Props.cv_fold_panics_iff",
    "Miniboosts.Props.cv_panics_iff",
    "Miniboosts.Props.cv_default_panics_iff",
    "Miniboosts.Props.cv_sparse_test_reads_zero",
    "Miniboosts.Props.cv_sparse_values_lost"
   ],
   "note": "proved for samples with dense columns and sizes whose folds start inside the sample; false of the code otherwise: exact panic condition (default settings: n in 1,2,3,6,7,11) and loss of sparse values (proved, with witness)"
  },
  {
   "property": "C35",
   "status": "proved",
   "theorems": [
    "Miniboosts.Props.tree_depth"
   ],
   "note": ""
  },
  {
   "property": "C36",
   "status": "proved",
   "theorems": [
    "Miniboosts.Props.tree_confidence_range",
    "Miniboosts.Props.tree_edge_nonneg"
   ],
   "note": ""
  },
  {
   "property": "C37",
   "status": "proved",
   "theorems": [
    "Miniboosts.Props.leaf_owns_rows"
   ],
   "note": ""
  },
  {
   "property": "C38",
   "status": "proved",
   "theorems": [
    "Miniboosts.Props.best_split_optimal",
    "Miniboosts.Props.tree_splits_optimal"
   ],
   "note": "for one search and for every test of every trained tree"
  },
  {
   "property": "C39",
   "status": "proved",
   "theorems": [
    "Miniboosts.Props.cut_tiles",
    "Miniboosts.Props.value_in_one_bin",
    "Miniboosts.Props.pack_counts_once"
   ],
   "note": "cutting panics exactly when at least two bins narrower than 1e-9 are asked for"
  },
  {
   "property": "C40",
   "status": "proved",
   "theorems": [
    "Miniboosts.Props.pruning_identity",
    "Miniboosts.Props.leaf_counter"
   ],
   "note": "stronger: pruning never changes a trained tree at all"
  },
  {
   "property": "C57",
   "status": "proved",
   "theorems": [
    "Miniboosts.Props.dot_ids_contiguous",
    "Miniboosts.Props.dot_ids_distinct",
    "Miniboosts.Props.dot_lines",
    "Miniboosts.Props.dot_no_repeats",
    "Miniboosts.Props.dot_next"
   ],
   "note": "decision and regression trees: both node types have the same shape and the same export"
  },
  {
   "property": "C70",
   "status": "proved",
   "theorems": [
    "Miniboosts.Props.edge_tree_weak_learner"
   ],
   "note": ""
  },
  {
   "property": "C71",
   "status": "proved",
   "theorems": [
    "Miniboosts.Props.tree_training_succeeds",
    "Miniboosts.Props.default_tree_trains"
   ],
   "note": "in exact arithmetic; f64 is C94"
  },
  {
   "property": "C72",
   "status": "proved",
   "theorems": [
    "Miniboosts.Props.build_ok",
    "Miniboosts.Props.build_panics",
    "Miniboosts.Props.new_builder_bins"
   ],
   "note": ""
  },
  {
   "property": "C41",
   "status": "proved",
   "theorems": [
    "Miniboosts.Props.leaf_value_is_minimiser",
    "Miniboosts.Props.reg_leaf_optimal"
   ],
   "note": "the minimiser is unique; leaves of the trained tree, all losses with non-negative second derivatives and H + lambda > 0"
  },
  {
   "property": "C42",
   "status": "partial",
   "theorems": [
    "Miniboosts.Props.reg_tree_depth",
    "Miniboosts.Props.reg_splits_best_partial",
    "Miniboosts.Props.reg_fit_no_worse_partial",
    "Miniboosts.Props.reg_l1_split_worse"
   ],
   "note": "depth proved for all losses (in fact at most d-1 tests); best gain and improvement proved for losses with positive second derivatives (squared loss); FALSE of the code for the absolute loss, whose cancelling bins are dropped (witness)"
  },
  {
   "property": "C73",
   "status": "proved",
   "theorems": [
    "Miniboosts.Props.reg_l2_reduces_error"
   ],
   "note": ""
  },
  {
   "property": "C74",
   "status": "proved",
   "theorems": [
    "Miniboosts.Props.reg_training_succeeds",
    "Miniboosts.Props.reg_training_succeeds_losses",
    "Miniboosts.Props.reg_l1_needs_lambda",
    "Miniboosts.Props.reg_build_ok",
    "Miniboosts.Props.reg_default_trains",
    "Miniboosts.Props.reg_build_needs_loss",
    "Miniboosts.Props.reg_setters"
   ],
   "note": ""
  },
  {
   "property": "C75",
   "status": "partial",
   "theorems": [
    "Miniboosts.Props.l1_tree_wrong_direction",
    "Miniboosts.Props.reg_zero_gradient_leaf",
    "Miniboosts.Props.reg_zero_gradient_example",
    "Miniboosts.Props.gbm_l2_tree_centred_panics"
   ],
   "note": "FALSE of the code, proved: with the absolute loss the tree moves away from the targets for every such sample; a zero gradient sum gives the constant zero, and boosting then panics"
  },
  {
   "property": "C51",
   "status": "partial",
   "theorems": [
    "Miniboosts.Props.log_lines",
    "Miniboosts.Props.log_returns",
    "Miniboosts.Props.log_same_result_partial",
    "Miniboosts.Props.log_interval_irrelevant",
    "Miniboosts.Props.adaboost_log_same",
    "Miniboosts.Props.adaboost_log_panics",
    "Miniboosts.Props.log_changes_result"
   ],
   "note": "one line per boost call proved in full; same result proved whenever the intermediate evaluations do not panic (discharged for AdaBoost); FALSE in full: evaluating the intermediate hypothesis can panic, witness AdaBoost whose first edge is not positive"
  },
  {
   "property": "C60",
   "status": "proved",
   "theorems": [
    "Miniboosts.Props.builder_complete",
    "Miniboosts.Props.configure_spec",
    "Miniboosts.Props.log_interval_zero",
    "Miniboosts.Props.log_printed",
    "Miniboosts.Props.time_format_floor"
   ],
   "note": ""
  },
  {
   "property": "C56",
   "status": "proved",
   "theorems": [
    "Miniboosts.Props.bad_produce_max_edge",
    "Miniboosts.Props.bad_new_spec",
    "Miniboosts.Props.bad_new_ok",
    "Miniboosts.Props.bad_margins",
    "Miniboosts.Props.bad_confidence_range",
    "Miniboosts.Props.bad_builder",
    "Miniboosts.Props.dummy_sample",
    "Miniboosts.Props.dummy_binary"
   ],
   "note": ""
  },
  {
   "property": "C76",
   "status": "proved",
   "theorems": [
    "Miniboosts.Props.lpboost_worst_case",
    "Miniboosts.Props.lpboost_worst_case_ends"
   ],
   "note": ""
  },
  {
   "property": "C54",
   "status": "partial",
   "theorems": [
    "Miniboosts.Props.nn_softmax",
    "Miniboosts.Props.nn_softmax_empty",
    "Miniboosts.Props.nn_pointwise_activations",
    "Miniboosts.Props.nn_activation_derivative_partial",
    "Miniboosts.Props.nn_sigmoid_derivative_wrong",
    "Miniboosts.Props.nn_eval_is_composition",
    "Miniboosts.Props.nn_newLayers_shaped",
    "Miniboosts.Props.nn_binary_confidence"
   ],
   "note": "evaluation proved in full; derivatives proved for softmax (diagonal), ReLU off the kink and the identity; FALSE for the sigmoid at every point (missing square), proved"
  },
  {
   "property": "C55",
   "status": "partial",
   "theorems": [
    "Miniboosts.Props.nn_vectorize_encodes",
    "Miniboosts.Props.nn_binary_roundtrip_partial",
    "Miniboosts.Props.nn_multiclass_roundtrip",
    "Miniboosts.Props.nn_discretize_argmax",
    "Miniboosts.Props.nn_label_out_of_range",
    "Miniboosts.Props.nn_scalar_roundtrip_false",
    "Miniboosts.Props.nn_multiclass_confidence_nonneg"
   ],
   "note": "multi-class labels and binary labels with two outputs round-trip; FALSE with a single output (label +1 is decoded as -1), proved; the inherited predict is constantly +1 for multi-class networks"
  },
  {
   "property": "C77",
   "status": "partial",
   "theorems": [
    "Miniboosts.Props.nn_train_is_gradient_step_partial",
    "Miniboosts.Props.nn_train_descends_partial",
    "Miniboosts.Props.nn_train_ok",
    "Miniboosts.Props.nn_train_empty_panics",
    "Miniboosts.Props.nn_hidden_sigmoid_not_gradient",
    "Miniboosts.Props.nn_hidden_softmax_not_gradient"
   ],
   "note": "proved for any depth with identity/ReLU (off the kink) hidden layers and identity/softmax/sigmoid output; FALSE of hidden sigmoid and softmax layers, proved: the trained bias is not the old one minus rate times the derivative, for every rate (the code's sigmoid derivative lacks a square, its softmax derivative the off-diagonal terms)"
  },
  {
   "property": "C78",
   "status": "proved",
   "theorems": [
    "Miniboosts.Props.nn_produce_ok",
    "Miniboosts.Props.nn_builder",
    "Miniboosts.Props.nn_minibatch",
    "Miniboosts.Props.nn_default_minibatch",
    "Miniboosts.Props.nn_eval_is_composition",
    "Miniboosts.Props.nn_no_layer_panics"
   ],
   "note": ""
  },
  {
   "property": "C53",
   "status": "partial",
   "theorems": [
    "Miniboosts.Props.nb_maximises",
    "Miniboosts.Props.nb_one_column_partial",
    "Miniboosts.Props.nb_equal_variances_partial",
    "Miniboosts.Props.nb_answers_with_label",
    "Miniboosts.Props.nb_wrong_two_columns",
    "Miniboosts.Props.nb_constant_column",
    "Miniboosts.Props.nb_weightless_label"
   ],
   "note": "proved for one dense column (and for any number of columns when the products of the variances agree); the exact quantity maximised is proved for any number of dense columns with positive variances; FALSE in general, proved: two columns give the wrong label on a training row, a constant column or a weightless largest label makes the answer constant (NaN); sparse columns are fitted wrongly (see label_variance_excess_partial)"
  },
  {
   "property": "C79",
   "status": "partial",
   "theorems": [
    "Miniboosts.Props.erlp_soft_margin_partial",
    "Miniboosts.Props.erlp_last_solution",
    "Miniboosts.Props.erlp_soft_margin_false"
   ],
   "note": "FALSE of the code, proved: with default parameters, 20 examples and a weak learner with edge >= 0.09 on every distribution the returned vote is wrong on 18 examples with margin <= -0.8 (an example whose weight becomes 0 is frozen by the curvature 1/(EPS*eta), and the loop stops because the objective no longer drops). Proved: margin >= rho - tolerance - r^2/((1-r) eta) for a run stopping before the limit, r the relative change in the last accepted inner step"
  },
  {
   "property": "C80",
   "status": "proved",
   "theorems": [
    "Miniboosts.Props.tree_weak_learner"
   ],
   "note": ""
  },
  {
   "property": "C81",
   "status": "proved",
   "theorems": [
    "Miniboosts.Props.tree_answers",
    "Miniboosts.Props.adaboost_trees",
    "Miniboosts.Props.adaboostv_trees",
    "Miniboosts.Props.lpboost_trees",
    "Miniboosts.Props.cerlp_trees",
    "Miniboosts.Props.mlp_trees",
    "Miniboosts.Props.default_trees_ok",
    "Miniboosts.Props.exReal_ok",
    "Miniboosts.Props.exReal_margin"
   ],
   "note": ""
  },
  {
   "property": "C82",
   "status": "proved",
   "theorems": [
    "Miniboosts.Props.adaboost_returns_iff",
    "Miniboosts.Props.adaboost_deterministic_returns_iff",
    "Miniboosts.Props.adaboost_trees_return_iff",
    "Miniboosts.Props.adaboost_stumps_return_iff",
    "Miniboosts.Props.adaboost_xor_panics"
   ],
   "note": ""
  },
  {
   "property": "C83",
   "status": "proved",
   "theorems": [
    "Miniboosts.Props.adaboost_configured",
    "Miniboosts.Props.adaboost_chains_agree",
    "Miniboosts.Props.adaboost_configured_zero_error",
    "Miniboosts.Props.adaboost_default_zero_error",
    "Miniboosts.Props.adaboostv_configured",
    "Miniboosts.Props.adaboostv_chains_agree",
    "Miniboosts.Props.adaboostv_configured_margin",
    "Miniboosts.Props.madaboost_configured",
    "Miniboosts.Props.madaboost_chains_agree",
    "Miniboosts.Props.smoothboost_configured",
    "Miniboosts.Props.smoothboost_chains_agree",
    "Miniboosts.Props.lpboost_configured",
    "Miniboosts.Props.lpboost_configured_margin",
    "Miniboosts.Props.lpboost_chains_agree",
    "Miniboosts.Props.erlp_configured",
    "Miniboosts.Props.erlp_configured_returns",
    "Miniboosts.Props.erlp_chains_agree",
    "Miniboosts.Props.softboost_configured",
    "Miniboosts.Props.softboost_configured_returns",
    "Miniboosts.Props.softboost_chains_agree",
    "Miniboosts.Props.cerlp_configured",
    "Miniboosts.Props.cerlp_configured_margin",
    "Miniboosts.Props.cerlp_chains_agree",
    "Miniboosts.Props.mlp_configured",
    "Miniboosts.Props.mlp_configured_margin",
    "Miniboosts.Props.mlp_chains_agree"
   ],
   "note": ""
  },
  {
   "property": "C84",
   "status": "partial",
   "theorems": [
    "Miniboosts.Props.adaboost_separable_claim_false",
    "Miniboosts.Props.adaboost_separable_zero_error"
   ],
   "note": "FALSE of the code as documented, proved for every tolerance: a separable 4-example sample and a largest-edge learner with which AdaBoost returns a hypothesis wrong on 3 examples (the limit ln(m)/tolerance^2 does not depend on the margin). Proved when the separating margin is at least twice the tolerance"
  },
  {
   "property": "C85",
   "status": "proved",
   "theorems": [
    "Miniboosts.Props.tree_configured",
    "Miniboosts.Props.tree_configured_trains",
    "Miniboosts.Props.reg_configured",
    "Miniboosts.Props.reg_configured_trains",
    "Miniboosts.Props.nn_configured",
    "Miniboosts.Props.nn_configured_produce",
    "Miniboosts.Props.nn_regression_predict"
   ],
   "note": ""
  },
  {
   "property": "C86",
   "status": "proved",
   "theorems": [
    "Miniboosts.Props.push_decompose",
    "Miniboosts.Props.push_confidence",
    "Miniboosts.Props.push_prediction",
    "Miniboosts.Props.push_norm_eq_fromSlices",
    "Miniboosts.Props.decompose_round_trip"
   ],
   "note": ""
  },
  {
   "property": "C87",
   "status": "proved",
   "theorems": [
    "Miniboosts.Props.sample_statistics",
    "Miniboosts.Props.sample_statistics_panics",
    "Miniboosts.Props.sample_label_statistics"
   ],
   "note": "per-label statistics for samples of dense columns; sparse columns are C45 (wrong in the code, proved there)"
  },
  {
   "property": "C88",
   "status": "proved",
   "theorems": [
    "Miniboosts.Props.adaboost_schedule_independent",
    "Miniboosts.Props.adaboostv_schedule_independent",
    "Miniboosts.Props.madaboost_schedule_independent",
    "Miniboosts.Props.smoothboost_schedule_independent",
    "Miniboosts.Props.gbm_schedule_independent",
    "Miniboosts.Props.inner_product_schedule_independent",
    "Miniboosts.Props.parallel_functions_schedule_independent"
   ],
   "note": "for exact addition, as the statement says; parallel collect of columns while reading a csv file or a data frame is an order-preserving map"
  },
  {
   "property": "C89",
   "status": "partial",
   "theorems": [
    "Miniboosts.Props.decision_tree_schedule_independent",
    "Miniboosts.Props.regression_tree_schedule_independent",
    "Miniboosts.Props.multiclass_tree_depends_on_hash_order"
   ],
   "note": "proved for regression trees and for decision trees with labels +1/-1; FALSE with three or more labels (the label of a leaf is the last maximum in the traversal order of a hash map), witness proved"
  },
  {
   "property": "C90",
   "status": "partial",
   "theorems": [
    "Miniboosts.Props.adaboost_float_schedule_dependent",
    "Miniboosts.Props.edge_depends_on_schedule",
    "Miniboosts.Props.float_edge_accurate_partial"
   ],
   "note": "FALSE of the code, proved: on ten examples with default parameters and a learner returning a perfect hypothesis, one division of the first sum ends the run after one call of the learner (edge 1) and another goes on (edge 1 - 2^-53). Proved: every schedule computes the edge to within 1e-9"
  },
  {
   "property": "C91",
   "status": "proved",
   "theorems": [
    "Miniboosts.Props.adaboost_float_weights_sound",
    "Miniboosts.Props.fromSlices_error",
    "Miniboosts.Props.exUnsure_fair",
    "Miniboosts.Props.exists_float_run"
   ],
   "note": "the conditions on the learner are about the rounds that a run reaches; the limit of the loop is computed exactly in the model; the two zeros are identified"
  },
  {
   "property": "C92",
   "status": "proved",
   "theorems": [
    "Miniboosts.Props.adaboost_float_training_error",
    "Miniboosts.Props.adaboost_float_separates",
    "Miniboosts.Props.exUnsure_fair"
   ],
   "note": ""
  },
  {
   "property": "C93",
   "status": "partial",
   "theorems": [
    "Miniboosts.Props.tree_build_hangs",
    "Miniboosts.Props.tree_build_panics_range",
    "Miniboosts.Props.tree_build_panics_constant",
    "Miniboosts.Props.cut_f64_partial",
    "Miniboosts.Props.tree_build_f64_partial"
   ],
   "note": "FALSE of the code, proved in binary64: two neighbouring values (2^53 and 2^53+2) make the builder loop for ever, six values from 0 to 2^24 make it panic, and so does a constant column of 2^53; proved to succeed, whatever the rounding, for n bins when the values are at most M with (n+8)M <= 2^21 and the bins are 3e-9 wide (or n = 1)"
  },
  {
   "property": "C94",
   "status": "partial",
   "theorems": [
    "Miniboosts.Props.tree_f64_trains_partial",
    "Miniboosts.Props.tree_f64_gini_panics"
   ],
   "note": "FALSE of the code for the criterion Gini, proved in binary64: three rows with weights 1/2, 1/2, 2^-60 make training panic in every execution (the weight of a label is rounded to that of one row, the label is removed too early and then looked up). Proved for entropy, edge and twoing on up to 10^5 rows and bins, with the columns of C93"
  },
  {
   "property": "C95",
   "status": "proved",
   "theorems": [
    "Miniboosts.Props.adaboost_f64_trees",
    "Miniboosts.Props.adaboost_f64_trees_error",
    "Miniboosts.Props.exists_floatTreeLearner",
    "Miniboosts.Props.sameBuilder_data",
    "Miniboosts.Props.sameEdges"
   ],
   "note": "composition of C91/C92 with C93/C94; the condition on the edges is about the rounds that a run reaches"
  },
  {
   "property": "C96",
   "status": "partial",
   "theorems": [
    "Miniboosts.Props.project_f64_sound",
    "Miniboosts.Props.project_f64_panic",
    "Miniboosts.Props.project_f64_returns_partial",
    "Miniboosts.Props.softmax_f64_returns",
    "Miniboosts.Props.project_f64_can_panic",
    "Miniboosts.Props.entropyProjection_unique"
   ],
   "note": "that it never panics is FALSE of the code, proved: nine margins -7/8..1/8 with eta = 800 and nu = 8 make the weight of the last capped example (-(8.ln())).exp() > 1/8, and the assertion fails. Proved: every returned vector is the exact projection up to 3e-5 (any nu); it returns when no example is within 1% of the cap and the uncapped mass is at least 1/1000; without a cap (softmax, nu = 1) it always returns"
  },
  {
   "property": "C97",
   "status": "proved",
   "theorems": [
    "Miniboosts.Props.csv_file_learned",
    "Miniboosts.Props.svmlight_file_learned",
    "Miniboosts.Props.boolean_sample_learned"
   ],
   "note": "in exact arithmetic; composition of C43/C44, C72, C80, C81 and C03 with the conditions stated on the file"
  },
  {
   "property": "C98",
   "status": "partial",
   "theorems": [
    "Miniboosts.Props.tree_answer_by_name",
    "Miniboosts.Props.tree_same_answer",
    "Miniboosts.Props.tree_answers_elsewhere",
    "Miniboosts.Props.decision_tree_tests_known",
    "Miniboosts.Props.regression_tree_tests_known",
    "Miniboosts.Props.decision_tree_answers_elsewhere",
    "Miniboosts.Props.regression_tree_answers_elsewhere",
    "Miniboosts.Props.vote_same_answer",
    "Miniboosts.Props.adaboost_trees_by_name",
    "Miniboosts.Props.csv_prediction_by_name",
    "Miniboosts.Props.nb_same_answer_partial",
    "Miniboosts.Props.nn_same_answer_partial",
    "Miniboosts.Props.nb_answers_by_position",
    "Miniboosts.Props.nn_answers_by_position"
   ],
   "note": "proved in full for trees, votes of trees and AdaBoost on trees; FALSE of the code for naive Bayes and neural networks, proved: they read the columns by position, so the same row listed as (a, b) and (b, a) gets different answers; for them proved when the samples list the same columns in the same order"
  },
  {
   "property": "C99",
   "status": "proved",
   "theorems": [
    "Miniboosts.Props.frame_read_iff",
    "Miniboosts.Props.frame_keeps_cells",
    "Miniboosts.Props.frame_target_length",
    "Miniboosts.Props.frame_like_csv"
   ],
   "note": "polars is modelled by names, types, values and nulls of its series"
  },
  {
   "property": "C100",
   "status": "proved",
   "theorems": [
    "Miniboosts.Props.decision_tree_prints",
    "Miniboosts.Props.regression_tree_prints",
    "Miniboosts.Props.info_bins"
   ],
   "note": "the text of a number is a parameter"
  },
  {
   "property": "C101",
   "status": "proved",
   "theorems": [
    "Miniboosts.Props.adaboost_provenance",
    "Miniboosts.Props.adaboostv_provenance",
    "Miniboosts.Props.madaboost_provenance",
    "Miniboosts.Props.smoothboost_provenance",
    "Miniboosts.Props.graphsep_provenance",
    "Miniboosts.Props.gbm_provenance",
    "Miniboosts.Props.lpboost_provenance",
    "Miniboosts.Props.erlpboost_provenance",
    "Miniboosts.Props.softboost_provenance",
    "Miniboosts.Props.totalboost_provenance",
    "Miniboosts.Props.cerlp_provenance",
    "Miniboosts.Props.mlp_provenance",
    "Miniboosts.Props.fromRun_iff_index",
    "Miniboosts.Props.trees_by_name",
    "Miniboosts.Props.vote_trees_answer"
   ],
   "note": ""
  },
  {
   "property": "C102",
   "status": "proved",
   "theorems": [
    "Miniboosts.Props.log_transparent",
    "Miniboosts.Props.log_returns_exactly",
    "Miniboosts.Props.adaboost_log_returns_iff",
    "Miniboosts.Props.madaboost_log_returns_iff",
    "Miniboosts.Props.adaboostv_log_transparent",
    "Miniboosts.Props.smoothboost_log_transparent",
    "Miniboosts.Props.graphsep_log_transparent",
    "Miniboosts.Props.lpboost_log_transparent",
    "Miniboosts.Props.erlpboost_log_transparent",
    "Miniboosts.Props.softboost_log_transparent",
    "Miniboosts.Props.totalboost_log_transparent",
    "Miniboosts.Props.cerlp_log_transparent",
    "Miniboosts.Props.mlp_log_transparent"
   ],
   "note": "C51 for each booster; the trait Research is not implemented for GBM"
  },
  {
   "property": "C103",
   "status": "proved",
   "theorems": [
    "Miniboosts.Props.tree_f64_answers_means",
    "Miniboosts.Props.tree_f64_edge",
    "Miniboosts.Props.adaboost_f64_edge_trees"
   ],
   "note": "Conditions as in C93-C95: at most 1e5 rows and bins, columns of moderate size; boundaries of the bins, not arbitrary thresholds (the code only tests those). The upper bound 0.998 on the edges of the trees in the boosting theorem is a hypothesis, as in C95."
  },
  {
   "property": "C104",
   "status": "proved",
   "theorems": [
    "Miniboosts.Props.tree_calibrated",
    "Miniboosts.Props.tree_calibrated_value",
    "Miniboosts.Props.treeLearner_calibrated",
    "Miniboosts.Props.treeLearner_error"
   ],
   "note": "Exact arithmetic. The last two are stated for distributions under which training succeeds (TreesOk, C81/C96)."
  },
  {
   "property": "C105",
   "status": "proved",
   "theorems": [
    "Miniboosts.Props.graphsep_trees",
    "Miniboosts.Props.smoothboost_trees",
    "Miniboosts.Props.madaboost_trees",
    "Miniboosts.Props.erlp_trees"
   ],
   "note": "Exact arithmetic. For MadaBoost and ERLPBoost no bound on the error is claimed here (C09, C65 are about that)."
  },
  {
   "property": "C106",
   "status": "proved",
   "theorems": [
    "Miniboosts.Props.file_adaboost",
    "Miniboosts.Props.file_adaboostv",
    "Miniboosts.Props.file_graphsep",
    "Miniboosts.Props.file_lpboost",
    "Miniboosts.Props.file_cerlp",
    "Miniboosts.Props.file_mlp"
   ],
   "note": "Exact arithmetic; a correct solver is assumed for LPBoost and MLPBoost; AdaBoostV is given at least 2 ln m / tolerance^2 rounds by force_quit_at. CERLPBoost and MLPBoost with the classic or short step rule."
  },
  {
   "property": "C107",
   "status": "partial",
   "theorems": [
    "Miniboosts.Props.softboost_trees_single",
    "Miniboosts.Props.totalboost_trees_single",
    "Miniboosts.Props.softboost_trees_wrong"
   ],
   "note": "FALSE (a bug of the crate): for every sample, criterion, depth, tolerance and nu, both ask for the tree of the uniform distribution in every round and return just that tree (softboost_trees_single, totalboost_trees_single); on a four-row sample that three stumps separate with margin 1/3, the result is wrong on a row (softboost_trees_wrong), where AdaBoost gets all rows right (C81). What remains true is that they return."
  },
  {
   "property": "C108",
   "status": "proved",
   "theorems": [
    "Miniboosts.Props.setTarget_spec",
    "Miniboosts.Props.setTarget_missing",
    "Miniboosts.Props.setTarget_twice"
   ],
   "note": "The values are those that Feature::index returns (C43)."
  },
  {
   "property": "C109",
   "status": "proved",
   "theorems": [
    "Miniboosts.Props.graphsep_f64",
    "Miniboosts.Props.graphsep_f64_trees",
    "Miniboosts.Props.tree_f64_signs"
   ],
   "note": "The f64 run is simulated by the exact model run with the weights rounded before the learner sees them; the trees' side is C103 plus a lemma on the signs of the leaves."
  },
  {
   "property": "C110",
   "status": "proved",
   "theorems": [
    "Miniboosts.Props.file_graphsep_f64",
    "Miniboosts.Props.boolSample_margin",
    "Miniboosts.Props.boolSample_float"
   ],
   "note": "Composition of C97/C106 (reading), C90/C93 (binning and training in f64) and C109 (the booster in f64)."
  },
  {
   "property": "C111",
   "status": "proved",
   "theorems": [
    "Miniboosts.Props.tree_f64_gini_trains",
    "Miniboosts.Props.tree_f64_gini",
    "Miniboosts.Props.adaboost_f64_gini_trees",
    "Miniboosts.Props.graphsep_f64_gini_trees"
   ],
   "note": "Complements the finding of C94 (tree_f64_gini_panics): it says for which weights the panic cannot occur. In (d) the weights of GraphSepBoost are fractions with a denominator of at most 900\u00b2 while a label is wrong, so they are never tiny."
  },
  {
   "property": "C112",
   "status": "proved",
   "theorems": [
    "Miniboosts.Props.adaboostv_f64_margin",
    "Miniboosts.Props.adaboostv_f64_limit",
    "Miniboosts.Props.adaboostv_f64_separates"
   ],
   "note": "Complements the exact-arithmetic margin theorem for AdaBoostV. The edges must stay at or below 0.95: near 1 the votes are unbounded."
  },
  {
   "property": "C113",
   "status": "proved",
   "theorems": [
    "Miniboosts.Props.adaboostv_f64_edge_trees",
    "Miniboosts.Props.adaboost_f64_margin_trees",
    "Miniboosts.Props.tree_f64_depth"
   ],
   "note": "The upper bound on the edges is about the run; it holds for instance when the trees are too small to fit the sample. The example is one round on three rows."
  },
  {
   "property": "C114",
   "status": "proved",
   "theorems": [
    "Miniboosts.Props.correct_accurate",
    "Miniboosts.Props.lpboost_accurate_queries",
    "Miniboosts.Props.lpboost_accurate_certificate",
    "Miniboosts.Props.lpboost_accurate_margin",
    "Miniboosts.Props.lpboost_accurate_near_optimal",
    "Miniboosts.Props.lpboost_accurate_returns",
    "Miniboosts.Props.lpboost_accurate_loops"
   ],
   "note": "\u03b5 bounds absolute residuals of the program as LPBoost passes it on; rounding inside LPBoost itself is not part of this claim."
  },
  {
   "property": "C115",
   "status": "proved",
   "theorems": [
    "Miniboosts.Props.mlp_any_solver_margin",
    "Miniboosts.Props.mlp_any_solver_outcome",
    "Miniboosts.Props.mlpboost_accurate_panics"
   ],
   "note": "With exact solvers the panic does not occur and the bound is \u03c1 \u2212 tolerance (C69)."
  },
  {
   "property": "C116",
   "status": "proved",
   "theorems": [
    "Miniboosts.Props.softboost_accurate_rounds",
    "Miniboosts.Props.softboost_accurate_output",
    "Miniboosts.Props.softboost_accurate_optimal",
    "Miniboosts.Props.softboost_accurate_returns",
    "Miniboosts.Props.totalboost_is_softboost"
   ],
   "note": "\u03b5 bounds absolute residuals of the programs as SoftBoost passes them on; rounding inside SoftBoost itself is not part of this claim. With an inexact solver an early stop no longer proves that the target cannot be met; nothing is claimed about that."
  },
  {
   "property": "C117",
   "status": "proved",
   "theorems": [
    "Miniboosts.Props.erlp_accurate_queries",
    "Miniboosts.Props.erlp_accurate_no_panic",
    "Miniboosts.Props.erlp_accurate_returns"
   ],
   "note": "\u03b5 bounds absolute residuals of the programs as ERLPBoost passes them on; rounding inside ERLPBoost itself is not part of this claim. No margin is claimed: C79 shows the documented one fails even with an exact solver."
  },
  {
   "property": "C118",
   "status": "proved",
   "theorems": [
    "Miniboosts.Props.smoothboost_f64_returns",
    "Miniboosts.Props.smoothboost_f64_rounds",
    "Miniboosts.Props.smoothboost_f64_large_sample"
   ],
   "note": "After more than m rounds the code drops hypotheses (C17), so nothing is said about the mistakes then. The factor 1/\u221a(1-\u03b3) comes from the code's counters starting at 1 (C61)."
  },
  {
   "property": "C119",
   "status": "proved",
   "theorems": [
    "Miniboosts.Props.smoothboost_f64_trees_return",
    "Miniboosts.Props.smoothboost_f64_edge_trees"
   ],
   "note": "The sample's property is stated about the data alone (a vote over tests with margin \u03b8), not about the learner."
  },
  {
   "property": "C120",
   "status": "proved",
   "theorems": [
    "Miniboosts.Props.madaboost_f64_never_panics",
    "Miniboosts.Props.madaboost_f64_returns",
    "Miniboosts.Props.madaboost_f64_confidence",
    "Miniboosts.Props.madaboost_f64_can_panic",
    "Miniboosts.Props.madaboost_f64_trees_never_panics",
    "Miniboosts.Props.madaboost_f64_edge_trees"
   ],
   "note": "The bound 3000 keeps the scores where the logarithmic sum is accurate. The learner's conditions need to hold only for weights as described."
  },
  {
   "property": "C121",
   "status": "proved",
   "theorems": [
    "Miniboosts.Props.gbm_f64_tree_answers",
    "Miniboosts.Props.regression_tree_f64_trains",
    "Miniboosts.Props.regression_tree_f64_leaf_values",
    "Miniboosts.Props.regression_tree_f64_reduces_error",
    "Miniboosts.Props.regression_tree_f64_l1_leaf_values",
    "Miniboosts.Props.regression_tree_f64_l1_panics"
   ],
   "note": "The conditions on the columns are those of C93 (outside them cutting a column may itself panic or not end). The two zeros are identified, so the sign of a zero difference is left open; the statement on answers for the absolute loss excludes it."
  },
  {
   "property": "C122",
   "status": "proved",
   "theorems": [
    "Miniboosts.Props.gbm_l2_sum",
    "Miniboosts.Props.gbm_l2_run_sums",
    "Miniboosts.Props.gbm_l2_error_grows",
    "Miniboosts.Props.gbm_l2_all_rounds",
    "Miniboosts.Props.gbm_l2_centred_panics",
    "Miniboosts.Props.gbm_l2_trees_panic"
   ],
   "note": "What the code does is proved; what a user expects (the error falls with the rounds) is false. Exact arithmetic: in f64 the second tree's gradients sum to a rounding error instead of zero unless the sums happen to be exact, and then the coefficient is that error's reciprocal in size rather than a panic. A tree learner that panics is replaced by the constant zero, which makes the run panic as well."
  },
  {
   "property": "C123",
   "status": "proved",
   "theorems": [
    "Miniboosts.Props.gbm_f64_one_result",
    "Miniboosts.Props.line_search_f64_l2",
    "Miniboosts.Props.line_search_f64_l1",
    "Miniboosts.Props.gbm_f64_centred_panics",
    "Miniboosts.Props.gbm_f64_trees_panic",
    "Miniboosts.Props.gbm_f64_overshoots"
   ],
   "note": "f64 counterpart of C122. Trees with several leaves in f64: the second round's sum is a rounding error, not exactly zero, so nothing is claimed there. The two zeros are identified."
  },
  {
   "property": "C124",
   "status": "proved",
   "theorems": [
    "Miniboosts.Props.line_search_f64_l1_near_best",
    "Miniboosts.Props.gbm_f64_accumulates"
   ],
   "note": "f64 counterpart of C23 and C65."
  },
  {
   "property": "C125",
   "status": "proved",
   "theorems": [
    "Miniboosts.Props.cerlp_f64_outcome",
    "Miniboosts.Props.cerlp_f64_returns",
    "Miniboosts.Props.cerlp_f64_panics",
    "Miniboosts.Props.cerlp_f64_margin",
    "Miniboosts.Props.cerlp_f64_no_mistake"
   ],
   "note": "f64 counterpart of C33. That the run stops before the limit is a hypothesis of the margin statement (in exact arithmetic C33 proves the bound at the limit too); nu > 1 is C126; the two line searches are covered only by the exact model."
  },
  {
   "property": "C126",
   "status": "proved",
   "theorems": [
    "Miniboosts.Props.cerlp_f64_capped",
    "Miniboosts.Props.cerlp_f64_soft_margin",
    "Miniboosts.Props.cerlp_f64_confidence",
    "Miniboosts.Props.cerlp_f64_few_mistakes",
    "Miniboosts.Props.cerlp_f64_configured",
    "Miniboosts.Props.cerlp_f64_nu_panics",
    "Miniboosts.Props.cerlp_f64_invalid_labels"
   ],
   "note": "f64 counterpart of C34. Conditional on the run returning: for nu > 1 the projection can panic on rounding errors (C96, project_f64_can_panic); for nu = 1 C125 shows that it does not. That the run stops before the limit is a hypothesis of the margin statements."
  },
  {
   "property": "C127",
   "status": "proved",
   "theorems": [
    "Miniboosts.Props.cerlp_f64_trees",
    "Miniboosts.Props.cerlp_f64_edge_trees",
    "Miniboosts.Props.cerlp_f64_capped_trees",
    "Miniboosts.Props.tree_eq_of_beq"
   ],
   "note": "C125 and C126 composed with C94 and C103. That the run stops before the limit is a hypothesis of the margin statements; the capped statement is conditional on the run returning."
  },
  {
   "property": "C128",
   "status": "proved",
   "theorems": [
    "Miniboosts.Props.file_cerlp_f64",
    "Miniboosts.Props.file_smoothboost_f64",
    "Miniboosts.Props.file_madaboost_f64"
   ],
   "note": "The counterpart of C110 (GraphSepBoost) for the other boosters in f64: C110's reading of a file composed with C127, C119 and C120. That CERLPBoost stops before the limit is a hypothesis of its last conclusion."
  },
  {
   "property": "C129",
   "status": "proved",
   "theorems": [
    "Miniboosts.Props.softMargin_f64",
    "Miniboosts.Props.hardMargin_f64",
    "Miniboosts.Props.softMargin_f64_nan_panics",
    "Miniboosts.Props.softMargin_f64_nu_panics",
    "Miniboosts.Props.expLoss_f64",
    "Miniboosts.Props.cerlp_f64_objective"
   ],
   "note": "The f64 counterpart of C49 and C50; the exact soft margin comes from C49. As C50 shows, the exponential loss is that of the predictions, not of the confidences."
  },
  {
   "property": "C130",
   "status": "proved",
   "theorems": [
    "Miniboosts.Props.mlp_f64_capped",
    "Miniboosts.Props.mlp_f64_soft_margin",
    "Miniboosts.Props.mlp_f64_few_mistakes",
    "Miniboosts.Props.mlp_f64_nu_panics",
    "Miniboosts.Props.mlp_f64_configured",
    "Miniboosts.Props.mlp_f64_invalid_labels"
   ],
   "note": "The f64 counterpart of the MLPBoost properties in exact arithmetic. exMlpF_run shows that the claims are not vacuous: with a solver that answers only NaN a run on two examples returns a vote."
  },
  {
   "property": "C131",
   "status": "proved",
   "theorems": [
    "Miniboosts.Props.par_used_setting",
    "Miniboosts.Props.adaboost_f64_rerun",
    "Miniboosts.Props.adaboostv_f64_rerun",
    "Miniboosts.Props.madaboost_f64_rerun",
    "Miniboosts.Props.smoothboost_f64_rerun",
    "Miniboosts.Props.graphsep_f64_rerun",
    "Miniboosts.Props.cerlp_f64_rerun",
    "Miniboosts.Props.mlp_f64_rerun",
    "Miniboosts.Props.gbm_f64_rerun"
   ],
   "note": "The f64 counterpart of C52. MLPBoost: the LP solver is a function of its input, so the random perturbations are taken to be the same in both runs. A run that panics inside boost is not continued."
  },
  {
   "property": "C132",
   "status": "proved",
   "theorems": [
    "Miniboosts.Props.mlp_f64_trees",
    "Miniboosts.Props.file_mlp_f64",
    "Miniboosts.Props.mlp_f64_objective"
   ],
   "note": "That a run on trees returns is not claimed: the check on the weights may panic when the LP solver's answer wins the comparison without being a distribution."
  }
 ]
}