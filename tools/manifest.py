import json
C=[]
def c(prop,status,theorems,note=""):
    C.append(dict(property=prop,status=status,theorems=["Miniboosts.Props."+t for t in theorems.split()],note=note))
c("C01","proved","adaboost_queries_are_distributions")
c("C02","proved","adaboost_weights_closed_form")
c("C03","proved","adaboost_new_edge_zero")
c("C04","proved","adaboost_terminates adaboost_run_calls")
c("C05","proved","adaboost_training_error adaboost_zero_error_after adaboost_run_zero_error")
c("C06","partial","adaboost_perfect_hypothesis adaboost_perfect_hypothesis_no_error adaboost_perfectly_wrong_hypothesis_panics adaboost_postprocess_ok_iff","edge >= 1: proved. edge <= -1: the property is false of the code (negation proved: the run panics).")
c("C08","proved","fromSlices_ok_iff fromSlices_panics_iff fromSlices_spec")
c("C09","proved","confidence_between predict_eq_one_iff batch_rows")
c("C10","proved","fromSlices_scale predict_fromSlices_eq_raw norm_predict")
c("C21","proved","naiveAggregation_predict naiveAggregation_training_positive")
c("C58","proved","edge_eq weightedEdge_eq edge_between_margins")
c("C07","proved","adaboostv_queries_are_distributions adaboostv_weights_closed_form adaboostv_terminates adaboostv_run_calls adaboostv_target")
c("C11","proved","project_ok_iff project_capped")
c("C12","proved","project_shape project_order project_pythagoras project_optimal project_one project_shift expDistribution_shape")
c("C49","proved","softMargin_is_min softMargin_ok_iff hardMargin_is_min_margin softMargin_between")
c("C50","proved","expLoss_dominates_error expLoss_not_of_confidence","the code evaluates the loss at the predictions, not the confidences as documented (negation proved)")
c("C59","proved","entropyFromUni_eq entropyFromUni_bounds")
c("C13","proved","madaboost_weights madaboost_cap")
c("C14","partial","madaboost_favours_correct_examples madaboost_favours_correct_witness","false of the code: the update raises the weight of correctly classified examples; the negation is proved, with a concrete witness")
c("C15","proved","smoothboost_smooth")
c("C16","proved","smoothboost_terminates smoothboost_rounds smooth_assumption_iff_edge smoothboost_run_margin_partial","the margin guarantee is proved for runs with at most as many rounds as examples (see C17)")
c("C17","partial","smoothboost_output smoothboost_output_all_partial smoothboost_drops_hypotheses smoothboost_drops_hypotheses_witness","false of the code for runs with more rounds than examples (negation with witness); true when rounds <= examples")
c("C18","proved","graphsep_edges_exact graphsep_queries_are_distributions graphsep_progress")
c("C19","proved","naiveAggregation_consistent_iff graphsep_consistent graphsep_run_zero_error")
c("C20","proved","graphsep_terminates graphsep_rate graphsep_calls")
c("C52","proved","used_setting adaboost_rerun adaboostv_rerun madaboost_rerun smoothboost_rerun cerlp_rerun lpboost_rerun erlp_rerun softboost_rerun totalboost_rerun mlp_rerun graphsep_rerun gbm_rerun mlp_history_independent softboost_history_independent erlp_history_independent lpboost_history_independent cerlp_history_independent gbm_run_history_independent graphsep_run_history_independent adaboost_run_history_independent adaboostv_run_history_independent madaboost_run_history_independent smoothboost_run_history_independent","After any number of earlier runs (finished or interrupted, each with a weak learner of its own) a further run gives what a fresh object with the same settings gives, for all twelve boosters; the solver is a function of the program, and MLPBoost's perturbation a function of the draw within the run.")
c("C61","partial","run_returns_iff adaboost_returns_iff_general adaboostv_returns_iff adaboostv_returns_iff_general adaboostv_round_iff adaboostv_equal_edges_need_tolerance madaboost_returns_iff smoothboost_returns_iff graphsep_returns_iff gbm_returns_iff line_search_ok_iff softboost_returns_iff totalboost_returns_iff lpboost_returns_iff erlp_returns_iff cerlp_returns_iff cerlp_returns_iff_any mlp_returns_iff mlp_returns_iff_any adaboost_returns_iff lpboost_returns_always mlp_returns mlp_nu_eq_m_panics softboost_returns softboost_full_cap_panics lpboost_returns erlp_returns erlp_first_round_stop_panics adaboost_postprocess_ok_iff adaboost_run_zero_error adaboostv_run_margin adaboostv_bad_target_not_finite madaboost_boost_never_panics smoothboost_default_panics smoothboost_preprocess_ok_iff gbm_l2_panics mlp_blended_can_panic","False in general; the exact condition under which run returns is proved for all twelve boosters, CERLPBoost with all four Frank-Wolfe strategies.  AdaBoostV for any tolerance; MLPBoost with the blended pairwise strategy for weak learners that never repeat an answer.  With a repeated answer it can panic (proved: two examples, answers A, B, A; the step loses weight, C32, and the assertion on the weights fails). The conic boosters assume a correct solver.")
c("C62","proved","adaboostv_vote_margin adaboostv_output adaboostv_margin adaboostv_margin_at_limit adaboostv_run_margin adaboostv_run_margin_at_limit")
c("C63","proved","madaboost_terminates madaboost_boost_never_panics madaboost_vote_weights")
c("C22","partial","gbm_output gbm_output_partial gbm_output_not_accumulated gbm_overshoots","false of the code: the output is normalised and negative coefficients are dropped (negation with witness); what it does return is proved exactly")
c("C23","proved","weightedMedian_optimal l1_bestCoefficient_optimal")
c("C24","partial","l2_bestCoefficient_residual l2_bestCoefficient_optimal_partial l2_bestCoefficient_not_optimal","false of the code: it returns sum(y)/sum(p), which is optimal only in special cases (negation with witness)")
c("C64","partial","loss_eval_spec l2_gradient_is_derivative l1_gradient_sign_reversed","true for L2; for L1 the gradient has the wrong sign everywhere the loss is differentiable (proved)")
c("C65","proved","gbm_accumulates gbm_terminates gbm_tolerance_ignored")
c("C30","proved","nextIterate_simplex classic_step shortStepSize_optimal","Simplex preservation for classic, short step and line search; the two step sizes are characterised (2/(t+1); optimum of the quadratic bound).")
c("C31","partial","lineSearch_ignores_better_hypothesis lineSearch_jumps_to_worse_hypothesis lineSearch_simplex_partial","The full statement is FALSE of the code: the bisection moves in the wrong direction. Proved: the two failing directions for all inputs, and that the result stays in the simplex.")
c("C32","partial","blendedPairwise_simplex_partial blendedPairwise_loses_mass","FALSE of the code in general (the weight of the chosen hypothesis is overwritten): counterexample proved for every eta>0. Proved for a fresh hypothesis.")
c("C33","proved","cerlp_weights_simplex cerlp_round cerlp_round_any cerlp_terminates cerlp_soft_margin cerlp_returns cerlp_nu_eq_m_panics","Classic and short-step strategies; cerlp_round_any covers all four (no panic, capped distributions, stopping rule); includes the soft margin guarantee rho - tolerance of the returned hypothesis.")
c("C25","partial","lpboost_dual_partial lpboost_cap_not_respected lpboost_program_meaning lpboost_program_wellFormed lpboost_solution_hard_margin lpboost_solver_answers","FALSE of the code: the slack coefficient is nu instead of 1/nu, so the cap is not enforced (negation with witness); what the program does solve (the hard-margin pair) is proved exactly.")
c("C26","proved","lpboost_queries lpboost_upper_estimate lpboost_certificate lpboost_margin lpboost_near_optimal lpboost_terminates lpboost_returns lpboost_terminates_always lpboost_returns_always exists_correct_solver","Relative to a solver returning an optimal primal-dual pair whenever one exists; such pairs are proved to exist.")
c("C28","proved","erlp_programs erlp_solver_answers erlp_queries_capped erlp_no_panic erlp_returns","Relative to a solver that returns an optimal primal-dual pair whenever one exists; the pairs are proved to exist and the inner loop is proved to end.")
c("C29","proved","erlp_estimates erlp_stopping erlp_terminates erlp_first_round_stop_panics erlp_preprocess_iff","For every solver.")
c("C27","partial","softboost_queries_partial softboost_programs softboost_target softboost_terminates softboost_cap_not_respected totalboost_is_softboost softboost_preprocess_iff","the cap 1/nu is not in the program (proved with a witness): the program is the documented one for nu = 1; everything else is proved")
c("C66","proved","softboost_output softboost_output_optimal totalboost_is_softboost","")
c("C67","partial","softboost_stuck softboost_stuck_run softboost_guarantee_fails","false of this code, proved: the edge constraint does not subtract the tolerance, so a deterministic weak learner is asked with the uniform distribution in every round")
c("C34","proved","mlp_adopts_better mlp_no_duplicates mlp_weights_simplex mlp_round_any","The comparison and the absence of duplicates hold for any solver, perturbation and strategy; equal lengths need a correct solver and any strategy but blended pairwise.")
c("C68","partial","mlp_cap_not_respected mlp_adopts_better","FALSE of the code for every nu > 1 (the cap row has the coefficient 1/nu on both sides): proved; the program is the one with cap 1.")
c("C69","proved","mlp_round mlp_terminates mlp_soft_margin mlp_returns mlp_nu_eq_m_panics","")
c("C43","proved","csv_header_keeps_cells csv_noheader_keeps_cells csv_short_line_shifts csv_long_line_panics","with and without header; beyond the property: non-rectangular files")
c("C44","proved","sparse_reads_back sparse_dense_index exists_dense svmlight_keeps_values","files in which no line repeats a feature index")
c("C45","partial","mean_same variance_same mean_and_variance_same distinct_same_partial label_variance_excess_partial sparse_label_mean_zero label_mean_differs label_variance_differs distinct_differs","true for the overall mean and variance; false of the code for the per-label statistics and for the distinct count with explicit zeros (witnesses), exact excess proved")
c("C46","partial","unique_target_spec valid_binary_iff_partial valid_binary_accepts_three_labels","unique_target proved; the label check saturates at the i32 range, so it accepts three labels beyond it (witness); exact when the integer labels fit i32")
c("C47","proved","rename_panics_iff rename_spec")
c("C48","partial","cv_start cv_fold_partial cv_iteration_partial cv_fold_panics_iff cv_panics_iff cv_default_panics_iff cv_sparse_test_reads_zero cv_sparse_values_lost","proved for samples with dense columns and sizes whose folds start inside the sample; false of the code otherwise: exact panic condition (default settings: n in 1,2,3,6,7,11) and loss of sparse values (proved, with witness)")
c("C35","proved","tree_depth","")
c("C36","proved","tree_confidence_range tree_edge_nonneg","")
c("C37","proved","leaf_owns_rows","")
c("C38","proved","best_split_optimal tree_splits_optimal","for one search and for every test of every trained tree")
c("C39","proved","cut_tiles value_in_one_bin pack_counts_once","cutting panics exactly when at least two bins narrower than 1e-9 are asked for")
c("C40","proved","pruning_identity leaf_counter","stronger: pruning never changes a trained tree at all")
c("C57","proved","dot_ids_contiguous dot_ids_distinct dot_lines dot_no_repeats dot_next","decision and regression trees: both node types have the same shape and the same export")
c("C70","proved","edge_tree_weak_learner","")
c("C71","proved","tree_training_succeeds default_tree_trains","in exact arithmetic; f64 is C94")
c("C72","proved","build_ok build_panics new_builder_bins","")
c("C41","proved","leaf_value_is_minimiser reg_leaf_optimal","the minimiser is unique; leaves of the trained tree, all losses with non-negative second derivatives and H + lambda > 0")
c("C42","partial","reg_tree_depth reg_splits_best_partial reg_fit_no_worse_partial reg_l1_split_worse","depth proved for all losses (in fact at most d-1 tests); best gain and improvement proved for losses with positive second derivatives (squared loss); FALSE of the code for the absolute loss, whose cancelling bins are dropped (witness)")
c("C73","proved","reg_l2_reduces_error","")
c("C74","proved","reg_training_succeeds reg_training_succeeds_losses reg_l1_needs_lambda reg_build_ok reg_default_trains reg_build_needs_loss reg_setters","")
c("C75","partial","l1_tree_wrong_direction reg_zero_gradient_leaf reg_zero_gradient_example gbm_l2_tree_centred_panics","FALSE of the code, proved: with the absolute loss the tree moves away from the targets for every such sample; a zero gradient sum gives the constant zero, and boosting then panics")
c("C51","partial","log_lines log_returns log_same_result_partial log_interval_irrelevant adaboost_log_same adaboost_log_panics log_changes_result","one line per boost call proved in full; same result proved whenever the intermediate evaluations do not panic (discharged for AdaBoost); FALSE in full: evaluating the intermediate hypothesis can panic, witness AdaBoost whose first edge is not positive")
c("C60","proved","builder_complete configure_spec log_interval_zero log_printed time_format_floor","")
c("C56","proved","bad_produce_max_edge bad_new_spec bad_new_ok bad_margins bad_confidence_range bad_builder dummy_sample dummy_binary","")
c("C76","proved","lpboost_worst_case lpboost_worst_case_ends","")
c("C54","partial","nn_softmax nn_softmax_empty nn_pointwise_activations nn_activation_derivative_partial nn_sigmoid_derivative_wrong nn_eval_is_composition nn_newLayers_shaped nn_binary_confidence","evaluation proved in full; derivatives proved for softmax (diagonal), ReLU off the kink and the identity; FALSE for the sigmoid at every point (missing square), proved")
c("C55","partial","nn_vectorize_encodes nn_binary_roundtrip_partial nn_multiclass_roundtrip nn_discretize_argmax nn_label_out_of_range nn_scalar_roundtrip_false nn_multiclass_confidence_nonneg","multi-class labels and binary labels with two outputs round-trip; FALSE with a single output (label +1 is decoded as -1), proved; the inherited predict is constantly +1 for multi-class networks")
c("C77","partial","nn_train_is_gradient_step_partial nn_train_descends_partial nn_train_ok nn_train_empty_panics nn_hidden_sigmoid_not_gradient nn_hidden_softmax_not_gradient","proved for any depth with identity/ReLU (off the kink) hidden layers and identity/softmax/sigmoid output; FALSE of hidden sigmoid and softmax layers, proved: the trained bias is not the old one minus rate times the derivative, for every rate (the code's sigmoid derivative lacks a square, its softmax derivative the off-diagonal terms)")
c("C78","proved","nn_produce_ok nn_builder nn_minibatch nn_default_minibatch nn_eval_is_composition nn_no_layer_panics","")
c("C53","partial","nb_maximises nb_one_column_partial nb_equal_variances_partial nb_answers_with_label nb_wrong_two_columns nb_constant_column nb_weightless_label","proved for one dense column (and for any number of columns when the products of the variances agree); the exact quantity maximised is proved for any number of dense columns with positive variances; FALSE in general, proved: two columns give the wrong label on a training row, a constant column or a weightless largest label makes the answer constant (NaN); sparse columns are fitted wrongly (see label_variance_excess_partial)")
c("C79","partial","erlp_soft_margin_partial erlp_last_solution erlp_soft_margin_false","FALSE of the code, proved: with default parameters, 20 examples and a weak learner with edge >= 0.09 on every distribution the returned vote is wrong on 18 examples with margin <= -0.8 (an example whose weight becomes 0 is frozen by the curvature 1/(EPS*eta), and the loop stops because the objective no longer drops). Proved: margin >= rho - tolerance - r^2/((1-r) eta) for a run stopping before the limit, r the relative change in the last accepted inner step")
c("C80","proved","tree_weak_learner","")
c("C81","proved","tree_answers adaboost_trees adaboostv_trees lpboost_trees cerlp_trees mlp_trees default_trees_ok exReal_ok exReal_margin","")
c("C82","proved","adaboost_returns_iff adaboost_deterministic_returns_iff adaboost_trees_return_iff adaboost_stumps_return_iff adaboost_xor_panics","")
c("C83","proved","adaboost_configured adaboost_chains_agree adaboost_configured_zero_error adaboost_default_zero_error adaboostv_configured adaboostv_chains_agree adaboostv_configured_margin madaboost_configured madaboost_chains_agree smoothboost_configured smoothboost_chains_agree lpboost_configured lpboost_configured_margin lpboost_chains_agree erlp_configured erlp_configured_returns erlp_chains_agree softboost_configured softboost_configured_returns softboost_chains_agree cerlp_configured cerlp_configured_margin cerlp_chains_agree mlp_configured mlp_configured_margin mlp_chains_agree","")
c("C84","partial","adaboost_separable_claim_false adaboost_separable_zero_error","FALSE of the code as documented, proved for every tolerance: a separable 4-example sample and a largest-edge learner with which AdaBoost returns a hypothesis wrong on 3 examples (the limit ln(m)/tolerance^2 does not depend on the margin). Proved when the separating margin is at least twice the tolerance")
c("C85","proved","tree_configured tree_configured_trains reg_configured reg_configured_trains nn_configured nn_configured_produce nn_regression_predict","")
c("C86","proved","push_decompose push_confidence push_prediction push_norm_eq_fromSlices decompose_round_trip","")
c("C87","proved","sample_statistics sample_statistics_panics sample_label_statistics","per-label statistics for samples of dense columns; sparse columns are C45 (wrong in the code, proved there)")
c("C88","proved","adaboost_schedule_independent adaboostv_schedule_independent madaboost_schedule_independent smoothboost_schedule_independent gbm_schedule_independent inner_product_schedule_independent parallel_functions_schedule_independent","for exact addition, as the statement says; parallel collect of columns while reading a csv file or a data frame is an order-preserving map")
c("C89","partial","decision_tree_schedule_independent regression_tree_schedule_independent multiclass_tree_depends_on_hash_order","proved for regression trees and for decision trees with labels +1/-1; FALSE with three or more labels (the label of a leaf is the last maximum in the traversal order of a hash map), witness proved")
c("C90","partial","adaboost_float_schedule_dependent edge_depends_on_schedule float_edge_accurate_partial","FALSE of the code, proved: on ten examples with default parameters and a learner returning a perfect hypothesis, one division of the first sum ends the run after one call of the learner (edge 1) and another goes on (edge 1 - 2^-53). Proved: every schedule computes the edge to within 1e-9")
c("C91","proved","adaboost_float_weights_sound fromSlices_error exUnsure_fair exists_float_run","the conditions on the learner are about the rounds that a run reaches; the limit of the loop is computed exactly in the model; the two zeros are identified")
c("C92","proved","adaboost_float_training_error adaboost_float_separates exUnsure_fair","")
c("C93","partial","tree_build_hangs tree_build_panics_range tree_build_panics_constant cut_f64_partial tree_build_f64_partial","FALSE of the code, proved in binary64: two neighbouring values (2^53 and 2^53+2) make the builder loop for ever, six values from 0 to 2^24 make it panic, and so does a constant column of 2^53; proved to succeed, whatever the rounding, for n bins when the values are at most M with (n+8)M <= 2^21 and the bins are 3e-9 wide (or n = 1)")
c("C94","partial","tree_f64_trains_partial tree_f64_gini_panics","FALSE of the code for the criterion Gini, proved in binary64: three rows with weights 1/2, 1/2, 2^-60 make training panic in every execution (the weight of a label is rounded to that of one row, the label is removed too early and then looked up). Proved for entropy, edge and twoing on up to 10^5 rows and bins, with the columns of C93")
c("C95","proved","adaboost_f64_trees adaboost_f64_trees_error exists_floatTreeLearner sameBuilder_data sameEdges","composition of C91/C92 with C93/C94; the condition on the edges is about the rounds that a run reaches")
c("C96","partial","project_f64_sound project_f64_panic project_f64_returns_partial softmax_f64_returns project_f64_can_panic entropyProjection_unique","that it never panics is FALSE of the code, proved: nine margins -7/8..1/8 with eta = 800 and nu = 8 make the weight of the last capped example (-(8.ln())).exp() > 1/8, and the assertion fails. Proved: every returned vector is the exact projection up to 3e-5 (any nu); it returns when no example is within 1% of the cap and the uncapped mass is at least 1/1000; without a cap (softmax, nu = 1) it always returns")
c("C97","proved","csv_file_learned svmlight_file_learned boolean_sample_learned","in exact arithmetic; composition of C43/C44, C72, C80, C81 and C03 with the conditions stated on the file")
c("C98","partial","tree_answer_by_name tree_same_answer tree_answers_elsewhere decision_tree_tests_known regression_tree_tests_known decision_tree_answers_elsewhere regression_tree_answers_elsewhere vote_same_answer adaboost_trees_by_name csv_prediction_by_name nb_same_answer_partial nn_same_answer_partial nb_answers_by_position nn_answers_by_position","proved in full for trees, votes of trees and AdaBoost on trees; FALSE of the code for naive Bayes and neural networks, proved: they read the columns by position, so the same row listed as (a, b) and (b, a) gets different answers; for them proved when the samples list the same columns in the same order")
c("C99","proved","frame_read_iff frame_keeps_cells frame_target_length frame_like_csv","polars is modelled by names, types, values and nulls of its series")
c("C100","proved","decision_tree_prints regression_tree_prints info_bins","the text of a number is a parameter")
c("C101","proved","adaboost_provenance adaboostv_provenance madaboost_provenance smoothboost_provenance graphsep_provenance gbm_provenance lpboost_provenance erlpboost_provenance softboost_provenance totalboost_provenance cerlp_provenance mlp_provenance fromRun_iff_index trees_by_name vote_trees_answer","")
c("C102","proved","log_transparent log_returns_exactly adaboost_log_returns_iff madaboost_log_returns_iff adaboostv_log_transparent smoothboost_log_transparent graphsep_log_transparent lpboost_log_transparent erlpboost_log_transparent softboost_log_transparent totalboost_log_transparent cerlp_log_transparent mlp_log_transparent","C51 for each booster; the trait Research is not implemented for GBM")
c("C103","proved","tree_f64_answers_means tree_f64_edge adaboost_f64_edge_trees","Conditions as in C93-C95: at most 1e5 rows and bins, columns of moderate size; boundaries of the bins, not arbitrary thresholds (the code only tests those). The upper bound 0.998 on the edges of the trees in the boosting theorem is a hypothesis, as in C95.")
c("C104","proved","tree_calibrated tree_calibrated_value treeLearner_calibrated treeLearner_error","Exact arithmetic. The last two are stated for distributions under which training succeeds (TreesOk, C81/C96).")
c("C105","proved","graphsep_trees smoothboost_trees madaboost_trees erlp_trees","Exact arithmetic. For MadaBoost and ERLPBoost no bound on the error is claimed here (C09, C65 are about that).")
c("C106","proved","file_adaboost file_adaboostv file_graphsep file_lpboost file_cerlp file_mlp","Exact arithmetic; a correct solver is assumed for LPBoost and MLPBoost; AdaBoostV is given at least 2 ln m / tolerance^2 rounds by force_quit_at. CERLPBoost and MLPBoost with the classic or short step rule.")
c("C107","partial","softboost_trees_single totalboost_trees_single softboost_trees_wrong","FALSE (a bug of the crate): for every sample, criterion, depth, tolerance and nu, both ask for the tree of the uniform distribution in every round and return just that tree (softboost_trees_single, totalboost_trees_single); on a four-row sample that three stumps separate with margin 1/3, the result is wrong on a row (softboost_trees_wrong), where AdaBoost gets all rows right (C81). What remains true is that they return.")
c("C108","proved","setTarget_spec setTarget_missing setTarget_twice","The values are those that Feature::index returns (C43).")
c("C109","proved","graphsep_f64 graphsep_f64_trees tree_f64_signs","The f64 run is simulated by the exact model run with the weights rounded before the learner sees them; the trees' side is C103 plus a lemma on the signs of the leaves.")
c("C110","proved","file_graphsep_f64 boolSample_margin boolSample_float","Composition of C97/C106 (reading), C90/C93 (binning and training in f64) and C109 (the booster in f64).")
c("C111","proved","tree_f64_gini_trains tree_f64_gini adaboost_f64_gini_trees graphsep_f64_gini_trees","Complements the finding of C94 (tree_f64_gini_panics): it says for which weights the panic cannot occur. In (d) the weights of GraphSepBoost are fractions with a denominator of at most 900² while a label is wrong, so they are never tiny.")
c("C112","proved","adaboostv_f64_margin adaboostv_f64_limit adaboostv_f64_separates","Complements the exact-arithmetic margin theorem for AdaBoostV. The edges must stay at or below 0.95: near 1 the votes are unbounded.")
c("C113","proved","adaboostv_f64_edge_trees adaboost_f64_margin_trees tree_f64_depth","The upper bound on the edges is about the run; it holds for instance when the trees are too small to fit the sample. The example is one round on three rows.")
c("C114","proved","correct_accurate lpboost_accurate_queries lpboost_accurate_certificate lpboost_accurate_margin lpboost_accurate_near_optimal lpboost_accurate_returns lpboost_accurate_loops","ε bounds absolute residuals of the program as LPBoost passes it on; rounding inside LPBoost itself is not part of this claim.")
c("C115","proved","mlp_any_solver_margin mlp_any_solver_outcome mlpboost_accurate_panics","With exact solvers the panic does not occur and the bound is ρ − tolerance (C69).")
c("C116","proved","softboost_accurate_rounds softboost_accurate_output softboost_accurate_optimal softboost_accurate_returns totalboost_is_softboost","ε bounds absolute residuals of the programs as SoftBoost passes them on; rounding inside SoftBoost itself is not part of this claim. With an inexact solver an early stop no longer proves that the target cannot be met; nothing is claimed about that.")
c("C117","proved","erlp_accurate_queries erlp_accurate_no_panic erlp_accurate_returns","ε bounds absolute residuals of the programs as ERLPBoost passes them on; rounding inside ERLPBoost itself is not part of this claim. No margin is claimed: C79 shows the documented one fails even with an exact solver.")
c("C118","proved","smoothboost_f64_returns smoothboost_f64_rounds smoothboost_f64_large_sample","After more than m rounds the code drops hypotheses (C17), so nothing is said about the mistakes then. The factor 1/√(1-γ) comes from the code's counters starting at 1 (C61).")
c("C119","proved","smoothboost_f64_trees_return smoothboost_f64_edge_trees","The sample's property is stated about the data alone (a vote over tests with margin θ), not about the learner.")
c("C120","proved","madaboost_f64_never_panics madaboost_f64_returns madaboost_f64_confidence madaboost_f64_can_panic madaboost_f64_trees_never_panics madaboost_f64_edge_trees","The bound 3000 keeps the scores where the logarithmic sum is accurate. The learner's conditions need to hold only for weights as described.")
c("C121","proved","gbm_f64_tree_answers regression_tree_f64_trains regression_tree_f64_leaf_values regression_tree_f64_reduces_error regression_tree_f64_l1_leaf_values regression_tree_f64_l1_panics","The conditions on the columns are those of C93 (outside them cutting a column may itself panic or not end). The two zeros are identified, so the sign of a zero difference is left open; the statement on answers for the absolute loss excludes it.")
c("C122","proved","gbm_l2_sum gbm_l2_run_sums gbm_l2_error_grows gbm_l2_all_rounds gbm_l2_centred_panics gbm_l2_trees_panic","What the code does is proved; what a user expects (the error falls with the rounds) is false. Exact arithmetic: in f64 the second tree's gradients sum to a rounding error instead of zero unless the sums happen to be exact, and then the coefficient is that error's reciprocal in size rather than a panic. A tree learner that panics is replaced by the constant zero, which makes the run panic as well.")
c("C123","proved","gbm_f64_one_result line_search_f64_l2 line_search_f64_l1 gbm_f64_centred_panics gbm_f64_trees_panic gbm_f64_overshoots","f64 counterpart of C122. Trees with several leaves in f64: the second round's sum is a rounding error, not exactly zero, so nothing is claimed there. The two zeros are identified.")
c("C124","proved","line_search_f64_l1_near_best gbm_f64_accumulates","f64 counterpart of C23 and C65.")
c("C125","proved","cerlp_f64_outcome cerlp_f64_returns cerlp_f64_panics cerlp_f64_margin cerlp_f64_no_mistake","f64 counterpart of C33. That the run stops before the limit is a hypothesis of the margin statement (in exact arithmetic C33 proves the bound at the limit too); nu > 1 is C126; the two line searches are covered only by the exact model.")
c("C126","proved","cerlp_f64_capped cerlp_f64_soft_margin cerlp_f64_confidence cerlp_f64_few_mistakes cerlp_f64_configured cerlp_f64_nu_panics cerlp_f64_invalid_labels","f64 counterpart of C34. Conditional on the run returning: for nu > 1 the projection can panic on rounding errors (C96, project_f64_can_panic); for nu = 1 C125 shows that it does not. That the run stops before the limit is a hypothesis of the margin statements.")
c("C127","proved","cerlp_f64_trees cerlp_f64_edge_trees cerlp_f64_capped_trees tree_eq_of_beq","C125 and C126 composed with C94 and C103. That the run stops before the limit is a hypothesis of the margin statements; the capped statement is conditional on the run returning.")
c("C128","proved","file_cerlp_f64 file_smoothboost_f64 file_madaboost_f64","The counterpart of C110 (GraphSepBoost) for the other boosters in f64: C110's reading of a file composed with C127, C119 and C120. That CERLPBoost stops before the limit is a hypothesis of its last conclusion.")
c("C129","proved","softMargin_f64 hardMargin_f64 softMargin_f64_nan_panics softMargin_f64_nu_panics expLoss_f64 cerlp_f64_objective","The f64 counterpart of C49 and C50; the exact soft margin comes from C49. As C50 shows, the exponential loss is that of the predictions, not of the confidences.")
c("C130","proved","mlp_f64_capped mlp_f64_soft_margin mlp_f64_few_mistakes mlp_f64_nu_panics mlp_f64_configured mlp_f64_invalid_labels","The f64 counterpart of the MLPBoost properties in exact arithmetic. exMlpF_run shows that the claims are not vacuous: with a solver that answers only NaN a run on two examples returns a vote.")
c("C131","proved","par_used_setting adaboost_f64_rerun adaboostv_f64_rerun madaboost_f64_rerun smoothboost_f64_rerun graphsep_f64_rerun cerlp_f64_rerun mlp_f64_rerun gbm_f64_rerun","The f64 counterpart of C52. MLPBoost: the LP solver is a function of its input, so the random perturbations are taken to be the same in both runs. A run that panics inside boost is not continued.")
c("C132","proved","mlp_f64_trees file_mlp_f64 mlp_f64_objective","That a run on trees returns is not claimed: the check on the weights may panic when the LP solver's answer wins the comparison without being a distribution.")
json.dump({"claims":C},open("/verif/MANIFEST.json","w"),indent=1)
