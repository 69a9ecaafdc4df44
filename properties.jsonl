{"id": "C01", "title": "AdaBoost always hands the weak learner a probability distribution", "statement": "In every round of AdaBoost the weight vector passed to the weak learner has one strictly positive entry per training example and its entries sum to 1.", "quantifier": "every training sample, every weak learner (as an arbitrary function of the weights and of the past), every round", "why_tests_cant": "A test runs a handful of rounds on a handful of weak learners; the claim is an invariant over every history of hypotheses.", "anchors": ["src/booster/adaboost/adaboost_algorithm.rs:AdaBoost::update_params", "src/booster/adaboost/adaboost_algorithm.rs:AdaBoost::preprocess"]}
{"id": "C02", "title": "AdaBoost weights are the exponential weights of the past votes", "statement": "The weight of example i in round t+1 is proportional to exp(-y_i * sum over past rounds of (vote weight)*(hypothesis output on x_i)); the renormalisation done each round never changes these proportions.", "quantifier": "every sample, every sequence of hypotheses with edges strictly inside (-1,1), every round", "why_tests_cant": "It is a closed form for an unbounded history; tests compare finitely many rounds.", "anchors": ["src/booster/adaboost/adaboost_algorithm.rs:AdaBoost::update_params"]}
{"id": "C03", "title": "AdaBoost makes the last hypothesis useless", "statement": "After a round with a {-1,+1}-valued hypothesis whose edge lies strictly inside (-1,1), that hypothesis has edge exactly 0 under the new weights, so the weak learner cannot return it again with a positive edge.", "quantifier": "every sample with labels in {-1,+1}, every {-1,+1}-valued hypothesis, every current distribution", "why_tests_cant": "It is an identity over all real distributions.", "anchors": ["src/booster/adaboost/adaboost_algorithm.rs:AdaBoost::update_params"]}
{"id": "C04", "title": "AdaBoost stops", "statement": "AdaBoost calls the weak learner at most max_loop times, where max_loop is floor(ln(m)/tolerance^2) or the user's force_quit_at when set, whatever the weak learner returns.", "quantifier": "every sample, every weak learner, every tolerance > 0 and every force_quit_at", "why_tests_cant": "Termination for an arbitrary weak learner is a statement about all executions.", "anchors": ["src/booster/adaboost/adaboost_algorithm.rs:AdaBoost::boost", "src/booster/adaboost/adaboost_algorithm.rs:AdaBoost::max_loop", "src/booster/core.rs:Booster::run"]}
{"id": "C05", "title": "AdaBoost training error bound", "statement": "If every round returned a {-1,+1}-valued hypothesis of edge g_t in (0,1), the fraction of training examples misclassified by the returned combined hypothesis is at most the product of sqrt(1-g_t^2); hence with every g_t >= g the fraction is below 1/m -- the sample is classified perfectly -- after more than 2 ln(m)/g^2 rounds.", "quantifier": "every sample with +-1 labels, every sequence of hypotheses, every number of rounds", "why_tests_cant": "The theorem the crate is used for; it quantifies over all weak learners and all round counts.", "anchors": ["src/booster/adaboost/adaboost_algorithm.rs:AdaBoost", "src/hypothesis/weighted_majority.rs:WeightedMajority::confidence"]}
{"id": "C06", "title": "AdaBoost shortcut on a perfect hypothesis", "statement": "If the weak learner returns a hypothesis with edge >= 1 AdaBoost stops in that round and returns a combined hypothesis equivalent to that single hypothesis, discarding the earlier ones; a hypothesis with edge <= -1 (perfectly wrong) should likewise be usable with its sign flipped.", "quantifier": "every state reached, every hypothesis with |edge| >= 1", "why_tests_cant": "Requires reasoning about every preceding history.", "anchors": ["src/booster/adaboost/adaboost_algorithm.rs:AdaBoost::boost", "src/hypothesis/weighted_majority.rs:WeightedMajority::from_slices"]}
{"id": "C07", "title": "AdaBoostV keeps a distribution and stops", "statement": "AdaBoostV hands the weak learner a strictly positive probability vector in every round, calls it at most floor(2 ln(m)/tolerance^2) (or force_quit_at) times, and its internal margin target never increases from round to round.", "quantifier": "every sample, every weak learner, every tolerance > 0", "why_tests_cant": "Invariant over unbounded histories.", "anchors": ["src/booster/adaboostv/adaboostv_algorithm.rs:AdaBoostV"]}
{"id": "C08", "title": "Vote weights are normalised and non-negative", "statement": "A combined hypothesis built from weights and hypotheses keeps exactly the pairs with positive weight, in order, with weights divided by their sum: the weights of the result are positive and sum to 1; construction panics exactly when no weight is positive.", "quantifier": "all weight/hypothesis slices of any lengths", "why_tests_cant": "All slices; the panic condition is an iff.", "anchors": ["src/hypothesis/weighted_majority.rs:WeightedMajority::from_slices", "src/hypothesis/weighted_majority.rs:WeightedMajority::normalize", "src/common/utils.rs:normalize"]}
{"id": "C09", "title": "Combined confidence is a convex combination", "statement": "The confidence of a combined hypothesis on any row lies between the smallest and the largest confidence of its members (hence in [-1,1] when theirs do), predict is +1 exactly when the confidence is >= 0 and -1 otherwise, and the batch versions agree row by row with the single-row versions.", "quantifier": "all combined hypotheses, samples and rows", "why_tests_cant": "All member hypotheses and samples.", "anchors": ["src/hypothesis/weighted_majority.rs:WeightedMajority::confidence", "src/hypothesis/hypothesis_traits.rs:Classifier"]}
{"id": "C10", "title": "Scaling votes does not change predictions", "statement": "Multiplying all vote weights by the same positive constant, and normalising them or not, never changes any prediction of the combined hypothesis.", "quantifier": "all weights, hypotheses, rows and positive constants", "why_tests_cant": "Universal over reals.", "anchors": ["src/hypothesis/weighted_majority.rs:WeightedMajority"]}
{"id": "C11", "title": "Projection returns a capped distribution", "statement": "Projecting any real log-weight vector of length n onto the nu-capped simplex (1 <= nu <= n) always finds a stopping point, never takes the logarithm of a non-positive number, and returns a vector whose entries are in [0,1/nu] and sum to 1.", "quantifier": "all log-weight vectors and all nu in [1,n]", "why_tests_cant": "Real-valued universally quantified; sorting order and boundary nu make tests sample only few cases.", "anchors": ["src/common/utils.rs:project_log_distribution_to_capped_simplex", "src/common/checker.rs:check_capped_simplex_condition"]}
{"id": "C12", "title": "Projection is the relative-entropy projection", "statement": "The returned capped distribution minimises the relative entropy to the distribution proportional to exp(log weights) among all distributions with entries at most 1/nu, and preserves the order of the entries.", "quantifier": "all log-weight vectors, all nu, all competitor distributions", "why_tests_cant": "Optimality is against every competitor.", "anchors": ["src/common/utils.rs:project_log_distribution_to_capped_simplex"]}
{"id": "C13", "title": "MadaBoost hands out a bounded distribution", "statement": "In every round MadaBoost hands the weak learner a strictly positive probability vector; the weights are proportional to exp(min(1, score)), so no example ever outweighs one whose score has reached the cap.", "quantifier": "every history", "why_tests_cant": "Invariant over all histories.", "anchors": ["src/booster/madaboost/madaboost_algorithm.rs:MadaBoost"]}
{"id": "C14", "title": "MadaBoost moves weight to mistakes", "statement": "When the weak learner returns a hypothesis with positive edge, MadaBoost does not raise the relative weight of a correctly classified example over that of a misclassified one with the same past.", "quantifier": "every state and hypothesis with positive edge", "why_tests_cant": "All states.", "anchors": ["src/booster/madaboost/madaboost_algorithm.rs:MadaBoost::update_params"]}
{"id": "C15", "title": "SmoothBoost is smooth", "statement": "Every weight vector SmoothBoost passes to the weak learner is a probability vector whose entries are at most 1/(kappa*m).", "quantifier": "every sample size, every kappa and gamma accepted by the precondition check, every weak learner", "why_tests_cant": "Invariant over all histories.", "anchors": ["src/booster/smoothboost/smoothboost_algorithm.rs:SmoothBoost"]}
{"id": "C16", "title": "SmoothBoost stops after finitely many rounds", "statement": "Whatever the weak learner returns, SmoothBoost stops within its iteration limit. If every hypothesis meets the documented weak-learning assumption (edge at least 2*gamma), it stops because its smoothness condition is reached, after fewer than 2/(kappa*gamma^2*sqrt(1-gamma)) calls, and the returned vote has margin above theta on more than a 1-kappa fraction of the sample (up to the output defect of C17).", "quantifier": "every sample, every weak learner meeting the assumption", "why_tests_cant": "It is a potential argument over unbounded histories.", "anchors": ["src/booster/smoothboost/smoothboost_algorithm.rs:SmoothBoost::max_loop", "src/booster/smoothboost/smoothboost_algorithm.rs:SmoothBoost::boost"]}
{"id": "C17", "title": "SmoothBoost outputs all its hypotheses", "statement": "The combined hypothesis returned by SmoothBoost is the uniform vote over all the hypotheses obtained from the weak learner during the run.", "quantifier": "every run, of any number of rounds, on a sample of any size", "why_tests_cant": "Needs runs with more rounds than examples.", "anchors": ["src/booster/smoothboost/smoothboost_algorithm.rs:SmoothBoost::postprocess"]}
{"id": "C18", "title": "GraphSepBoost edge set is exact", "statement": "In every round the pairs GraphSepBoost still counts are exactly the pairs of examples with different labels on which all hypotheses so far agree, and the weight of an example is its number of such pairs divided by the total.", "quantifier": "every sample, every history", "why_tests_cant": "Invariant over all histories.", "anchors": ["src/booster/graph_separation_boosting/graph_separation_algorithm.rs:GraphSepBoost"]}
{"id": "C19", "title": "GraphSepBoost output is consistent with the sample", "statement": "When GraphSepBoost stops because no pair is left, the returned hypothesis classifies every training example correctly (labels +-1).", "quantifier": "every sample with +-1 labels, every weak learner", "why_tests_cant": "All histories.", "anchors": ["src/booster/graph_separation_boosting/graph_separation_algorithm.rs:GraphSepBoost::postprocess", "src/hypothesis/naive_aggregation.rs:NaiveAggregation"]}
{"id": "C20", "title": "GraphSepBoost terminates", "statement": "GraphSepBoost stops for every weak learner, after at most (number of positive/negative pairs)+1 rounds.", "quantifier": "every sample, every weak learner", "why_tests_cant": "Termination over all executions.", "anchors": ["src/booster/graph_separation_boosting/graph_separation_algorithm.rs:GraphSepBoost::boost"]}
{"id": "C21", "title": "NaiveAggregation is a lookup in the training votes", "statement": "An aggregated hypothesis predicts +1 on a row exactly when some training example with a positive label received the same vector of member predictions, and -1 otherwise; positively labelled training rows are always predicted +1.", "quantifier": "all members, samples, rows", "why_tests_cant": "Universal over samples and members.", "anchors": ["src/hypothesis/naive_aggregation.rs:NaiveAggregation::new", "src/hypothesis/naive_aggregation.rs:NaiveAggregation::confidence"]}
{"id": "C22", "title": "GBM returns the additive model it fitted", "statement": "The combined predictor returned by GBM predicts on every training row the value that the boosting loop accumulated for it (the sum of coefficient times tree output).", "quantifier": "every sample, weak learner, loss, round count", "why_tests_cant": "All histories.", "anchors": ["src/booster/gradient_boost/gbm.rs:GBM"]}
{"id": "C23", "title": "L1 line search is optimal", "statement": "For the L1 loss the coefficient chosen for a new predictor minimises the L1 loss of target against coefficient times prediction over all real coefficients.", "quantifier": "all targets, predictions with at least one non-zero entry, all competitor coefficients", "why_tests_cant": "Optimality against every real number.", "anchors": ["src/common/loss_functions.rs:GBMLoss::best_coefficient", "src/common/loss_functions.rs:weighted_median"]}
{"id": "C24", "title": "L2 line search is optimal", "statement": "For the L2 loss the coefficient chosen for a new predictor minimises the squared loss over all real coefficients.", "quantifier": "all targets and predictions", "why_tests_cant": "Optimality against every real number.", "anchors": ["src/common/loss_functions.rs:GBMLoss::best_coefficient"]}
{"id": "C25", "title": "LPBoost solves the soft-margin program with cap 1/nu", "statement": "The linear program LPBoost hands to the solver is the edge-minimisation dual with weights capped by 1/nu: its feasible multipliers are exactly the probability vectors with entries at most 1/nu.", "quantifier": "all samples, all nu in [1,n], all hypotheses pushed so far", "why_tests_cant": "Equality of two optimisation problems for all data.", "anchors": ["src/booster/lpboost/lp_model.rs:LPModel", "src/booster/lpboost/lpboost_algorithm.rs:LPBoost"]}
{"id": "C26", "title": "LPBoost certificate at stopping", "statement": "When LPBoost stops because its optimality gap is at most tolerance, the distribution it ended with certifies that its value is within tolerance of the best edge seen; its upper estimate never increases.", "quantifier": "all weak learners, all solver outputs, all rounds", "why_tests_cant": "All histories of an external solver.", "anchors": ["src/booster/lpboost/lpboost_algorithm.rs:LPBoost::boost"]}
{"id": "C27", "title": "SoftBoost and TotalBoost use the capped simplex", "statement": "The quadratic program SoftBoost hands to the solver constrains the weights to be a probability vector with entries at most 1/nu and all past edges to be at most the current target; TotalBoost is SoftBoost with nu = 1.", "quantifier": "all samples, nu, histories", "why_tests_cant": "Equality of feasible sets for all data.", "anchors": ["src/booster/softboost/qp_model.rs:QPModel", "src/booster/softboost/softboost_algorithm.rs:SoftBoost", "src/booster/totalboost/totalboost_algorithm.rs:TotalBoost"]}
{"id": "C28", "title": "ERLPBoost uses the capped simplex", "statement": "The quadratic program ERLPBoost hands to the solver has as feasible set exactly the pairs (gamma, d) with d a probability vector, entries at most 1/nu, and every past edge at most gamma.", "quantifier": "all samples, nu, histories", "why_tests_cant": "Equality of feasible sets for all data.", "anchors": ["src/booster/erlpboost/qp_model.rs:QPModel"]}
{"id": "C29", "title": "ERLPBoost bookkeeping and stopping", "statement": "ERLPBoost's upper estimate never increases, it stops exactly when the gap is at most tolerance/2 or the iteration limit is reached, and it never calls the weak learner more than max_loop times.", "quantifier": "all weak learners and all solver outputs", "why_tests_cant": "All histories.", "anchors": ["src/booster/erlpboost/erlpboost_algorithm.rs:ERLPBoost"]}
{"id": "C30", "title": "Frank-Wolfe steps stay in the simplex", "statement": "Classic and short-step Frank-Wolfe updates turn a probability vector of hypothesis weights and the index of a hypothesis into a probability vector, in every iteration.", "quantifier": "all weight vectors, iterations, gradients", "why_tests_cant": "Invariant over all histories.", "anchors": ["src/common/frank_wolfe.rs:FrankWolfe"]}
{"id": "C31", "title": "Frank-Wolfe line search finds the best step", "statement": "The line-search variant returns a step whose objective value is within tolerance of the best one on the segment.", "quantifier": "all weight vectors and directions", "why_tests_cant": "Universal over reals.", "anchors": ["src/common/frank_wolfe.rs:line_search"]}
{"id": "C32", "title": "Pairwise Frank-Wolfe moves mass from the worst to the best", "statement": "The blended-pairwise update keeps a probability vector and only moves mass from an away hypothesis to the chosen one.", "quantifier": "all states", "why_tests_cant": "Universal over states.", "anchors": ["src/common/frank_wolfe.rs:FrankWolfe::blended_pairwise"]}
{"id": "C33", "title": "CERLPBoost weights and stopping", "statement": "CERLPBoost's hypothesis weights stay a probability vector under the default strategy, its example weights are a capped distribution in every round, and it stops when the edge gap is at most tolerance/2 or the iteration limit is reached.", "quantifier": "all weak learners, samples, nu in [1,n]", "why_tests_cant": "Invariant over histories.", "anchors": ["src/booster/cerlpboost/cerlpboost_algorithm.rs:CERLPBoost"]}
{"id": "C34", "title": "MLPBoost never does worse than its two candidate weightings", "statement": "In every MLPBoost round the hypothesis weights adopted have an objective value at least that of both the Frank-Wolfe weights and the LP weights, weights and hypotheses have the same length, and hypotheses are stored without duplicates.", "quantifier": "all weak learners and solver outputs", "why_tests_cant": "All histories.", "anchors": ["src/booster/mlpboost/mlpboost_algorithm.rs:MLPBoost"]}
{"id": "C35", "title": "Decision trees respect the depth limit", "statement": "A decision tree trained with max_depth d sends every row through at most d tests.", "quantifier": "all samples, distributions, criteria, depths", "why_tests_cant": "Structural induction over all trees.", "anchors": ["src/weak_learner/decision_tree/decision_tree_algorithm.rs:DecisionTree::full_tree", "src/weak_learner/decision_tree/builder.rs:DecisionTreeBuilder"]}
{"id": "C36", "title": "Decision-tree output is bounded and has non-negative edge", "statement": "For +-1 labels the confidence of a trained decision tree is in [-1,1] on every row and its edge under the training distribution is >= 0 -- a tree is never worse than guessing.", "quantifier": "all samples with +-1 labels, all distributions, all criteria and depths", "why_tests_cant": "All samples and trees.", "anchors": ["src/weak_learner/decision_tree/train_node.rs:TrainNode", "src/weak_learner/decision_tree/decision_tree_algorithm.rs:confidence_and_loss"]}
{"id": "C37", "title": "Decision-tree leaves own the training rows they were fitted on", "statement": "Each training row is routed at prediction time to the very leaf it was counted in during training: going left exactly when its feature value is below the threshold.", "quantifier": "all samples and trees", "why_tests_cant": "All samples, tree shapes.", "anchors": ["src/weak_learner/decision_tree/decision_tree_algorithm.rs:DecisionTree::full_tree", "src/weak_learner/common/split_rule.rs:Splitter", "src/weak_learner/decision_tree/decision_tree_classifier.rs:DecisionTreeClassifier"]}
{"id": "C38", "title": "Decision-tree split search is optimal over its candidate thresholds", "statement": "Among all bin boundaries of a feature the reported threshold attains the optimum of the chosen criterion (max |edge|, min entropy, min gini, max twoing), computed from the prefix weights.", "quantifier": "all bin tables and all four criteria", "why_tests_cant": "All tables of any length.", "anchors": ["src/weak_learner/decision_tree/criterion.rs:Criterion::best_split"]}
{"id": "C39", "title": "Histogram bins partition the feature's range", "statement": "Bins built from a feature are contiguous, cover the whole real range, and each value falls in exactly one bin, so every example's weight is counted once; total packed weight equals 1.", "quantifier": "all features, n_bins, distributions", "why_tests_cant": "Universal over reals.", "anchors": ["src/weak_learner/decision_tree/bin.rs:Bins::cut", "src/weak_learner/decision_tree/bin.rs:Bins::pack"]}
{"id": "C40", "title": "Pruning does not change a tree's function", "statement": "The redundant-node removal run after training does not change the prediction of the tree on any training row.", "quantifier": "all trees", "why_tests_cant": "Structural.", "anchors": ["src/weak_learner/decision_tree/train_node.rs:TrainNode::remove_redundant_nodes"]}
{"id": "C41", "title": "Regression-tree leaves are optimal", "statement": "The value of a regression-tree leaf is the minimiser of the second-order objective G*v + (H+lambda)*v^2/2 of its examples, and the reported leaf loss is the minimum value.", "quantifier": "all gradients, positive hessians, lambda >= 0", "why_tests_cant": "Optimality against all reals.", "anchors": ["src/weak_learner/regression_tree/train_node.rs:TrainNode", "src/weak_learner/regression_tree/regression_tree_algorithm.rs:RegressionTree"]}
{"id": "C42", "title": "Regression trees respect the depth limit and split by best gain", "statement": "A regression tree trained with max_depth d sends every row through at most d tests, and each split attains the maximum gain among candidate thresholds; fitting never increases the second-order objective compared with a single leaf.", "quantifier": "all samples, losses, depths", "why_tests_cant": "Structural induction.", "anchors": ["src/weak_learner/regression_tree/regression_tree_algorithm.rs:RegressionTree"]}
{"id": "C43", "title": "CSV reading keeps every cell", "statement": "Reading a rectangular numeric CSV with a header and a target column yields a sample whose r-th row is the r-th data line with the target cell removed, in column order, whose target vector is the target column, and whose name lookup returns the column of that name.", "quantifier": "all tables of any size, any target column, distinct names", "why_tests_cant": "All table sizes and positions.", "anchors": ["src/sample/sample_struct.rs:Sample::from_csv", "src/sample/sample_struct.rs:Sample::set_target", "src/sample/sample_struct.rs:Sample::at"]}
{"id": "C44", "title": "Sparse features read back what was stored", "statement": "A sparse feature returns the stored value at stored rows and 0 elsewhere; svmlight input yields for every row and feature the value written in that row, 0 when absent.", "quantifier": "all sparse features with increasing row indices, all files", "why_tests_cant": "All sizes; binary search.", "anchors": ["src/sample/feature_struct.rs:SparseFeature", "src/sample/sample_struct.rs:Sample::from_svmlight"]}
{"id": "C45", "title": "Dense and sparse representations have the same statistics", "statement": "Weighted mean, weighted variance (overall and per label), and distinct-value count of a sparse feature equal those of the dense feature with the same values.", "quantifier": "all features, labels, weights", "why_tests_cant": "Universal over reals and index sets.", "anchors": ["src/sample/feature_struct.rs:SparseFeature", "src/sample/feature_struct.rs:DenseFeature"]}
{"id": "C46", "title": "unique_target and label checks", "statement": "unique_target returns the sorted set of the labels without repetition, and is_valid_binary_instance accepts exactly the samples with two distinct integer labels.", "quantifier": "all label vectors", "why_tests_cant": "All vectors.", "anchors": ["src/sample/sample_struct.rs:Sample::unique_target", "src/sample/sample_struct.rs:Sample::is_valid_binary_instance"]}
{"id": "C47", "title": "Renaming features round-trips", "statement": "replace_names panics exactly on a length mismatch; otherwise it returns the old names, keeps all data, makes lookup by new (distinct) names work, and replacing back restores the sample.", "quantifier": "all samples and name lists", "why_tests_cant": "All sizes.", "anchors": ["src/sample/sample_struct.rs:Sample::replace_names"]}
{"id": "C48", "title": "Cross-validation folds partition the sample", "statement": "Over a full iteration, test sets are disjoint, train and test together contain every example exactly once in every fold, feature values of a row are kept, and with n_folds dividing things appropriately every example is tested once; no fold panics.", "quantifier": "all samples, fold counts, train ratios, shuffles", "why_tests_cant": "All sizes, ratios and permutations.", "anchors": ["src/research/cross_validation.rs:CrossValidation", "src/sample/sample_struct.rs:Sample::split"]}
{"id": "C49", "title": "Soft-margin objective is the capped minimum", "statement": "The soft-margin objective of a hypothesis equals the minimum over all nu-capped distributions of the expected margin; the hard-margin objective is the smallest margin.", "quantifier": "all samples, hypotheses, nu in [1,n], competitor distributions", "why_tests_cant": "Minimum over a continuum.", "anchors": ["src/research/objective_functions.rs:SoftMarginObjective", "src/research/objective_functions.rs:HardMarginObjective"]}
{"id": "C50", "title": "Exponential objective dominates the error rate", "statement": "The exponential-loss objective is at least the training error rate of the same hypothesis.", "quantifier": "all samples with +-1 labels and hypotheses", "why_tests_cant": "Universal.", "anchors": ["src/research/objective_functions.rs:ExponentialLoss"]}
{"id": "C51", "title": "Logging does not change the result", "statement": "A Logger run returns the same combined hypothesis as Booster::run when no time limit is hit, calls boost the same number of times, and writes exactly one CSV line per boost call.", "quantifier": "all boosters, weak learners, printing intervals", "why_tests_cant": "All executions and time-outs.", "anchors": ["src/research/logger.rs:Logger::run", "src/booster/core.rs:Booster::run"]}
{"id": "C52", "title": "run is history independent", "statement": "Running the same booster object twice with the same weak learner gives the same result: preprocess resets every piece of state the run reads.", "quantifier": "all booster states left behind by earlier runs", "why_tests_cant": "All earlier histories.", "anchors": ["src/booster/core.rs:Booster::run", "src/booster/adaboost/adaboost_algorithm.rs:AdaBoost::preprocess"]}
{"id": "C53", "title": "Naive Bayes picks the most probable label", "statement": "The naive-Bayes hypothesis outputs the label maximising prior times product of Gaussian densities, with fitted weighted means and variances.", "quantifier": "all samples, rows", "why_tests_cant": "Universal over reals.", "anchors": ["src/weak_learner/naive_bayes/nbayes_classifier.rs:NBayesClassifier", "src/weak_learner/naive_bayes/probability.rs:Gaussian", "src/weak_learner/naive_bayes/nbayes.rs:GaussianNB"]}
{"id": "C54", "title": "Neural-network activations and derivatives", "statement": "Softmax outputs a probability vector, ReLU/Id/Sigmoid evaluate and differentiate correctly (derivative is the true derivative), and network evaluation is the composition of its layers.", "quantifier": "all real inputs, all layer lists", "why_tests_cant": "Universal over reals.", "anchors": ["src/weak_learner/neural_network/activation.rs:Activation", "src/weak_learner/neural_network/nn_hypothesis.rs:NNHypothesis"]}
{"id": "C55", "title": "Neural-network label encoding round-trips", "statement": "Encoding a label into the network's output format and decoding it back gives the same label.", "quantifier": "all labels and class counts", "why_tests_cant": "All class counts.", "anchors": ["src/weak_learner/neural_network/nn_hypothesis.rs", "src/weak_learner/neural_network/nn_weak_learner.rs"]}
{"id": "C56", "title": "Worst-case learner returns a maximum-edge hypothesis", "statement": "BadBaseLearner returns, for every distribution, a hypothesis whose edge is at least that of every other hypothesis in its list.", "quantifier": "all distributions, tolerances and sizes", "why_tests_cant": "Universal over distributions.", "anchors": ["src/weak_learner/bad_learner/worstcase_lpboost.rs:BadBaseLearner"]}
{"id": "C57", "title": "Tree export is a tree", "statement": "The DOT export of a decision or regression tree gives every node a distinct id, ids are contiguous, and the edges exported are exactly the parent-child pairs of the tree.", "quantifier": "all trees", "why_tests_cant": "Structural induction.", "anchors": ["src/weak_learner/decision_tree/node.rs:Node::to_dot_info", "src/weak_learner/regression_tree/node.rs:Node::to_dot_info"]}
{"id": "C58", "title": "Margins and edges are dual", "statement": "The edge of a combined hypothesis under any distribution equals the expected margin, equals the weighted average of member edges, and lies between the minimum and the maximum margin.", "quantifier": "all samples, distributions, weights, hypotheses", "why_tests_cant": "Universal over reals.", "anchors": ["src/common/utils.rs:margins_of_hypothesis", "src/common/utils.rs:edge_of_hypothesis", "src/common/utils.rs:margins_of_weighted_hypothesis", "src/common/utils.rs:edge_of_weighted_hypothesis"]}
{"id": "C59", "title": "Entropy helper is the relative entropy to uniform", "statement": "entropy_from_uni_distribution is non-negative on the probability simplex, zero exactly at the uniform distribution, at most ln(m), and equals the relative entropy to uniform.", "quantifier": "all distributions of any length", "why_tests_cant": "Universal over reals.", "anchors": ["src/common/utils.rs:entropy_from_uni_distribution"]}
{"id": "C60", "title": "Logger and builder configuration", "statement": "A LoggerBuilder builds exactly when all components were supplied and time limits are converted exactly to milliseconds; a Logger with print interval 0 panics.", "quantifier": "all sequences of builder calls", "why_tests_cant": "All call orders.", "anchors": ["src/research/logger_builder.rs:LoggerBuilder"]}
{"id": "C61", "title": "Boosters do not panic on a valid sample", "statement": "On a sample with labels -1/+1 a booster with a documented configuration runs to the end for every weak learner; the exact panic conditions are characterised where this fails.", "quantifier": "every valid sample, every configuration reachable through the public setters, every weak learner", "why_tests_cant": "The panics depend on the whole history of hypotheses.", "anchors": ["src/booster/adaboost/adaboost_algorithm.rs:AdaBoost", "src/booster/adaboostv/adaboostv_algorithm.rs:AdaBoostV", "src/booster/madaboost/madaboost_algorithm.rs:MadaBoost", "src/booster/smoothboost/smoothboost_algorithm.rs:SmoothBoost"]}
{"id": "C62", "title": "AdaBoostV margin guarantee", "statement": "If every hypothesis the weak learner returns has edge at least g, the vote AdaBoostV returns after its full number of rounds has margin at least g - tolerance on every training example.", "quantifier": "every sample with +-1 labels, every weak learner with edges in [g,1)", "why_tests_cant": "A bound over all histories, the reason to use the algorithm.", "anchors": ["src/booster/adaboostv/adaboostv_algorithm.rs:AdaBoostV"]}
{"id": "C63", "title": "MadaBoost stops with non-negative votes", "statement": "MadaBoost calls the weak learner at most its iteration limit many times, never panics during boosting, and every vote weight it accumulates is non-negative.", "quantifier": "every sample, every weak learner, every round", "why_tests_cant": "Invariant over all histories.", "anchors": ["src/booster/madaboost/madaboost_algorithm.rs:MadaBoost"]}
{"id": "C64", "title": "Loss functions agree with their derivatives", "statement": "For both regression losses, evaluation is defined exactly on equally long non-empty vectors, is non-negative and zero exactly when all predictions equal the targets, and gradient/hessian are the derivatives of the (half, for L2) pointwise loss with respect to the prediction.", "quantifier": "all prediction and target vectors", "why_tests_cant": "Universal over reals; derivatives are limits.", "anchors": ["src/common/loss_functions.rs:GBMLoss::eval_at_point", "src/common/loss_functions.rs:GBMLoss::gradient", "src/common/loss_functions.rs:GBMLoss::hessian"]}
{"id": "C65", "title": "GBM hands the weak learner the accumulated model", "statement": "In every round GBM hands the weak learner, for every training row, exactly the sum of coefficient times output of the predictors produced so far, each coefficient being the line search answer for its predictor; a run makes at most 100 weak-learner calls, whatever tolerance was set.", "quantifier": "every sample, weak learner, loss and number of rounds", "why_tests_cant": "Invariant over all histories.", "anchors": ["src/booster/gradient_boost/gbm.rs:GBM"]}
{"id": "C66", "title": "SoftBoost returns the best vote over its hypotheses", "statement": "The vote SoftBoost and TotalBoost return is a convex combination of the hypotheses collected during the run, and no other convex combination of them has a larger soft margin (worst edge under distributions capped at 1/nu).", "quantifier": "every sample, every weak learner, every solver that answers its programs correctly, every run that returns", "why_tests_cant": "Optimality over a continuum of combinations; the program handed to the solver decides it.", "anchors": ["src/booster/softboost/qp_model.rs:QPModel::weights", "src/booster/softboost/softboost_algorithm.rs:SoftBoost::postprocess"]}
{"id": "C67", "title": "SoftBoost reaches its tolerance", "statement": "If every hypothesis the weak learner returns has edge at least g, the vote SoftBoost or TotalBoost returns after its full number of rounds has soft margin at least g - tolerance.", "quantifier": "every sample, every weak learner with edges at least g, every tolerance", "why_tests_cant": "A guarantee over all histories; the reason to choose the algorithm.", "anchors": ["src/booster/softboost/softboost_algorithm.rs:SoftBoost::boost", "src/booster/softboost/qp_model.rs:QPModel::update"]}
{"id": "C68", "title": "MLPBoost's linear program respects the cap", "statement": "The linear program MLPBoost solves each time a new hypothesis arrives ranges over the distributions with entries at most 1/nu, with no stored hypothesis having an edge above the minimised variable.", "quantifier": "every sample, every nu, every list of hypotheses, every perturbation", "why_tests_cant": "The program is a data structure whose meaning is universal over a continuum of points.", "anchors": ["src/booster/mlpboost/perturbed_lp_model.rs:LPModel"]}
{"id": "C69", "title": "MLPBoost converges", "statement": "MLPBoost never panics in a round, asks the weak learner only with distributions capped at 1/nu, stops exactly by its gap rule or after ceil(8 ln(m/nu)/(tolerance/2)^2) rounds, returns for every nu below the sample size, and its combined hypothesis has soft margin within the tolerance of the weak learner's guarantee, whatever the perturbed programs return.", "quantifier": "every sample, every weak learner, every perturbation, every correct solver, classic and short-step strategies", "why_tests_cant": "A convergence guarantee over all histories.", "anchors": ["src/booster/mlpboost/mlpboost_algorithm.rs:MLPBoost"]}
{"id": "C70", "title": "Edge-criterion tree is a weak learner", "statement": "With the edge criterion, +-1 labels and depth at least one, if some decision stump at some bin boundary has edge at least g on the training distribution, the trained tree's edge is at least g squared (g measured against the total weight).", "quantifier": "all samples with +-1 labels, all distributions, all depths", "why_tests_cant": "An inequality over all samples and distributions; it is the assumption every boosting guarantee rests on.", "anchors": ["src/weak_learner/decision_tree/decision_tree_algorithm.rs:DecisionTree::produce", "src/weak_learner/decision_tree/criterion.rs:Criterion::best_split"]}
{"id": "C71", "title": "Decision-tree training never panics", "statement": "On a well-formed sample with at least one column and some positive weight, a decision-tree learner produces a tree.", "quantifier": "all samples, distributions, criteria, depths, numbers of bins", "why_tests_cant": "Every unwrap and index of the recursion has to be safe on every reachable subset of rows.", "anchors": ["src/weak_learner/decision_tree/decision_tree_algorithm.rs:DecisionTree::produce", "src/weak_learner/decision_tree/bin.rs:Bins::pack"]}
{"id": "C72", "title": "Decision-tree builder", "statement": "A decision-tree builder cuts, for every column, as many bins as it was told (by default the number of distinct values, at most 255), and building panics only when a column asks for at least two bins narrower than 1e-9.", "quantifier": "all samples and all configured numbers of bins", "why_tests_cant": "Universal over real-valued columns.", "anchors": ["src/weak_learner/decision_tree/builder.rs:DecisionTreeBuilder::build", "src/weak_learner/decision_tree/bin.rs:Bins::cut"]}
{"id": "C73", "title": "Squared-loss regression trees never increase the training error", "statement": "Adding the tree trained on some predictions with the squared loss to those predictions never increases the sum of squared training errors.", "quantifier": "all samples, predictions, depths, bins, lambda >= 0", "why_tests_cant": "Universal over reals and tree shapes.", "anchors": ["src/weak_learner/regression_tree/regression_tree_algorithm.rs:RegressionTree::produce", "src/common/loss_functions.rs:GBMLoss"]}
{"id": "C74", "title": "Regression-tree training and building do not panic", "statement": "Building a regression-tree learner panics only when no loss is given or a column asks for two or more bins narrower than 1e-9; training then returns a tree for every prediction vector of the right length, with either loss, when lambda is positive.", "quantifier": "all samples, bin counts, predictions, losses", "why_tests_cant": "Absence of panics for every input.", "anchors": ["src/weak_learner/regression_tree/builder.rs:RegressionTreeBuilder::build", "src/weak_learner/regression_tree/regression_tree_algorithm.rs:RegressionTree::produce"]}
{"id": "C75", "title": "Regression trees move predictions towards the targets", "statement": "If all targets are above the current predictions, the tree's values are positive, with either loss; and a tree whose training error can be improved by a split is not constant.", "quantifier": "all samples, predictions, both losses", "why_tests_cant": "Universal over reals.", "anchors": ["src/weak_learner/regression_tree/regression_tree_algorithm.rs:prediction_and_loss", "src/common/loss_functions.rs:GBMLoss::gradient"]}
{"id": "C76", "title": "The worst-case learner forces LPBoost through n/2 rounds", "statement": "On every sample with labels +1/-1, LPBoost with BadBaseLearner (nu = 1) needs more than n/2 calls of the weak learner, whatever linear-programming solver is used; the run ends after at most two calls more than the learner has middle hypotheses and returns a combination whose margin is optimal up to the tolerance.", "quantifier": "all samples, solvers returning optimal primal-dual pairs, tolerances, LPBoost parameters", "why_tests_cant": "The lower bound is over all sample sizes and all solvers.", "anchors": ["src/weak_learner/bad_learner/worstcase_lpboost.rs:BadBaseLearner", "src/booster/lpboost/lpboost_algorithm.rs:LPBoost"]}
{"id": "C77", "title": "Neural-network training takes gradient-descent steps", "statement": "One training step on a mini-batch replaces every weight and bias by itself minus the rate times the partial derivative of the summed batch loss, so that for all small enough learning rates the batch loss strictly decreases unless its gradient is zero.", "quantifier": "all layer lists, activations, batches, rates", "why_tests_cant": "Universal over reals, depths, widths and batches.", "anchors": ["src/weak_learner/neural_network/nn_hypothesis.rs:NNHypothesis::train", "src/weak_learner/neural_network/layer.rs:Layer::backward", "src/weak_learner/neural_network/nn_loss.rs:NNLoss::diff"]}
{"id": "C78", "title": "The neural-network learner returns a usable network", "statement": "A learner with at least one appended layer of positive width returns, for every sample whose labels fit the output width and whatever random numbers and non-empty mini-batches are drawn, a network of the configured widths and activations that can be evaluated on every row; the default mini-batch is the first of 128, 64, ... not larger than the sample.", "quantifier": "all configurations, samples, random draws, epochs and iterations", "why_tests_cant": "Universal over random draws and numbers of steps.", "anchors": ["src/weak_learner/neural_network/nn_weak_learner.rs:NeuralNetwork", "src/weak_learner/neural_network/nn_hypothesis.rs:NNHypothesis"]}
{"id": "C79", "title": "ERLPBoost soft-margin guarantee", "statement": "If every capped distribution handed to the weak learner is answered with edge at least rho, the vote ERLPBoost returns has nu-soft margin at least rho minus the tolerance.", "quantifier": "all samples, weak learners, solvers, nu, tolerances", "why_tests_cant": "A guarantee over all weak learners and all runs.", "anchors": ["src/booster/erlpboost/erlpboost_algorithm.rs:ERLPBoost", "src/booster/erlpboost/qp_model.rs:QPModel"]}
{"id": "C80", "title": "Decision trees of every criterion are weak learners", "statement": "For each of the four split criteria, +-1 labels and depth at least one: if some decision stump at a bin boundary has edge g under the training weights, the trained tree has edge at least g squared over the total weight (half of it for the entropy criterion).", "quantifier": "all samples with +-1 labels, all weights, depths, numbers of bins, criteria", "why_tests_cant": "An inequality over all samples and weights; it is the assumption every boosting guarantee rests on.", "anchors": ["src/weak_learner/decision_tree/criterion.rs:Criterion::best_split", "src/weak_learner/decision_tree/decision_tree_algorithm.rs:DecisionTree::produce"]}
{"id": "C81", "title": "Boosting decision trees works end to end", "statement": "On a binary sample that some vote of bin-boundary stumps separates with margin theta, boosting decision trees (any criterion, any depth) never panics - neither in the booster nor in training or evaluating a tree - and AdaBoost classifies every training row correctly once its limit is large enough, AdaBoostV and LPBoost reach margin kappa theta^2 minus the tolerance on every row, and CERLPBoost and MLPBoost the same soft margin (kappa = 1, 1/2 for entropy).", "quantifier": "all samples, columns (dense or sparse), criteria, depths, booster parameters", "why_tests_cant": "Composes the guarantees of the tree learner with those of the boosters over all runs.", "anchors": ["src/weak_learner/decision_tree/decision_tree_algorithm.rs:DecisionTree::produce", "src/booster/adaboost/adaboost_algorithm.rs:AdaBoost", "src/booster/adaboostv/adaboostv_algorithm.rs:AdaBoostV", "src/booster/lpboost/lpboost_algorithm.rs:LPBoost", "src/booster/cerlpboost/cerlpboost_algorithm.rs:CERLPBoost", "src/booster/mlpboost/mlpboost_algorithm.rs:MLPBoost"]}
{"id": "C82", "title": "When AdaBoost with trees returns", "statement": "AdaBoost with decision trees on a binary sample returns a hypothesis if and only if its first tree, trained on the uniform distribution, has a positive edge; with single-test trees, if and only if some bin-boundary stump is correlated with the labels. Otherwise (e.g. exclusive or) run panics.", "quantifier": "all binary samples, criteria, depths, limits of at least one round", "why_tests_cant": "An exact characterisation of the panics over all samples and runs.", "anchors": ["src/booster/adaboost/adaboost_algorithm.rs:AdaBoost::boost", "src/hypothesis/weighted_majority.rs:WeightedMajority::from_slices", "src/weak_learner/decision_tree/decision_tree_algorithm.rs:DecisionTree::produce"]}
{"id": "C83", "title": "Configuring a booster", "statement": "On a freshly constructed booster every chain of configuration calls goes through exactly when every nu (and SmoothBoost's gamma) is in its documented range; the last value given for each parameter counts, whatever the order, and defaults fill in the rest, so two chains ending with the same values give the same run; the guarantees hold from the constructor with the limits the code computes itself.", "quantifier": "all samples, all finite chains of configuration calls, all weak learners", "why_tests_cant": "Universal over unbounded call sequences and all later runs.", "anchors": ["src/booster/adaboost/adaboost_algorithm.rs:AdaBoost::tolerance", "src/booster/lpboost/lpboost_algorithm.rs:LPBoost::nu", "src/booster/cerlpboost/cerlpboost_algorithm.rs:CERLPBoost::fw_type", "src/booster/smoothboost/smoothboost_algorithm.rs:SmoothBoost::gamma"]}
{"id": "C84", "title": "Linearly separable samples", "statement": "When some vote over the weak learner's class separates the training sample, AdaBoost (with a learner returning a hypothesis of largest edge) stops at its own limit with a hypothesis that makes no training error.", "quantifier": "all separable samples, classes, tolerances", "why_tests_cant": "A guarantee over all samples and whole runs.", "anchors": ["src/booster/adaboost/adaboost_algorithm.rs:AdaBoost::max_loop"]}
{"id": "C85", "title": "Configuring a weak learner", "statement": "On a fresh decision-tree, regression-tree or neural-network builder every chain of configuration calls goes through exactly when every depth is positive and every column named in set_nbins exists; the last value given for each parameter counts (for bins: per column), layers are appended in order, and the resulting learner builds and trains accordingly.", "quantifier": "all samples, all finite chains of configuration calls, all training inputs", "why_tests_cant": "Universal over unbounded call sequences.", "anchors": ["src/weak_learner/decision_tree/builder.rs:DecisionTreeBuilder", "src/weak_learner/regression_tree/builder.rs:RegressionTreeBuilder", "src/weak_learner/neural_network/nn_weak_learner.rs:NeuralNetwork"]}
{"id": "C86", "title": "Taking combined hypotheses apart and putting them together", "statement": "Pushing votes onto a combined hypothesis adds exactly these votes to its confidence (and regression value) on every instance; pushing positive votes and normalising is from_slices; decomposing a combined hypothesis and rebuilding it from its parts gives it back.", "quantifier": "all combined hypotheses, votes, instances", "why_tests_cant": "Universal over numbers of votes and instances.", "anchors": ["src/hypothesis/weighted_majority.rs:WeightedMajority"]}
{"id": "C87", "title": "Statistics of a sample", "statement": "weighted_mean and weighted_mean_and_variance return, in column order, the weighted mean and variance of every column, dense or sparse, for every distribution on the rows, and panic on weights that are not a distribution; the per-label versions return those of the rows with that label (dense columns).", "quantifier": "all samples, distributions, labels", "why_tests_cant": "Universal over samples and real weights.", "anchors": ["src/sample/sample_struct.rs:Sample::weighted_mean", "src/sample/sample_struct.rs:Sample::weighted_mean_and_variance_for_label", "src/sample/feature_struct.rs:Feature"]}
{"id": "C88", "title": "Threads do not change the outcome", "statement": "The outcome of boosting with AdaBoost, AdaBoostV, MadaBoost, SmoothBoost and GBM - the returned hypothesis, the distributions handed to the weak learner, or the panic - and the results of the other parallel functions (inner products, normalising, statistics of a sample, appending rows, affine maps, Gaussian densities) do not depend on how rayon divides the work between threads or on how the threads' memory accesses interleave (up to rounding).", "quantifier": "all samples, weak learners, divisions of the work, interleavings of the threads, numbers of rounds", "why_tests_cant": "A test sees a few of the unboundedly many schedules.", "anchors": ["src/common/utils.rs:inner_product", "src/common/utils.rs:normalize", "src/booster/adaboost/adaboost_algorithm.rs:AdaBoost::update_params", "src/booster/adaboostv/adaboostv_algorithm.rs:AdaBoostV::update_params", "src/booster/madaboost/madaboost_algorithm.rs:MadaBoost", "src/booster/smoothboost/smoothboost_algorithm.rs:SmoothBoost", "src/booster/gradient_boost/gbm.rs:GBM", "src/sample/sample_struct.rs:Sample"]}
{"id": "C89", "title": "Training trees is deterministic", "statement": "Two calls of a decision-tree or regression-tree learner with the same sample and the same distribution or predictions return the same tree, whatever the threads do and in whatever order the (randomly seeded) hash maps are traversed (up to rounding).", "quantifier": "all samples, distributions, criteria, depths, schedules, traversal orders", "why_tests_cant": "Schedules and hash seeds cannot be enumerated by tests.", "anchors": ["src/weak_learner/decision_tree/decision_tree_algorithm.rs:DecisionTree::produce", "src/weak_learner/decision_tree/criterion.rs:Criterion::best_split", "src/weak_learner/decision_tree/bin.rs:Bins::pack", "src/weak_learner/regression_tree/regression_tree_algorithm.rs:RegressionTree::produce"]}
{"id": "C90", "title": "Runs in f64 are reproducible", "statement": "With the arithmetic of f64 (binary64, rounding to nearest), two runs of AdaBoost with the same sample, parameters and deterministic weak learner give the same result, whatever the threads do.", "quantifier": "all samples, weak learners, divisions of the sums between threads", "why_tests_cant": "f64 addition is not associative; a test sees a few of the unboundedly many schedules.", "anchors": ["src/common/utils.rs:inner_product", "src/common/utils.rs:edge_of_hypothesis", "src/booster/adaboost/adaboost_algorithm.rs:AdaBoost::boost"]}
{"id": "C91", "title": "AdaBoost in f64 stays a distribution", "statement": "With the arithmetic of f64, up to 100000 examples and a weak learner whose hypotheses answer in [-1, 1] with edges of absolute value at most 0.998: whatever the threads do and however many rounds are made, the weights handed to the weak learner are never NaN, infinite, zero or negative and add up to one within 2.5e-7, the sorting of the log-weights never panics, and run fails only if no hypothesis gets a positive vote.", "quantifier": "all samples up to 100000 rows, weak learners, schedules, numbers of rounds, exp and ln accurate to 2^-50", "why_tests_cant": "Rounding errors, overflow and underflow along unbounded runs and all schedules.", "anchors": ["src/booster/adaboost/adaboost_algorithm.rs:AdaBoost::update_params", "src/booster/adaboost/adaboost_algorithm.rs:AdaBoost::boost", "src/common/utils.rs:inner_product"]}
{"id": "C92", "title": "AdaBoost's training error in f64", "statement": "With the arithmetic of f64, up to 100000 examples, T of at most 900 rounds and edges between g >= 0.001 and 0.998, AdaBoost returns a hypothesis that is wrong on at most a fraction 1.001 (sqrt(1 - g^2) + 0.00001)^T of the training examples, as its own f64 vote classifies them; in particular on none once this is below one example.", "quantifier": "all samples up to 100000 rows, weak learners, schedules, exp and ln accurate to 2^-50", "why_tests_cant": "The guarantee users rely on, with all rounding errors included, over all runs and schedules.", "anchors": ["src/booster/adaboost/adaboost_algorithm.rs:AdaBoost", "src/hypothesis/weighted_majority.rs:WeightedMajority::from_slices", "src/hypothesis/weighted_majority.rs:WeightedMajority"]}
{"id": "C93", "title": "Building a tree learner in f64 comes to an end", "statement": "On every well-formed sample of finite numbers, building a decision-tree or regression-tree learner with the default number of bins returns: the loop that cuts a column makes exactly as many bins as asked for, in the machine's arithmetic.", "quantifier": "all samples of finite f64 values, all columns, all numbers of bins", "why_tests_cant": "The outcome depends on the rounding of every addition in the loop; tests use small integers or numbers around one.", "anchors": ["src/weak_learner/decision_tree/bin.rs:Bins::cut_dense", "src/weak_learner/decision_tree/bin.rs:Bins::cut_sparse", "src/weak_learner/regression_tree/bin.rs:Bins::cut", "src/weak_learner/decision_tree/builder.rs:DecisionTreeBuilder::build"]}
{"id": "C94", "title": "Training a decision tree in f64 never panics", "statement": "With the arithmetic of f64, training a built decision-tree learner on a distribution of finite non-negative weights, one of them positive, never panics, whatever the order in which the hash maps are traversed and however rayon divides the work, and the returned tree answers every row with a number in [-1, 1] (no NaN).", "quantifier": "all samples, all finite weights with a sum of at most 3/2, all criteria, depths, schedules, traversal orders", "why_tests_cant": "Depends on the rounding of every sum and difference of weights, in every order.", "anchors": ["src/weak_learner/decision_tree/decision_tree_algorithm.rs:DecisionTree::produce", "src/weak_learner/decision_tree/criterion.rs:split_by_gini", "src/weak_learner/decision_tree/criterion.rs:split_by_entropy", "src/weak_learner/decision_tree/criterion.rs:split_by_twoing", "src/weak_learner/decision_tree/criterion.rs:split_by_edge", "src/weak_learner/decision_tree/bin.rs:Bins::pack"]}
{"id": "C95", "title": "AdaBoost on decision trees in f64", "statement": "With the arithmetic of f64, AdaBoost on decision trees (criterion entropy, edge or twoing, columns of moderate size, up to 100000 rows): as long as the edges of the trees stay within +-0.998, every call of the tree learner is made with sound weights and returns a tree (it never panics), the run ends after the number of rounds asked for, and it fails only if no tree got a positive vote; with edges of at least g >= 0.001 and at most 900 rounds the returned vote of trees is wrong on at most a fraction 1.001 (sqrt(1 - g^2) + 0.00001)^T of the rows.", "quantifier": "all samples, all options of the learner, all numbers of rounds, all schedules and hash-map orders in every round, all exp/ln accurate to 2^-50", "why_tests_cant": "no test can try every sample, schedule and hash seed, and rounding errors add up over the rounds", "anchors": ["src/booster/adaboost/adaboost_algorithm.rs: AdaBoost::boost", "src/weak_learner/decision_tree/decision_tree_algorithm.rs: DecisionTree::produce", "src/booster/core.rs: Booster::run"]}
{"id": "C96", "title": "The projection onto the capped simplex in f64", "statement": "With the arithmetic of f64, projecting log-weights onto the capped simplex (the softmax included) returns a vector that is, up to rounding, the point of the capped simplex closest in relative entropy: entries in [0, 1/nu], sum one up to 1.1e-5, one-norm distance at most 3e-5 from the exact projection; and it never panics for nu in [1, n].", "quantifier": "all vectors of up to 100000 log-weights of absolute value at most 10000, all nu, all exp/ln accurate to 2^-50", "why_tests_cant": "The stopping test of the loop and the final assertions compare rounded numbers; which side they fall on depends on every input.", "anchors": ["src/common/utils.rs:project_log_distribution_to_capped_simplex", "src/common/utils.rs:exp_distribution_from_margins", "src/common/checker.rs:check_capped_simplex_condition"]}
{"id": "C97", "title": "From a file to a trained classifier", "statement": "Reading a csv file (with header) or a svmlight file whose labels are +1/-1 (both occurring), whose other values are 0/1, and on which some weighted vote of the columns has margin theta on every row; building the default decision-tree learner with any criterion and depth >= 1; and running AdaBoost with a tolerance of at most kappa theta^2 / 2 (kappa the criterion's factor): every step succeeds, every call of the learner is answered, and the returned classifier predicts the label written in the file for every row.", "quantifier": "all tables and votes, names, numbers of rows and columns, criteria, depths, tolerances", "why_tests_cant": "The guarantee composes reader, builder, tree growing and boosting over every file and every vote.", "anchors": ["src/sample/sample_reader.rs:SampleReader::read", "src/sample/sample_struct.rs:Sample::from_csv", "src/sample/sample_struct.rs:Sample::from_svmlight", "src/weak_learner/decision_tree/builder.rs:DecisionTreeBuilder::build", "src/weak_learner/decision_tree/decision_tree_algorithm.rs:DecisionTree::produce", "src/booster/adaboost/adaboost_algorithm.rs:AdaBoost::boost"]}
{"id": "C98", "title": "Predictions on other samples", "statement": "What a trained classifier answers for a row of any well-formed sample depends only on the values of that row under the column names: the order in which the sample lists its columns, dense or sparse storage, further columns, the label of the row and the other rows do not matter. A decision or regression tree answers every row of every sample that has the columns of its training sample, and a missing column is a panic, not a wrong answer. So training on one csv file and predicting another whose columns are permuted gives each row the prediction that its named cells deserve.", "quantifier": "all samples, rows, column orders and storages, all trees, votes of trees and runs of AdaBoost, all naive-Bayes classifiers and networks", "why_tests_cant": "Ranges over pairs of samples and over every trained hypothesis; tests predict on the training sample.", "anchors": ["src/weak_learner/decision_tree/decision_tree_classifier.rs:DecisionTreeClassifier", "src/weak_learner/regression_tree/regression_tree_regressor.rs:RegressionTreeRegressor", "src/weak_learner/common/split_rule.rs:Splitter", "src/weak_learner/naive_bayes/probability.rs:Gaussian::log_probability", "src/weak_learner/neural_network/nn_hypothesis.rs:NNHypothesis", "src/sample/sample_struct.rs:Sample::at"]}
{"id": "C99", "title": "A sample from a data frame", "statement": "Sample::from_dataframe returns exactly when every column and the target series are of type f64 without nulls, and panics otherwise; the sample then has the frame's shape, its column names in their order, in row i under each name the frame's cell, and the target's values as labels; it is well-formed exactly when the target has one value per row, and a target of another length is only noticed (by a panic) when boosting starts. A frame with the cells of a csv file gives a sample with the same rows, columns and labels as reading the file.", "quantifier": "all data frames and target series, all rows and column names", "why_tests_cant": "Ranges over all frames, types and null patterns.", "anchors": ["src/sample/sample_struct.rs:Sample::from_dataframe", "src/sample/feature_struct.rs:DenseFeature::from_series", "src/sample/sample_struct.rs:Sample::target_is_specified"]}
{"id": "C100", "title": "Printing a tree learner", "statement": "A decision-tree or regression-tree learner built from a well-formed sample with at least one column can be printed (Display) without a panic, whatever the traversal order of its hash map, and the text has one line for every column with its name, its number of bins, and its intervals (all if at most three, else the first two and the last); for a sample without columns printing panics. The number of bins reported by info is the largest over the columns.", "quantifier": "all samples, builder options, bin counts, traversal orders", "why_tests_cant": "The panics in Display (maximum of no keys, ilog10 of zero bins) depend on which learners the builder can return.", "anchors": ["src/weak_learner/decision_tree/decision_tree_algorithm.rs:DecisionTree", "src/weak_learner/regression_tree/regression_tree_algorithm.rs:RegressionTree", "src/weak_learner/decision_tree/bin.rs:Bins", "src/weak_learner/regression_tree/bin.rs:Bins"]}
{"id": "C101", "title": "Returned hypotheses come from this run", "statement": "For every booster, whenever run returns, the hypotheses inside the returned combined hypothesis are answers that the weak learner gave during this very call of run, listed in the order of the calls and each answer at most once: nothing from an earlier run, another learner or another sample gets in, and there are no more hypotheses than calls. Hence every vote of decision trees, by whatever booster, answers a row by its named values only.", "quantifier": "all samples, weak learners, initial states (also used ones), solvers, noise sequences and numbers of rounds; all twelve boosters", "why_tests_cant": "Ranges over complete runs and over every prior state of the booster object.", "anchors": ["src/booster/adaboost/adaboost_algorithm.rs:AdaBoost", "src/booster/adaboostv/adaboostv_algorithm.rs:AdaBoostV", "src/booster/madaboost/madaboost_algorithm.rs:MadaBoost", "src/booster/smoothboost/smoothboost_algorithm.rs:SmoothBoost", "src/booster/graph_separation_boosting/graph_separation_algorithm.rs:GraphSepBoost", "src/booster/gradient_boost/gbm.rs:GBM", "src/booster/lpboost/lpboost_algorithm.rs:LPBoost", "src/booster/erlpboost/erlpboost_algorithm.rs:ERLPBoost", "src/booster/softboost/softboost_algorithm.rs:SoftBoost", "src/booster/totalboost/totalboost_algorithm.rs:TotalBoost", "src/booster/cerlpboost/cerlpboost_algorithm.rs:CERLPBoost", "src/booster/mlpboost/mlpboost_algorithm.rs:MLPBoost", "src/hypothesis/weighted_majority.rs:WeightedMajority::from_slices"]}
{"id": "C102", "title": "Which boosters can be logged without changing the result", "statement": "When the log file can be written, the time limit is not exceeded, the print interval is not zero and the objective and losses can be computed, running a booster through the Logger ends exactly as running it directly (same hypothesis, same weight vectors given to the weak learner, same panic) for AdaBoostV (tolerance > 0), SmoothBoost and GraphSepBoost with any weak learner, for LPBoost, SoftBoost and TotalBoost with any weak learner and a correct solver, for ERLPBoost, CERLPBoost (all strategies) and MLPBoost under the conditions of C61. For AdaBoost and MadaBoost a logged run returns if and only if the direct run returns and the weak learner's answer to the uniform distribution has a positive edge. In general a logged run returns if and only if the direct run does and the intermediate hypothesis can be built after every round.", "quantifier": "all samples, weak learners, states, objectives and losses, clocks, limits, intervals, solvers and numbers of rounds", "why_tests_cant": "Ranges over complete runs of eleven boosters and over every intermediate hypothesis the logger evaluates.", "anchors": ["src/research/logger.rs:Logger::run", "src/research/logger.rs:Research", "src/booster/adaboost/adaboost_algorithm.rs:current_hypothesis", "src/booster/adaboostv/adaboostv_algorithm.rs:current_hypothesis", "src/booster/madaboost/madaboost_algorithm.rs:current_hypothesis", "src/booster/smoothboost/smoothboost_algorithm.rs:current_hypothesis", "src/booster/graph_separation_boosting/graph_separation_algorithm.rs:current_hypothesis", "src/booster/lpboost/lpboost_algorithm.rs:current_hypothesis", "src/booster/erlpboost/erlpboost_algorithm.rs:current_hypothesis", "src/booster/softboost/softboost_algorithm.rs:current_hypothesis", "src/booster/totalboost/totalboost_algorithm.rs:current_hypothesis", "src/booster/cerlpboost/cerlpboost_algorithm.rs:current_hypothesis", "src/booster/mlpboost/mlpboost_algorithm.rs:current_hypothesis"]}
{"id": "C103", "title": "Decision trees trained in f64 are weak learners", "statement": "When a decision tree is trained in f64 on +1/-1 labels, it answers every row of positive weight with the weighted mean label of the rows that end in the same leaf, up to 1e-8, so its edge is never less than that of the constant mean answer. With the criterion edge and a depth of at least one, its edge (times the sum of the weights) is, up to 2e-5, at least the square of the edge of every test 'value of a column below a boundary of a bin'. Hence AdaBoost on such trees, all in f64, drives the training error down at the corresponding exponential rate whenever in each round some test has an edge of at least gamma and no tree is almost perfect.", "quantifier": "every sample of up to 1e5 rows with moderate columns, every f64 weights that sum up to at most 3/2, every depth, every order of the hash maps and every division of the parallel sums, every correctly rounded arithmetic and every logarithm/exponential within the Libm bounds; every round", "why_tests_cant": "rounding of the label maps, of the normalised bins, of the merged thresholds and of the losses compared by the pruning interact with the order in which hash maps are traversed and rayon sums are split; no test enumerates these orders, samples and weights", "anchors": ["src/weak_learner/decision_tree/decision_tree_algorithm.rs: produce, full_tree", "src/weak_learner/decision_tree/criterion.rs: split_by_edge", "src/weak_learner/decision_tree/bin.rs: pack", "src/weak_learner/decision_tree/train_node.rs: remove_redundant_nodes", "src/booster/adaboost/adaboost_algorithm.rs: boost"]}
{"id": "C104", "title": "A trained tree's confidence is calibrated", "statement": "Train a decision tree on labels +1/-1 with non-negative weights, with any criterion and depth. Then for every value c, among the rows that the tree answers with confidence c the weighted mean label is exactly c. Hence the tree's edge is the weighted mean square of its confidence, its weighted training error is (1 - weighted mean |confidence|)/2, and its error is at most (1 - edge)/2.", "quantifier": "every sample with labels +1/-1, every non-negative weights (for the error: every distribution), every criterion, every maximal depth, every set of bins, every traversal order of the hash maps", "why_tests_cant": "it is an identity over all samples and weight vectors that ties the stored leaf values to the rows routed to each leaf through binning, splitting, pruning and conversion to the final node type; a test checks single trees on single weights", "anchors": ["src/weak_learner/decision_tree/decision_tree_algorithm.rs: produce, full_tree, confidence_and_loss", "src/weak_learner/decision_tree/decision_tree_classifier.rs: confidence", "src/weak_learner/decision_tree/train_node.rs: TrainNode", "src/weak_learner/decision_tree/node.rs: Node"]}
{"id": "C105", "title": "Decision trees with GraphSepBoost, SmoothBoost, MadaBoost and ERLPBoost", "statement": "On a sample on which a vote of the available single tests has a margin theta > 0, boosting decision trees of any criterion and depth >= 1: GraphSepBoost returns a hypothesis that is right on every row; SmoothBoost with 2 gamma at most the trees' edge kappa theta^2 returns before its limit, and when the limit is at most the number of rows, fewer than kappa m / sqrt(1 - gamma) rows have margin at most gamma/(2+gamma); MadaBoost returns when at least one round is allowed; ERLPBoost returns a convex combination of trees. In none of them does the weak learner panic.", "quantifier": "every sample with a positive margin, every criterion, every depth >= 1, every traversal order of the hash maps, every correct solver, every admissible setting of the boosters", "why_tests_cant": "the claim is about whole runs of a booster against trees fitted to the weights it computes itself, for every sample and setting", "anchors": ["src/booster/graph_separation_boosting/graph_separation_algorithm.rs: boost", "src/booster/smoothboost/smoothboost_algorithm.rs: boost", "src/booster/madaboost/madaboost_algorithm.rs: boost", "src/booster/erlpboost/erlpboost_algorithm.rs: boost", "src/weak_learner/decision_tree/decision_tree_algorithm.rs: produce"]}
{"id": "C106", "title": "From a file to a correct classifier with each booster that guarantees one", "statement": "Take a csv file with a header and a target column, or a svmlight file, with cells 0/1 and labels +1/-1, both present, whose labels are a vote of its columns with margin theta > 0. SampleReader reads it; DecisionTreeBuilder builds trees of every criterion and depth >= 1; and AdaBoost, AdaBoostV, GraphSepBoost, LPBoost (every admissible nu), CERLPBoost and MLPBoost (at nu = 1), made from that sample with a tolerance below the edge of the trees, return a hypothesis that predicts the label of every row of the file, without any panic of the weak learner.", "quantifier": "every such file, every criterion, every depth >= 1, every small enough tolerance, every correct solver, every random perturbation (MLPBoost), every traversal order of the hash maps", "why_tests_cant": "it composes parsing, binning, tree growth, the booster's own weights and the final vote for all files; a test runs one file", "anchors": ["src/sample/sample_reader.rs: read", "src/weak_learner/decision_tree/builder.rs: build", "src/weak_learner/decision_tree/decision_tree_algorithm.rs: produce", "src/booster/adaboost/adaboost_algorithm.rs: boost", "src/booster/adaboostv/adaboostv_algorithm.rs: boost", "src/booster/graph_separation_boosting/graph_separation_algorithm.rs: boost", "src/booster/lpboost/lpboost_algorithm.rs: boost", "src/booster/cerlpboost/cerlpboost_algorithm.rs: boost", "src/booster/mlpboost/mlpboost_algorithm.rs: boost"]}
{"id": "C107", "title": "SoftBoost and TotalBoost learn with decision trees", "statement": "On a sample on which a vote of the available single tests has a margin theta > 0, SoftBoost and TotalBoost with decision trees of any criterion and depth >= 1 return a vote of trees that gets better than one tree alone, as the documentation promises (a soft margin near the best possible).", "quantifier": "every sample with a positive margin, every criterion and depth, every tolerance, every nu in [1, n), every correct solver", "why_tests_cant": "the claim is about whole runs of a booster against trees fitted to the weights it computes itself, for every sample and setting", "anchors": ["src/booster/softboost/softboost_algorithm.rs: boost", "src/booster/softboost/qp_model.rs: update", "src/booster/totalboost/totalboost_algorithm.rs: boost", "src/weak_learner/decision_tree/decision_tree_algorithm.rs: produce"]}
{"id": "C108", "title": "set_target turns a column into the labels", "statement": "On a sample whose columns are well formed (whether or not it has labels already), set_target(name) of an existing column, dense or sparse, returns a well-formed sample: its labels are the values of that column in every row (zero where a sparse column stores nothing), the other columns are unchanged, in order and found by name, and the column itself is gone. Calling it twice drops the first label vector: neither column remains. The name of no column makes it panic.", "quantifier": "every sample with distinctly named well-formed columns, dense and sparse mixed, every column name", "why_tests_cant": "it must hold for every number of rows and columns, every position of the column and every sparsity pattern", "anchors": ["src/sample/sample_struct.rs: set_target", "src/sample/feature_struct.rs: into_target, name"]}
{"id": "C109", "title": "GraphSepBoost in f64, with any learner and with decision trees", "statement": "With every operation of GraphSepBoost rounded to binary64 (the weights `degree as f64 / total as f64`), a run on at most 10^5 examples asks the weak learner only with probability vectors whose entries were rounded once; if the hypotheses' weighted errors are at most 1/2 - g, run returns after at most ln(m^2)/(2g) + 1 calls, and what it returns predicts the label of every training example. In particular this holds with decision trees (criterion edge, depth at least one) trained in binary64: if some vote over the tests `value < end of a bin` separates the labels with margin \u03b8 \u2265 1/100, then whatever order the hash maps iterate in and however the parallel sums are divided, every call of the learner returns a tree, the run ends after at most 2 ln m / (\u03b8\u00b2 - 4\u00b710\u207b\u2075) + 1 calls, and the returned hypothesis makes no training error.", "quantifier": "all samples with 1 to 10^5 rows, labels \u00b11 and columns of moderate size (C93), all margins \u03b8 \u2265 1/100, all weak learners made of trees that training may return, all depths \u2265 1, all states of the booster", "why_tests_cant": "Rounding could in principle break the guarantee for some weights or some tree; tests see a few samples and one order of the hash maps.", "anchors": ["src/booster/graph_separation_boosting/graph_separation_algorithm.rs: boost, update_params, preprocess", "src/hypothesis/naive_aggregation.rs: NaiveAggregation", "src/weak_learner/decision_tree/decision_tree_algorithm.rs: produce, full_tree"]}
{"id": "C110", "title": "From a file to zero training errors, in f64", "statement": "Take a csv or svmlight file with 0/1 columns and \u00b11 labels of both signs, at most 10^5 rows, such that a weighted vote over the columns separates the labels with margin \u03b8 \u2265 1/100. Reading it succeeds; cutting the bins in binary64 succeeds; the trees (criterion edge, any depth \u2265 1) trained in binary64 never fail on the weights they are asked with; and GraphSepBoost, itself in binary64, returns a hypothesis that predicts the label of every row of the file, whichever trees training returns under any order of the hash maps and any division of the parallel sums.", "quantifier": "all such files (csv or svmlight, with any column names and any cell parser), all margins \u03b8 \u2265 1/100, all depths \u2265 1, all trees the learner may return", "why_tests_cant": "The whole pipeline, reader, binning, tree training and booster, has to stay correct under rounding for every file; a test runs it on one file.", "anchors": ["src/sample/sample_reader.rs: read", "src/sample/sample_struct.rs: from_csv, from_svmlight", "src/weak_learner/decision_tree/decision_tree_algorithm.rs: produce, full_tree", "src/weak_learner/decision_tree/bin.rs: cut", "src/booster/graph_separation_boosting/graph_separation_algorithm.rs: boost, preprocess"]}
{"id": "C111", "title": "Decision trees with the criterion Gini in f64: no panic with moderate weights, and a useful split", "statement": "With the criterion Gini and the arithmetic of f64: (a) if no positive weight is below 10^-6, training never panics (C94 shows that it does panic with smaller weights) and every returned tree answers every row with a number in [-1, 1]; (b) however small the weights are, every tree that training returns has an edge that is, up to 4\u00b710^-5, at least the square of the edge of every test `column < boundary of a bin`; (c) AdaBoost on these trees, also in f64, makes the training error shrink geometrically when in every round the weights stay above 10^-6 and some test keeps an edge; (d) GraphSepBoost on these trees, also in f64 and on at most 900 rows, never makes training panic and predicts every label when a vote over the tests separates the rows with margin at least 1/100.", "quantifier": "all samples of up to 10^5 rows with \u00b11 labels and moderate columns (900 rows in (d)), all weights, all depths \u2265 1, all orders of the hash maps and all divisions of the parallel sums", "why_tests_cant": "The sums are rounded and updated by subtraction while the threshold moves; whether a label's rest is lost or becomes noise depends on the weights and on the order of the additions, which a test cannot enumerate.", "anchors": ["src/weak_learner/decision_tree/criterion.rs: best_split, split_by_gini, gini_impurity", "src/weak_learner/decision_tree/decision_tree_algorithm.rs: produce, full_tree", "src/booster/adaboost/adaboost_algorithm.rs: boost", "src/booster/graph_separation_boosting/graph_separation_algorithm.rs: boost"]}
{"id": "C112", "title": "AdaBoostV in f64 keeps sound weights and its margin guarantee", "statement": "AdaBoostV computed with f64 (parallel sums in any division, exp and ln accurate to 2^-50): with at most 10^5 examples with labels \u00b11, at most 900 rounds, a tolerance \u03bd \u2265 0.01 and a learner whose hypotheses answer in [-1, 1] and have edges in [g, 0.95], g \u2265 \u03bd + 10^-8: all the weights handed to the learner are finite, positive and sum to one up to rounding, run does not panic, the learner is called once per round, and the confidence of the returned vote, as it is computed, has margin at least g \u2212 \u03bd \u2212 max(ln m \u2212 T\u03bd\u00b2/2, 0)/(T\u03bd) \u2212 10^-5/\u03bd on every example. With the number of rounds T that the code computes for itself in f64 this is at least g \u2212 \u03bd \u2212 \u03bd/(2T) \u2212 2\u00b710^-5/\u03bd, and when that is positive every training label is predicted.", "quantifier": "all samples of up to 10^5 examples, all learners with such edges, all tolerances \u2265 0.01, all limits up to 900 rounds, all divisions of the parallel sums and all such exp and ln", "why_tests_cant": "The margin depends on the errors of all the rounds, which feed back through the distribution, the running minimum of the edges and the computed limit; a test sees one run with one schedule on one machine's libm.", "anchors": ["src/booster/adaboostv/adaboostv_algorithm.rs: boost, update_params, preprocess, max_loop, postprocess", "src/hypothesis/weighted_majority.rs: from_slices, confidence"]}
{"id": "C113", "title": "AdaBoostV and AdaBoost on decision trees in f64 succeed when a vote over tests does", "statement": "Boosting decision trees with the criterion edge, booster and learner both in f64, on a sample for which some vote over the tests `column < boundary of a bin` has margin \u03b8 on every row: with AdaBoostV (tolerance \u03bd \u2265 0.01, \u03b8\u00b2 \u2265 \u03bd + 4\u00b710^-5, at most 900 rounds, no tree's edge above 0.95) training never panics, the learner is called once per round and the returned vote of trees has a margin of at least \u03b8\u00b2 \u2212 \u03bd \u2212 max(ln m \u2212 T\u03bd\u00b2/2, 0)/(T\u03bd) \u2212 4\u00b710^-5 \u2212 10^-5/\u03bd on every row; with AdaBoost (\u03b8\u00b2 \u2265 0.002, no tree's edge above 0.998) the fraction of wrong rows is at most 1.001(\u221a(1 \u2212 (\u03b8\u00b2 \u2212 3\u00b710^-5)\u00b2) + 10^-5)^T. Also in f64 no returned tree has more than max_depth tests on any way from the root to a leaf.", "quantifier": "all samples of up to 10^5 rows with \u00b11 labels and moderate columns, all depths \u2265 1, all tolerances, limits up to 900 rounds, all divisions of the parallel sums, all orders of the hash maps", "why_tests_cant": "The assumption is about the sample only, the conclusion about every weighting that a run may produce and about the rounding in both components; tests cover single runs.", "anchors": ["src/booster/adaboostv/adaboostv_algorithm.rs: boost", "src/booster/adaboost/adaboost_algorithm.rs: boost", "src/weak_learner/decision_tree/decision_tree_algorithm.rs: produce, full_tree", "src/weak_learner/decision_tree/criterion.rs: split_by_edge"]}
{"id": "C114", "title": "LPBoost with a solver of finite accuracy", "statement": "When the linear-program solver is not exact but leaves residuals of up to \u03b5 (constraints, multipliers, stationarity, reported value): no call of LPBoost's boost panics and the vector handed to the weak learner has m entries \u2265 \u2212\u03b5 with a total within \u03b5 of 1; if the weak learner always reaches an edge \u2265 \u03c1, the returned vote has weights that form a probability vector and a margin of at least \u03c1 \u2212 tolerance \u2212 (\u03bdm + 2T + 2)\u03b5 on every row (T = number of calls); with the best hypothesis of a class the vote is within tolerance + (\u03bdm + 2m + 2T + 3)\u03b5 of the margin of every convex vote over the class; and over a finite class C training returns within |C| + 1 calls provided that tolerance \u2265 (\u03bdm + 2m + 2|C| + 9)\u03b5. Some such condition is needed: for every tolerance < \u03b5 there is an \u03b5-accurate solver, a sample of two rows and a learner for which training never returns.", "quantifier": "all samples, all weak learners with confidences in [-1,1], all \u03bd, all tolerances, all solvers whose residuals are at most \u03b5, all 0 \u2264 \u03b5 < 1", "why_tests_cant": "An interior-point solver returns a different inexact answer on each platform and version; a test observes one.", "anchors": ["src/booster/lpboost/lp_model.rs: update", "src/booster/lpboost/lpboost_algorithm.rs: boost, postprocess", "src/hypothesis/weighted_majority.rs: from_slices"]}
{"id": "C115", "title": "MLPBoost: the guarantee does not depend on the solver, the success does", "statement": "Whatever vectors (of the right lengths) the linear-program solver returns to MLPBoost (default or classic strategy, tolerance \u2265 2\u00b710^-5, 1 \u2264 \u03bd < m), training ends after at most \u23088 ln(m/\u03bd)/(tolerance/2)\u00b2\u2309 calls of the weak learner, each with a distribution capped at 1/\u03bd, in one of two ways: it panics at the check that the weights lie in the simplex, or it returns a vote with a probability vector as weights whose edge is at least \u03c1 \u2212 tolerance\u00b7(1 + 10^-5) \u2212 10^-5 under every distribution capped at 1/\u03bd, \u03c1 being the edge that the weak learner always reaches. The panic cannot be excluded by accuracy: for every \u03b5 > 0 there is a solver with residuals of at most \u03b5, a sample of two rows and a learner of two hypotheses on which MLPBoost panics in the second round, for every perturbation, because an adopted solver weight above 1 is rejected without tolerance.", "quantifier": "all solvers (no accuracy assumed), all perturbations, all samples, all weak learners with margins in [-1,1], all \u03bd in [1,m), all tolerances \u2265 2\u00b710^-5", "why_tests_cant": "The solver's answers differ between platforms and versions and may be arbitrarily bad; the guarantee must hold for all of them.", "anchors": ["src/booster/mlpboost/mlpboost_algorithm.rs: boost, better_weight", "src/booster/mlpboost/perturbed_lp_model.rs: update", "src/common/checker.rs: check_capped_simplex_condition", "src/common/frank_wolfe.rs: classic, short_step"]}
{"id": "C116", "title": "SoftBoost and TotalBoost with a solver of finite accuracy", "statement": "When the conic solver is not exact but leaves residuals of up to \u03b5 (constraints, multipliers, stationarity, reported value), and answers programs without a solution with a non-positive entry: no round of SoftBoost panics or hangs; every vector handed to the weak learner has one positive entry per row and a total within \u03b5 of 1; as long as training goes on, the new vector gives every hypothesis collected so far an edge of at most the target + \u03b5; training returns for every valid sample, nonzero tolerance and 1 \u2264 \u03bd < m; and the returned vote is a convex combination of the collected hypotheses whose soft margin is within (m/\u03bd + 2m + 2T + 7)\u03b5 of the best soft margin of any convex combination of them (m rows, T rounds), certified by an exactly capped distribution. TotalBoost is the case \u03bd = 1.", "quantifier": "all samples, all weak learners (with confidences in [-1,1] for the last part), all \u03bd, all tolerances, all solvers whose residuals are at most \u03b5, all 0 \u2264 \u03b5 < 1", "why_tests_cant": "An interior-point solver returns a different inexact answer on each platform and version; a test observes one.", "anchors": ["src/booster/softboost/qp_model.rs: update, weights", "src/booster/softboost/softboost_algorithm.rs: boost, postprocess", "src/booster/totalboost/totalboost_algorithm.rs", "src/hypothesis/weighted_majority.rs: from_slices"]}
{"id": "C117", "title": "ERLPBoost with a solver of finite accuracy", "statement": "When the conic solver is not exact but leaves residuals of up to \u03b5 (constraints, multipliers, stationarity, reported value): every weight vector ERLPBoost hands to the weak learner has one nonnegative entry per row, none above 1/\u03bd + \u03b5, and a total within (m+1)\u03b5 of 1. If moreover the solver reports success whenever a program has a solution, the confidences are in [-1,1], \u03b5 \u2264 1/2 and (m + 2T + 4)\u03b5 \u2264 900 (m rows, T the limit on the rounds): no round panics, the inner optimisation loop always ends (after at most (1004+5m)\u00b710\u2079+2 solves), and training returns a convex combination of the hypotheses it was given, after at most T calls of the weak learner, unless the first hypothesis has an edge of at most tolerance/2 - 1 under the uniform weights.", "quantifier": "all samples, all weak learners, all \u03bd and tolerances in range, all solvers whose residuals are at most \u03b5, all \u03b5 in the stated range", "why_tests_cant": "An interior-point solver returns a different inexact answer on each platform and version; a test observes one.", "anchors": ["src/booster/erlpboost/qp_model.rs: update", "src/booster/erlpboost/erlpboost_algorithm.rs: preprocess, boost, postprocess", "src/hypothesis/weighted_majority.rs: from_slices"]}
{"id": "C118", "title": "SmoothBoost keeps its guarantees in f64", "statement": "SmoothBoost computed in binary64 on at most 10^5 examples with \u00b11 labels, 10^-30 \u2264 \u03ba < 1 and 0 \u2264 \u03b3 < 1/2, with any weak learner whose hypotheses answer with numbers in [-1,1]: training returns, after at least one and at most limit rounds (limit = the number the code computes); every weight vector handed out consists of finite nonnegative doubles, sums to 1 up to 10^-8 and no entry exceeds (1+10^-8)/(\u03ba m); the result is the equal vote (up to 10^-8) over the first m hypotheses. If \u03ba\u03b3\u00b2\u221a(1-\u03b3) \u2265 3\u00b710^-6 and on all such weights the learner has an edge of at least 2\u03b3, fewer than 2/(\u03ba\u03b3\u00b2\u221a(1-\u03b3)) rounds are made, and if at most m rounds were made (which m \u2265 2/(\u03ba\u03b3\u00b2\u221a(1-\u03b3)) ensures) at most (1+10^-7) \u03ba m/\u221a(1-\u03b3) training examples are misclassified.", "quantifier": "all samples, all weak learners, all \u03ba and \u03b3 in range, all powf implementations with relative error at most 2^-50", "why_tests_cant": "The counters are accumulated with a rounding error each round, and powf, the normalisation and the iteration limit are rounded; the stop test compares rounded sums. A test runs one sample on one platform.", "anchors": ["src/booster/smoothboost/smoothboost_algorithm.rs: theta, max_loop, check_preconditions, preprocess, boost, postprocess", "src/hypothesis/weighted_majority.rs: from_slices, confidence"]}
{"id": "C119", "title": "SmoothBoost on decision trees keeps its guarantees in f64", "statement": "SmoothBoost and the decision tree learner, both computed in binary64, on a well-formed sample with at least one column, 1 to 10^5 rows, moderate values and \u00b11 labels, with any splitting criterion but Gini: training returns after at most limit rounds; every weight vector the trees were trained on was smooth, every training of a tree succeeded, and the result is the equal vote over the first m trees. With the criterion edge and max_depth \u2265 1, if a vote over the tests 'column < boundary of a bin' has margin \u03b8 on every row and 2\u03b3 \u2264 \u03b8\u00b2 - 3\u00b710^-5 and \u03ba\u03b3\u00b2\u221a(1-\u03b3) \u2265 3\u00b710^-6, then fewer than 2/(\u03ba\u03b3\u00b2\u221a(1-\u03b3)) rounds are made, and if these are at most m, at most (1+10^-7) \u03ba m/\u221a(1-\u03b3) of the m rows are misclassified by the returned vote of trees.", "quantifier": "all samples, bins, depths, \u03ba and \u03b3 in range, all HashMap orders and tie-breaks of the tree learner, all ln and powf implementations of bounded error", "why_tests_cant": "The trees are trained on weights that may be exactly 0 and up to 1/(\u03bam), and the run composes two rounded programs; a test sees one data set.", "anchors": ["src/booster/smoothboost/smoothboost_algorithm.rs: preprocess, boost, postprocess", "src/weak_learner/decision_tree/decision_tree_algorithm.rs: produce, full_tree", "src/hypothesis/weighted_majority.rs: confidence"]}
{"id": "C120", "title": "MadaBoost keeps its guarantees in f64, or panics", "statement": "MadaBoost computed in binary64 (any thread schedule, any sorting of equal scores, exp and ln of relative error 2^-50) on 1 to 10^5 examples with \u00b11 labels and at most 3000 rounds: with a weak learner that answers in [-1,1] and has edges of at least -(1-10^-5), boosting never panics and every weight vector handed out consists of finite non-negative doubles with sum 1 \u00b1 3\u00b710^-6. With edges of at least 10^-4 and at least one round allowed, run returns; in every round the weights are exp(min(1, 1/m + \u03a3 step\u00b7y\u00b7h(x))) normalised, up to the factor 1 \u00b1 10^-5, with the step \u221a(\u03b5'/(1-\u03b5')), \u03b5' = \u221a(\u03b5/2), of the measured edge, which is the true edge up to 10^-9; either all rounds were made and the confidence is the vote with the weights ln(1/step) up to 10^-5, or a perfect hypothesis (edge 1 - 10^-9 or more) is returned alone. With decision trees of any criterion but Gini boosting never panics; with the criterion edge and a vote over the tests of margin \u03b8, \u03b8\u00b2 \u2265 13\u00b710^-5, run returns. Without a bound on the edges this fails: with two examples, a correctly rounded library and a learner that is always wrong, MadaBoost always panics in the first round (its assertion on the error), although with exact arithmetic it never does.", "quantifier": "all samples, learners, numbers of rounds, schedules, sorted orders and math libraries in the stated ranges", "why_tests_cant": "Rounding errors accumulate over all rounds and scores, and the panic depends on the last bit of a sum; a test sees one library on a few samples.", "anchors": ["src/booster/madaboost/madaboost_algorithm.rs: preprocess, boost, update_params, beta2distribution, postprocess", "src/hypothesis/weighted_majority.rs: from_slices, confidence"]}
{"id": "C121", "title": "Regression trees computed in f64: a tree is always returned and fits its leaves", "statement": "Training a regression tree in binary64 (any division of the parallel sums, any choice among equal best splits) on a sample with at least one row and one column, all columns of moderate size: with the squared loss and any regulariser and any predictions \u2014 even infinite ones or NaN \u2014 and with the absolute loss and a regulariser that is not zero and not NaN, training never panics; the tree tests no point more than max_depth - 1 times and answers every row. With the squared loss, at most 10^5 rows, targets, predictions and regulariser (non-negative) of at most 10^12: every answer is the sum of the residuals of the rows that share its leaf divided by their number plus the regulariser, up to a relative 10^-10 of the sum of their absolute values; adding the answers to the predictions multiplies the squared error by at most 1 + 10^-9 (plus 10^-40). With the absolute loss and a positive regulariser, predictions different from the targets: every answer is the correctly rounded quotient of (number of rows of the leaf below their prediction minus number above) and the regulariser, so it points away from the targets. With the absolute loss and the regulariser 0, training panics on two rows with equal values, targets 1 and -1 and predictions 0.", "quantifier": "all samples, numbers of bins, depths, losses, regularisers, predictions, divisions of the parallel sums and tie breaks", "why_tests_cant": "The errors of a sum grow with the number of rows and depend on how rayon divides it; a test fixes one sample and sees one schedule.", "anchors": ["src/weak_learner/regression_tree/regression_tree_algorithm.rs: RegressionTree::produce, full_tree, best_split, best_split_at, prediction_and_loss", "src/weak_learner/regression_tree/bin.rs: Bins::pack, remove_zero_weight_pack_and_normalize", "src/weak_learner/regression_tree/builder.rs: RegressionTreeBuilder", "src/common/loss_functions.rs: GBMLoss"]}
{"id": "C122", "title": "Gradient boosting with the squared loss overshoots by the number of rounds", "statement": "GBM with the squared loss, any weak learner, any sample (exact arithmetic): the predictions that the weak learner is handed in round i + 1 sum to i times the sum of the targets, so after n rounds the accumulated predictions have a squared error of at least ((n - 1) * sum of targets)^2 / number of examples, which grows without bound as rounds are added. A run never stops before its last allowed round. If the targets sum to zero, no run returns a model. With the crate's own regression trees (squared loss, any depth, any regulariser, any valid sample) no run that is allowed two or more rounds returns a model: after the first round the predictions have the same sum as the targets, the second tree is the constant zero, and the line search panics.", "quantifier": "all samples, weak learners, round limits; for the trees all depths, regularisers, bins and orders of the parallel choice of a best column", "why_tests_cant": "The claim is about every weak learner and every number of rounds; a test runs one learner on one file and only prints the loss.", "anchors": ["src/booster/gradient_boost/gbm.rs: GBM::boost", "src/common/loss_functions.rs: GBMLoss::best_coefficient", "src/weak_learner/regression_tree/regression_tree_algorithm.rs: RegressionTree::full_tree"]}
{"id": "C123", "title": "Gradient boosting in f64: it ends with one result, overshoots, and may panic", "statement": "GBM computed in binary64, both losses, any weak learner: a run ends, has one result whatever the schedule of the parallel update, and asks the learner at most 100 times (neither tolerance nor loss changes the limit). The line search of the squared loss panics exactly when the computed sum of the outputs is zero; that of the absolute loss returns exactly when one output is not zero, or several are not and none is NaN (its unreachable!() is never reached), and its coefficient is a rounded quotient of a target and an output. Squared loss, integer targets of absolute sum below 2^53 that sum to zero: no run returns a model, whatever the learner. Squared loss with one-leaf regression trees (max_depth 1, regulariser 0), integer targets (absolute sum below 2^52) with an integer mean: no run returns a model, for any number of rows. Squared loss, at most 10^5 examples, targets and predictor outputs non-negative, at most 10^10, with a sum of at least 1/10: a run makes all 100 rounds and returns 100 predictors; the predictions handed out in round i + 1 sum to i times the sum of the targets up to a relative 10^-8, so their squared error is at least ((i - 1 - i/10^8) * sum)^2 / number of examples.", "quantifier": "all samples, weak learners, losses, schedules, and for the trees all divisions of the parallel sums and tie breaks", "why_tests_cant": "The claims cover every learner and every sum order; rounding errors accumulate over 100 rounds and 10^5 examples.", "anchors": ["src/booster/gradient_boost/gbm.rs: GBM", "src/common/loss_functions.rs: GBMLoss::best_coefficient, weighted_median", "src/weak_learner/regression_tree/regression_tree_algorithm.rs: RegressionTree::produce", "src/hypothesis/weighted_majority.rs: WeightedMajority::from_slices"]}
{"id": "C124", "title": "Gradient boosting in f64: the coefficient for the absolute loss is almost optimal, and the learner sees the sum of the rounds", "statement": "GBM computed in binary64. Absolute loss, at most 10^5 examples, targets of at most 10^10 in absolute value, outputs zero or between 10^-10 and 10^10 in absolute value, one of them not zero: the line search returns a finite coefficient c, and for every number t the sum of |y - c p| is at most (1 + 10^-7) times the sum of |y - t p| plus 10^-15 times the sum of |y| plus 10^-38. Both losses, any sample and weak learner: if a run returns, the result is from_slices of at most 100 coefficients and predictors, the i-th predictor is the learner's answer to the values the earlier ones add up to (each operation rounded, in the order of the rounds), its coefficient is the line search's answer and not zero; the learner is handed exactly these values, and the run ends after 100 rounds or at the first coefficient zero.", "quantifier": "all samples, targets, outputs, weak learners, losses, numbers t", "why_tests_cant": "Optimality ranges over all coefficients and all data; the history over all learners and runs.", "anchors": ["src/booster/gradient_boost/gbm.rs: GBM::boost", "src/common/loss_functions.rs: GBMLoss::best_coefficient, weighted_median"]}
{"id": "C125", "title": "CERLPBoost in f64: no numerical panic, sound distributions, margins within the tolerance", "statement": "CERLPBoost computed in binary64 with nu = 1, half of the tolerance h in [0.002, 0.5] (default 0.005), the default short steps or the classic steps, 2 to 10^5 examples with labels 1 and -1, hypotheses with confidences in [-1, 1] (equal ones answering alike), and an exponential that is at most one for arguments up to zero. Every run ends after at most about 8 ln n / h^2 questions. Every weight vector handed to the learner consists of f64 numbers in [0, 1] with sum one up to 4e-6 (no NaN, no failing assertion). The run returns a vote with non-negative weights of sum one up to 3e-6, or it panics, and then only because the first answer has, for weights within 3e-5 of the uniform ones, an edge of at most h (+1e-8); an edge below h - 1e-8 does make it panic. If the learner has edge at least rho for all almost-distributions and the run stops before the limit, every training example has a computed margin of at least rho - 2h - 1e-4 under the returned vote, so for rho > 2h + 1e-4 the vote makes no mistake on the training set.", "quantifier": "all samples, tolerances, weak learners, platform exp/ln within their error bounds, and runs of any length up to the limit", "why_tests_cant": "Rounding errors accumulate over up to 2.4*10^7 rounds and depend on the data; a test sees one data set and one platform.", "anchors": ["src/booster/cerlpboost/cerlpboost_algorithm.rs: CERLPBoost::boost, preprocess, max_loop, regularization_param", "src/common/frank_wolfe.rs: FrankWolfe::next_iterate, classic, short_step, interior_point", "src/common/utils.rs: exp_distribution_from_margins, margins_of_weighted_hypothesis, edge_of_hypothesis, edge_of_weighted_hypothesis", "src/common/checker.rs: check_capped_simplex_condition, check_stepsize", "src/hypothesis/weighted_majority.rs: WeightedMajority::from_slices"]}
{"id": "C126", "title": "CERLPBoost in f64 with a cap: capped distributions, soft margin, fewer than nu mistakes", "statement": "CERLPBoost computed in binary64 with 1 <= nu <= 0.99 n, half of the tolerance h in [0.002, 0.5], the default short steps or the classic steps, 2 to 10^5 examples with labels 1 and -1, and hypotheses with confidences in [-1, 1]. Whenever a run returns: every weight vector handed to the learner consists of f64 numbers between 0 and 1/nu (up to a relative 1e-15) with sum one up to 1.1e-5; at most about 8 ln(n/nu)/h^2 questions were asked; the weights of the returned vote are non-negative with sum one up to 3e-6. If moreover the learner has edge at least rho for all such weights and the run stopped before the limit, the computed confidences of the returned vote have mean margin at least rho - 2h - 1e-4 under every distribution capped at 1/nu (the soft margin), so for rho > 2h + 1e-4 fewer than nu training examples are classified wrongly. Calls of nu, tolerance and fw_type in any number and order lead to these parameters (the last call of each counts); nu panics exactly for arguments outside [1, n] (also NaN), and rejected labels make every run panic.", "quantifier": "all samples, caps, tolerances, weak learners, platform exp/ln within their error bounds, returning runs of any length up to the limit, and all capped distributions", "why_tests_cant": "Rounding errors accumulate over up to 2.4*10^7 rounds, and the soft margin is a statement about all capped distributions; a test sees one data set and a few distributions.", "anchors": ["src/booster/cerlpboost/cerlpboost_algorithm.rs: CERLPBoost::boost, preprocess, nu, max_loop, regularization_param", "src/common/frank_wolfe.rs: FrankWolfe::next_iterate, classic, short_step, interior_point", "src/common/utils.rs: exp_distribution_from_margins, project_log_distribution_to_capped_simplex", "src/common/checker.rs: check_capped_simplex_condition, check_stepsize", "src/hypothesis/weighted_majority.rs: WeightedMajority::from_slices"]}
{"id": "C127", "title": "CERLPBoost on decision trees, all in f64", "statement": "CERLPBoost in binary64 (parameters as in C125) on decision trees trained in binary64 (any criterion but Gini, columns of moderate size, up to 10^5 rows): every run ends, no call of the tree learner panics, every hypothesis is a tree that training on an almost-distribution may produce (under any order of the hash maps and any division of the parallel sums), and the run returns a vote or panics because the first tree has an edge of at most half of the tolerance. With the criterion edge, depth at least one, and a vote over the tests 'column < boundary of a bin' of margin theta on every row with theta^2 > h + 1e-4, every run returns; if it returns before the limit of the iterations, every row has a computed margin of at least theta^2 - tolerance - 2e-4, so there are no training mistakes for theta^2 > tolerance + 2e-4. With a cap (parameters as in C126) a run that returns before the limit makes fewer than nu mistakes. Trees that compare equal with == are the same tree, so merging them in the vote is harmless.", "quantifier": "all samples, tolerances, caps, trees that training may return, platform exp/ln within their error bounds, and runs of any length", "why_tests_cant": "Rounding in the projection, in the training of each tree and in the vote interact over millions of rounds; hash-map order and work division make the trees nondeterministic.", "anchors": ["src/booster/cerlpboost/cerlpboost_algorithm.rs: CERLPBoost::boost", "src/weak_learner/decision_tree/decision_tree_algorithm.rs: DecisionTree::produce", "src/weak_learner/decision_tree/node.rs: Node (PartialEq)", "src/weak_learner/common/split_rule.rs: Splitter (PartialEq)", "src/common/frank_wolfe.rs: FrankWolfe::next_iterate"]}
{"id": "C128", "title": "From a file to CERLPBoost, SmoothBoost and MadaBoost, all in f64", "statement": "For a CSV or svmlight file of 0/1 cells and labels +-1 (up to 10^5 rows) on which a vote over the columns has margin theta on every row: SampleReader reads it, DecisionTreeBuilder with the criterion edge and any positive depth builds in binary64, training never panics, and (a) CERLPBoost in binary64 with its default parameters returns for theta >= 1/8, and if it stopped before the limit of the iterations the returned vote predicts the label of every row of the file; (b) SmoothBoost in binary64 with .tolerance(kappa) and .gamma(gamma), 2 gamma <= theta^2 - 3e-5, returns after fewer than 2/(kappa gamma^2 sqrt(1-gamma)) rounds and, if these are at most as many as the rows, is wrong on at most (1+1e-7) kappa m/sqrt(1-gamma) of the m rows; (c) MadaBoost in binary64 with .force_quit_at(T), 1 <= T <= 3000, returns for theta >= 1/80 a vote whose confidence on every row is a number of absolute value at most 1 + 1e-5. All whichever trees the calls of the learner return (order of the hash maps, division of the parallel sums).", "quantifier": "all files of the described kind, depths, parameters, trees that training may return, platform exp/ln/powf within their error bounds", "why_tests_cant": "The whole pipeline parse -> bins -> trees -> booster -> prediction, each stage rounding, over every file and every nondeterministic choice.", "anchors": ["src/sample/sample_reader.rs: SampleReader::read", "src/weak_learner/decision_tree/builder.rs: DecisionTreeBuilder::build", "src/booster/cerlpboost/cerlpboost_algorithm.rs: CERLPBoost", "src/booster/smoothboost/smoothboost_algorithm.rs: SmoothBoost", "src/booster/madaboost/madaboost_algorithm.rs: MadaBoost"]}
{"id": "C129", "title": "The objective functions in f64", "statement": "Evaluated in binary64 on up to 10^5 rows with labels +-1 (for the hard margin any number of rows): if every confidence is a finite number of absolute value at most two, SoftMarginObjective with 1 <= nu <= m returns a number within 1e-9 of the soft margin, the least average margin under a distribution with entries at most 1/nu; HardMarginObjective returns exactly the least margin; a NaN confidence (with at least two rows) and a nu that is NaN or outside [1, m] make the evaluation panic. ExponentialLoss returns, whatever the confidences are (NaN included), a number within 1e-8 of e k/m + (m-k)/(e m), where k of the m rows are predicted wrongly, and never less than the error rate. For the vote that a run of CERLPBoost in binary64 returns (parameters as in C126), the soft-margin objective with the same nu returns a number, which is at least rho - tolerance - 11e-5 if the learner always finds an edge of at least rho and the run returned before the limit of the iterations.", "quantifier": "all samples, hypotheses, confidences, nu, platform exp/ln within their error bounds, and runs of CERLPBoost", "why_tests_cant": "The weight that is left is decreased by the rounded 1/nu up to 10^5 times, so the loop may take one row more or less than the exact one; a test looks at a few nu.", "anchors": ["src/research/objective_functions.rs: SoftMarginObjective::eval", "src/research/objective_functions.rs: HardMarginObjective::eval", "src/research/objective_functions.rs: ExponentialLoss::eval", "src/common/checker.rs: check_nu", "src/hypothesis/hypothesis_traits.rs: Classifier::predict"]}
{"id": "C130", "title": "MLPBoost in f64, with any LP solver", "statement": "MLPBoost run in binary64, with 2 to 10^5 examples labelled +-1, half tolerance h in [0.002, 0.5], nu in [1, 0.99 m] and confidences in [-1, 1], whatever the LP solver answers (NaN, infinite and non-normalised numbers included, as long as it gives one number per hypothesis) and whatever step the exact line searches compute: a run that returns has shown the weak learner only distributions within rounding of the capped simplex, at most 8 ln(m/nu)/h^2 + 1.001 of them; its vote weights are finite, nonnegative, with a sum within 5e-5 of one, and every confidence of the vote on an example is a finite number of absolute value at most 1.01. If it stops before the limit of the iterations and the learner's answers always have an edge of at least rho, every capped distribution gives the vote an average margin of at least rho - 2h - 2.3e-4 - h/(1000 ln(m/nu)), so fewer than nu examples are predicted wrongly when rho exceeds that. A nu that is NaN or outside [1, m] is refused; labels other than +-1 make the run panic; the setters reach the parameters of the claim.", "quantifier": "all samples, learners, LP solvers (any function), line searches, hypotheses, platform exp/ln within their error bounds, and runs", "why_tests_cant": "The LP solver is an external numeric program with random perturbations; a test sees one solver. That the check on the weights and the comparison of the rounded objectives are enough is a statement about every answer the solver could give.", "anchors": ["src/booster/mlpboost/mlpboost_algorithm.rs: MLPBoost::boost", "src/booster/mlpboost/mlpboost_algorithm.rs: MLPBoost::objval", "src/booster/mlpboost/mlpboost_algorithm.rs: MLPBoost::better_weight", "src/booster/mlpboost/mlpboost_algorithm.rs: MLPBoost::max_loop", "src/booster/mlpboost/mlpboost_algorithm.rs: MLPBoost::nu", "src/common/checker.rs: check_capped_simplex_condition", "src/common/utils.rs: entropy_from_uni_distribution"]}
{"id": "C131", "title": "In f64 too, a booster object can be run again", "statement": "For AdaBoost, AdaBoostV, MadaBoost, SmoothBoost, GraphSepBoost, CERLPBoost, MLPBoost and GBM in binary64: after any number of earlier runs of the same object on the same sample, finished or abandoned between two rounds, each with a weak learner of its own, the next run has exactly the possible results (returned hypothesis, panic, and the distributions or predictions shown to the learner) that it has on an object with the same settings that has never been run. Where the parallel sums of rayon allow several results, the sets of the possible results are the same.", "quantifier": "all samples (invalid labels included), settings, earlier histories, weak learners, platform exp/ln, LP solvers, orders of the parallel sums", "why_tests_cant": "A test runs an object twice with one learner; a leftover NaN, prediction or limit of the iterations from an abandoned run matters only for some histories.", "anchors": ["src/booster/core.rs: Booster::run", "src/booster/adaboost/adaboost_algorithm.rs: AdaBoost::preprocess", "src/booster/adaboostv/adaboostv_algorithm.rs: AdaBoostV::preprocess", "src/booster/madaboost/madaboost_algorithm.rs: MadaBoost::preprocess", "src/booster/smoothboost/smoothboost_algorithm.rs: SmoothBoost::preprocess", "src/booster/graph_separation_boosting/graph_separation_algorithm.rs: GraphSepBoost::preprocess", "src/booster/cerlpboost/cerlpboost_algorithm.rs: CERLPBoost::preprocess", "src/booster/mlpboost/mlpboost_algorithm.rs: MLPBoost::preprocess", "src/booster/gradient_boost/gbm.rs: GBM::preprocess"]}
{"id": "C132", "title": "MLPBoost on decision trees and from a file in f64, and the objective of its vote, with any LP solver", "statement": "MLPBoost in binary64 (parameters as in C130, any answers of the LP solver of the right length) on decision trees trained in binary64 with the criterion edge and a positive depth: in a run that returns, every question is within rounding of the capped simplex, no call of the tree learner panics and every hypothesis is a tree that training may produce; if a vote over the tests of the trees has margin theta on every row, theta^2 > tolerance + 2.7e-4 + h/(1000 ln(m/nu)), and the run returned before the limit of the iterations, fewer than nu rows are predicted wrongly. For a CSV or svmlight file of 0/1 cells and labels +-1 (2 to 10^5 rows) on which a vote over the columns has margin theta >= 1/8: it is read, the trees are configured, and a run of MLPBoost with its default parameters that returns before the limit predicts the label of every row of the file. Whatever the learner is, the soft-margin objective with the same nu evaluates in binary64 to a number on the vote of every run that returns, and it is at least rho - tolerance - 2.4e-4 - h/(1000 ln(m/nu)) if the learner's edges are at least rho and the run returned before the limit.", "quantifier": "all files and samples of the described kind, depths, tolerances, caps, LP solvers, trees that training may return, platform exp/ln within their error bounds, and runs", "why_tests_cant": "The pipeline rounds in every stage and contains an external solver with random perturbations and hash maps of random order; a test sees one of the outcomes.", "anchors": ["src/booster/mlpboost/mlpboost_algorithm.rs: MLPBoost", "src/weak_learner/decision_tree/decision_tree_algorithm.rs: DecisionTree::produce", "src/sample/sample_reader.rs: SampleReader::read", "src/weak_learner/decision_tree/builder.rs: DecisionTreeBuilder::build", "src/research/objective_functions.rs: SoftMarginObjective::eval"]}
