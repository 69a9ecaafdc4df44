import json
P=[]
def p(title,statement,quantifier,why,anchors):
    P.append(dict(id="C%02d"%(len(P)+1),title=title,statement=statement,quantifier=quantifier,why_tests_cant=why,anchors=anchors))

B="src/booster/"; W="src/weak_learner/"
p("AdaBoost always hands the weak learner a probability distribution",
  "In every round of AdaBoost the weight vector passed to the weak learner has one strictly positive entry per training example and its entries sum to 1.",
  "every training sample, every weak learner (as an arbitrary function of the weights and of the past), every round",
  "A test runs a handful of rounds on a handful of weak learners; the claim is an invariant over every history of hypotheses.",
  [B+"adaboost/adaboost_algorithm.rs:AdaBoost::update_params", B+"adaboost/adaboost_algorithm.rs:AdaBoost::preprocess"])
p("AdaBoost weights are the exponential weights of the past votes",
  "The weight of example i in round t+1 is proportional to exp(-y_i * sum over past rounds of (vote weight)*(hypothesis output on x_i)); the renormalisation done each round never changes these proportions.",
  "every sample, every sequence of hypotheses with edges strictly inside (-1,1), every round",
  "It is a closed form for an unbounded history; tests compare finitely many rounds.",
  [B+"adaboost/adaboost_algorithm.rs:AdaBoost::update_params"])
p("AdaBoost makes the last hypothesis useless",
  "After a round with a {-1,+1}-valued hypothesis whose edge lies strictly inside (-1,1), that hypothesis has edge exactly 0 under the new weights, so the weak learner cannot return it again with a positive edge.",
  "every sample with labels in {-1,+1}, every {-1,+1}-valued hypothesis, every current distribution",
  "It is an identity over all real distributions.",
  [B+"adaboost/adaboost_algorithm.rs:AdaBoost::update_params"])
p("AdaBoost stops",
  "AdaBoost calls the weak learner at most max_loop times, where max_loop is floor(ln(m)/tolerance^2) or the user's force_quit_at when set, whatever the weak learner returns.",
  "every sample, every weak learner, every tolerance > 0 and every force_quit_at",
  "Termination for an arbitrary weak learner is a statement about all executions.",
  [B+"adaboost/adaboost_algorithm.rs:AdaBoost::boost", B+"adaboost/adaboost_algorithm.rs:AdaBoost::max_loop", B+"core.rs:Booster::run"])
p("AdaBoost training error bound",
  "If every round returned a {-1,+1}-valued hypothesis of edge g_t in (0,1), the fraction of training examples misclassified by the returned combined hypothesis is at most the product of sqrt(1-g_t^2); hence with every g_t >= g the fraction is below 1/m -- the sample is classified perfectly -- after more than 2 ln(m)/g^2 rounds.",
  "every sample with +-1 labels, every sequence of hypotheses, every number of rounds",
  "The theorem the crate is used for; it quantifies over all weak learners and all round counts.",
  [B+"adaboost/adaboost_algorithm.rs:AdaBoost", "src/hypothesis/weighted_majority.rs:WeightedMajority::confidence"])
p("AdaBoost shortcut on a perfect hypothesis",
  "If the weak learner returns a hypothesis with edge >= 1 AdaBoost stops in that round and returns a combined hypothesis equivalent to that single hypothesis, discarding the earlier ones; a hypothesis with edge <= -1 (perfectly wrong) should likewise be usable with its sign flipped.",
  "every state reached, every hypothesis with |edge| >= 1",
  "Requires reasoning about every preceding history.",
  [B+"adaboost/adaboost_algorithm.rs:AdaBoost::boost", "src/hypothesis/weighted_majority.rs:WeightedMajority::from_slices"])
p("AdaBoostV keeps a distribution and stops",
  "AdaBoostV hands the weak learner a strictly positive probability vector in every round, calls it at most floor(2 ln(m)/tolerance^2) (or force_quit_at) times, and its internal margin target never increases from round to round.",
  "every sample, every weak learner, every tolerance > 0",
  "Invariant over unbounded histories.",
  [B+"adaboostv/adaboostv_algorithm.rs:AdaBoostV"])
p("Vote weights are normalised and non-negative",
  "A combined hypothesis built from weights and hypotheses keeps exactly the pairs with positive weight, in order, with weights divided by their sum: the weights of the result are positive and sum to 1; construction panics exactly when no weight is positive.",
  "all weight/hypothesis slices of any lengths",
  "All slices; the panic condition is an iff.",
  ["src/hypothesis/weighted_majority.rs:WeightedMajority::from_slices", "src/hypothesis/weighted_majority.rs:WeightedMajority::normalize", "src/common/utils.rs:normalize"])
p("Combined confidence is a convex combination",
  "The confidence of a combined hypothesis on any row lies between the smallest and the largest confidence of its members (hence in [-1,1] when theirs do), predict is +1 exactly when the confidence is >= 0 and -1 otherwise, and the batch versions agree row by row with the single-row versions.",
  "all combined hypotheses, samples and rows",
  "All member hypotheses and samples.",
  ["src/hypothesis/weighted_majority.rs:WeightedMajority::confidence", "src/hypothesis/hypothesis_traits.rs:Classifier"])
p("Scaling votes does not change predictions",
  "Multiplying all vote weights by the same positive constant, and normalising them or not, never changes any prediction of the combined hypothesis.",
  "all weights, hypotheses, rows and positive constants",
  "Universal over reals.",
  ["src/hypothesis/weighted_majority.rs:WeightedMajority"])
p("Projection returns a capped distribution",
  "Projecting any real log-weight vector of length n onto the nu-capped simplex (1 <= nu <= n) always finds a stopping point, never takes the logarithm of a non-positive number, and returns a vector whose entries are in [0,1/nu] and sum to 1.",
  "all log-weight vectors and all nu in [1,n]",
  "Real-valued universally quantified; sorting order and boundary nu make tests sample only few cases.",
  ["src/common/utils.rs:project_log_distribution_to_capped_simplex", "src/common/checker.rs:check_capped_simplex_condition"])
p("Projection is the relative-entropy projection",
  "The returned capped distribution minimises the relative entropy to the distribution proportional to exp(log weights) among all distributions with entries at most 1/nu, and preserves the order of the entries.",
  "all log-weight vectors, all nu, all competitor distributions",
  "Optimality is against every competitor.",
  ["src/common/utils.rs:project_log_distribution_to_capped_simplex"])
p("MadaBoost hands out a bounded distribution",
  "In every round MadaBoost hands the weak learner a strictly positive probability vector; the weights are proportional to exp(min(1, score)), so no example ever outweighs one whose score has reached the cap.",
  "every history",
  "Invariant over all histories.",
  [B+"madaboost/madaboost_algorithm.rs:MadaBoost"])
p("MadaBoost moves weight to mistakes",
  "When the weak learner returns a hypothesis with positive edge, MadaBoost does not raise the relative weight of a correctly classified example over that of a misclassified one with the same past.",
  "every state and hypothesis with positive edge",
  "All states.",
  [B+"madaboost/madaboost_algorithm.rs:MadaBoost::update_params"])
p("SmoothBoost is smooth",
  "Every weight vector SmoothBoost passes to the weak learner is a probability vector whose entries are at most 1/(kappa*m).",
  "every sample size, every kappa and gamma accepted by the precondition check, every weak learner",
  "Invariant over all histories.",
  [B+"smoothboost/smoothboost_algorithm.rs:SmoothBoost"])
p("SmoothBoost stops after finitely many rounds",
  "Whatever the weak learner returns, SmoothBoost stops within its iteration limit. If every hypothesis meets the documented weak-learning assumption (edge at least 2*gamma), it stops because its smoothness condition is reached, after fewer than 2/(kappa*gamma^2*sqrt(1-gamma)) calls, and the returned vote has margin above theta on more than a 1-kappa fraction of the sample (up to the output defect of C17).",
  "every sample, every weak learner meeting the assumption",
  "It is a potential argument over unbounded histories.",
  [B+"smoothboost/smoothboost_algorithm.rs:SmoothBoost::max_loop", B+"smoothboost/smoothboost_algorithm.rs:SmoothBoost::boost"])
p("SmoothBoost outputs all its hypotheses",
  "The combined hypothesis returned by SmoothBoost is the uniform vote over all the hypotheses obtained from the weak learner during the run.",
  "every run, of any number of rounds, on a sample of any size",
  "Needs runs with more rounds than examples.",
  [B+"smoothboost/smoothboost_algorithm.rs:SmoothBoost::postprocess"])
p("GraphSepBoost edge set is exact",
  "In every round the pairs GraphSepBoost still counts are exactly the pairs of examples with different labels on which all hypotheses so far agree, and the weight of an example is its number of such pairs divided by the total.",
  "every sample, every history",
  "Invariant over all histories.",
  [B+"graph_separation_boosting/graph_separation_algorithm.rs:GraphSepBoost"])
p("GraphSepBoost output is consistent with the sample",
  "When GraphSepBoost stops because no pair is left, the returned hypothesis classifies every training example correctly (labels +-1).",
  "every sample with +-1 labels, every weak learner",
  "All histories.",
  [B+"graph_separation_boosting/graph_separation_algorithm.rs:GraphSepBoost::postprocess", "src/hypothesis/naive_aggregation.rs:NaiveAggregation"])
p("GraphSepBoost terminates",
  "GraphSepBoost stops for every weak learner, after at most (number of positive/negative pairs)+1 rounds.",
  "every sample, every weak learner",
  "Termination over all executions.",
  [B+"graph_separation_boosting/graph_separation_algorithm.rs:GraphSepBoost::boost"])
p("NaiveAggregation is a lookup in the training votes",
  "An aggregated hypothesis predicts +1 on a row exactly when some training example with a positive label received the same vector of member predictions, and -1 otherwise; positively labelled training rows are always predicted +1.",
  "all members, samples, rows",
  "Universal over samples and members.",
  ["src/hypothesis/naive_aggregation.rs:NaiveAggregation::new", "src/hypothesis/naive_aggregation.rs:NaiveAggregation::confidence"])
p("GBM returns the additive model it fitted",
  "The combined predictor returned by GBM predicts on every training row the value that the boosting loop accumulated for it (the sum of coefficient times tree output).",
  "every sample, weak learner, loss, round count",
  "All histories.",
  [B+"gradient_boost/gbm.rs:GBM"])
p("L1 line search is optimal",
  "For the L1 loss the coefficient chosen for a new predictor minimises the L1 loss of target against coefficient times prediction over all real coefficients.",
  "all targets, predictions with at least one non-zero entry, all competitor coefficients",
  "Optimality against every real number.",
  ["src/common/loss_functions.rs:GBMLoss::best_coefficient", "src/common/loss_functions.rs:weighted_median"])
p("L2 line search is optimal",
  "For the L2 loss the coefficient chosen for a new predictor minimises the squared loss over all real coefficients.",
  "all targets and predictions",
  "Optimality against every real number.",
  ["src/common/loss_functions.rs:GBMLoss::best_coefficient"])
p("LPBoost solves the soft-margin program with cap 1/nu",
  "The linear program LPBoost hands to the solver is the edge-minimisation dual with weights capped by 1/nu: its feasible multipliers are exactly the probability vectors with entries at most 1/nu.",
  "all samples, all nu in [1,n], all hypotheses pushed so far",
  "Equality of two optimisation problems for all data.",
  [B+"lpboost/lp_model.rs:LPModel", B+"lpboost/lpboost_algorithm.rs:LPBoost"])
p("LPBoost certificate at stopping",
  "When LPBoost stops because its optimality gap is at most tolerance, the distribution it ended with certifies that its value is within tolerance of the best edge seen; its upper estimate never increases.",
  "all weak learners, all solver outputs, all rounds",
  "All histories of an external solver.",
  [B+"lpboost/lpboost_algorithm.rs:LPBoost::boost"])
p("SoftBoost and TotalBoost use the capped simplex",
  "The quadratic program SoftBoost hands to the solver constrains the weights to be a probability vector with entries at most 1/nu and all past edges to be at most the current target; TotalBoost is SoftBoost with nu = 1.",
  "all samples, nu, histories",
  "Equality of feasible sets for all data.",
  [B+"softboost/qp_model.rs:QPModel", B+"softboost/softboost_algorithm.rs:SoftBoost", B+"totalboost/totalboost_algorithm.rs:TotalBoost"])
p("ERLPBoost uses the capped simplex",
  "The quadratic program ERLPBoost hands to the solver has as feasible set exactly the pairs (gamma, d) with d a probability vector, entries at most 1/nu, and every past edge at most gamma.",
  "all samples, nu, histories",
  "Equality of feasible sets for all data.",
  [B+"erlpboost/qp_model.rs:QPModel"])
p("ERLPBoost bookkeeping and stopping",
  "ERLPBoost's upper estimate never increases, it stops exactly when the gap is at most tolerance/2 or the iteration limit is reached, and it never calls the weak learner more than max_loop times.",
  "all weak learners and all solver outputs",
  "All histories.",
  [B+"erlpboost/erlpboost_algorithm.rs:ERLPBoost"])
p("Frank-Wolfe steps stay in the simplex",
  "Classic and short-step Frank-Wolfe updates turn a probability vector of hypothesis weights and the index of a hypothesis into a probability vector, in every iteration.",
  "all weight vectors, iterations, gradients",
  "Invariant over all histories.",
  ["src/common/frank_wolfe.rs:FrankWolfe"])
p("Frank-Wolfe line search finds the best step",
  "The line-search variant returns a step whose objective value is within tolerance of the best one on the segment.",
  "all weight vectors and directions",
  "Universal over reals.",
  ["src/common/frank_wolfe.rs:line_search"])
p("Pairwise Frank-Wolfe moves mass from the worst to the best",
  "The blended-pairwise update keeps a probability vector and only moves mass from an away hypothesis to the chosen one.",
  "all states",
  "Universal over states.",
  ["src/common/frank_wolfe.rs:FrankWolfe::blended_pairwise"])
p("CERLPBoost weights and stopping",
  "CERLPBoost's hypothesis weights stay a probability vector under the default strategy, its example weights are a capped distribution in every round, and it stops when the edge gap is at most tolerance/2 or the iteration limit is reached.",
  "all weak learners, samples, nu in [1,n]",
  "Invariant over histories.",
  [B+"cerlpboost/cerlpboost_algorithm.rs:CERLPBoost"])
p("MLPBoost never does worse than its two candidate weightings",
  "In every MLPBoost round the hypothesis weights adopted have an objective value at least that of both the Frank-Wolfe weights and the LP weights, weights and hypotheses have the same length, and hypotheses are stored without duplicates.",
  "all weak learners and solver outputs",
  "All histories.",
  [B+"mlpboost/mlpboost_algorithm.rs:MLPBoost"])
p("Decision trees respect the depth limit",
  "A decision tree trained with max_depth d sends every row through at most d tests.",
  "all samples, distributions, criteria, depths",
  "Structural induction over all trees.",
  [W+"decision_tree/decision_tree_algorithm.rs:DecisionTree::full_tree", W+"decision_tree/builder.rs:DecisionTreeBuilder"])
p("Decision-tree output is bounded and has non-negative edge",
  "For +-1 labels the confidence of a trained decision tree is in [-1,1] on every row and its edge under the training distribution is >= 0 -- a tree is never worse than guessing.",
  "all samples with +-1 labels, all distributions, all criteria and depths",
  "All samples and trees.",
  [W+"decision_tree/train_node.rs:TrainNode", W+"decision_tree/decision_tree_algorithm.rs:confidence_and_loss"])
p("Decision-tree leaves own the training rows they were fitted on",
  "Each training row is routed at prediction time to the very leaf it was counted in during training: going left exactly when its feature value is below the threshold.",
  "all samples and trees",
  "All samples, tree shapes.",
  [W+"decision_tree/decision_tree_algorithm.rs:DecisionTree::full_tree", W+"common/split_rule.rs:Splitter", W+"decision_tree/decision_tree_classifier.rs:DecisionTreeClassifier"])
p("Decision-tree split search is optimal over its candidate thresholds",
  "Among all bin boundaries of a feature the reported threshold attains the optimum of the chosen criterion (max |edge|, min entropy, min gini, max twoing), computed from the prefix weights.",
  "all bin tables and all four criteria",
  "All tables of any length.",
  [W+"decision_tree/criterion.rs:Criterion::best_split"])
p("Histogram bins partition the feature's range",
  "Bins built from a feature are contiguous, cover the whole real range, and each value falls in exactly one bin, so every example's weight is counted once; total packed weight equals 1.",
  "all features, n_bins, distributions",
  "Universal over reals.",
  [W+"decision_tree/bin.rs:Bins::cut", W+"decision_tree/bin.rs:Bins::pack"])
p("Pruning does not change a tree's function",
  "The redundant-node removal run after training does not change the prediction of the tree on any training row.",
  "all trees",
  "Structural.",
  [W+"decision_tree/train_node.rs:TrainNode::remove_redundant_nodes"])
p("Regression-tree leaves are optimal",
  "The value of a regression-tree leaf is the minimiser of the second-order objective G*v + (H+lambda)*v^2/2 of its examples, and the reported leaf loss is the minimum value.",
  "all gradients, positive hessians, lambda >= 0",
  "Optimality against all reals.",
  [W+"regression_tree/train_node.rs:TrainNode", W+"regression_tree/regression_tree_algorithm.rs:RegressionTree"])
p("Regression trees respect the depth limit and split by best gain",
  "A regression tree trained with max_depth d sends every row through at most d tests, and each split attains the maximum gain among candidate thresholds; fitting never increases the second-order objective compared with a single leaf.",
  "all samples, losses, depths",
  "Structural induction.",
  [W+"regression_tree/regression_tree_algorithm.rs:RegressionTree"])
p("CSV reading keeps every cell",
  "Reading a rectangular numeric CSV with a header and a target column yields a sample whose r-th row is the r-th data line with the target cell removed, in column order, whose target vector is the target column, and whose name lookup returns the column of that name.",
  "all tables of any size, any target column, distinct names",
  "All table sizes and positions.",
  ["src/sample/sample_struct.rs:Sample::from_csv", "src/sample/sample_struct.rs:Sample::set_target", "src/sample/sample_struct.rs:Sample::at"])
p("Sparse features read back what was stored",
  "A sparse feature returns the stored value at stored rows and 0 elsewhere; svmlight input yields for every row and feature the value written in that row, 0 when absent.",
  "all sparse features with increasing row indices, all files",
  "All sizes; binary search.",
  ["src/sample/feature_struct.rs:SparseFeature", "src/sample/sample_struct.rs:Sample::from_svmlight"])
p("Dense and sparse representations have the same statistics",
  "Weighted mean, weighted variance (overall and per label), and distinct-value count of a sparse feature equal those of the dense feature with the same values.",
  "all features, labels, weights",
  "Universal over reals and index sets.",
  ["src/sample/feature_struct.rs:SparseFeature", "src/sample/feature_struct.rs:DenseFeature"])
p("unique_target and label checks",
  "unique_target returns the sorted set of the labels without repetition, and is_valid_binary_instance accepts exactly the samples with two distinct integer labels.",
  "all label vectors",
  "All vectors.",
  ["src/sample/sample_struct.rs:Sample::unique_target", "src/sample/sample_struct.rs:Sample::is_valid_binary_instance"])
p("Renaming features round-trips",
  "replace_names panics exactly on a length mismatch; otherwise it returns the old names, keeps all data, makes lookup by new (distinct) names work, and replacing back restores the sample.",
  "all samples and name lists",
  "All sizes.",
  ["src/sample/sample_struct.rs:Sample::replace_names"])
p("Cross-validation folds partition the sample",
  "Over a full iteration, test sets are disjoint, train and test together contain every example exactly once in every fold, feature values of a row are kept, and with n_folds dividing things appropriately every example is tested once; no fold panics.",
  "all samples, fold counts, train ratios, shuffles",
  "All sizes, ratios and permutations.",
  ["src/research/cross_validation.rs:CrossValidation", "src/sample/sample_struct.rs:Sample::split"])
p("Soft-margin objective is the capped minimum",
  "The soft-margin objective of a hypothesis equals the minimum over all nu-capped distributions of the expected margin; the hard-margin objective is the smallest margin.",
  "all samples, hypotheses, nu in [1,n], competitor distributions",
  "Minimum over a continuum.",
  ["src/research/objective_functions.rs:SoftMarginObjective", "src/research/objective_functions.rs:HardMarginObjective"])
p("Exponential objective dominates the error rate",
  "The exponential-loss objective is at least the training error rate of the same hypothesis.",
  "all samples with +-1 labels and hypotheses",
  "Universal.",
  ["src/research/objective_functions.rs:ExponentialLoss"])
p("Logging does not change the result",
  "A Logger run returns the same combined hypothesis as Booster::run when no time limit is hit, calls boost the same number of times, and writes exactly one CSV line per boost call.",
  "all boosters, weak learners, printing intervals",
  "All executions and time-outs.",
  ["src/research/logger.rs:Logger::run", B+"core.rs:Booster::run"])
p("run is history independent",
  "Running the same booster object twice with the same weak learner gives the same result: preprocess resets every piece of state the run reads.",
  "all booster states left behind by earlier runs",
  "All earlier histories.",
  [B+"core.rs:Booster::run", B+"adaboost/adaboost_algorithm.rs:AdaBoost::preprocess"])
p("Naive Bayes picks the most probable label",
  "The naive-Bayes hypothesis outputs the label maximising prior times product of Gaussian densities, with fitted weighted means and variances.",
  "all samples, rows",
  "Universal over reals.",
  [W+"naive_bayes/nbayes_classifier.rs:NBayesClassifier", W+"naive_bayes/probability.rs:Gaussian", W+"naive_bayes/nbayes.rs:GaussianNB"])
p("Neural-network activations and derivatives",
  "Softmax outputs a probability vector, ReLU/Id/Sigmoid evaluate and differentiate correctly (derivative is the true derivative), and network evaluation is the composition of its layers.",
  "all real inputs, all layer lists",
  "Universal over reals.",
  [W+"neural_network/activation.rs:Activation", W+"neural_network/nn_hypothesis.rs:NNHypothesis"])
p("Neural-network label encoding round-trips",
  "Encoding a label into the network's output format and decoding it back gives the same label.",
  "all labels and class counts",
  "All class counts.",
  [W+"neural_network/nn_hypothesis.rs", W+"neural_network/nn_weak_learner.rs"])
p("Worst-case learner returns a maximum-edge hypothesis",
  "BadBaseLearner returns, for every distribution, a hypothesis whose edge is at least that of every other hypothesis in its list.",
  "all distributions, tolerances and sizes",
  "Universal over distributions.",
  [W+"bad_learner/worstcase_lpboost.rs:BadBaseLearner"])
p("Tree export is a tree",
  "The DOT export of a decision or regression tree gives every node a distinct id, ids are contiguous, and the edges exported are exactly the parent-child pairs of the tree.",
  "all trees",
  "Structural induction.",
  [W+"decision_tree/node.rs:Node::to_dot_info", W+"regression_tree/node.rs:Node::to_dot_info"])
p("Margins and edges are dual",
  "The edge of a combined hypothesis under any distribution equals the expected margin, equals the weighted average of member edges, and lies between the minimum and the maximum margin.",
  "all samples, distributions, weights, hypotheses",
  "Universal over reals.",
  ["src/common/utils.rs:margins_of_hypothesis", "src/common/utils.rs:edge_of_hypothesis", "src/common/utils.rs:margins_of_weighted_hypothesis", "src/common/utils.rs:edge_of_weighted_hypothesis"])
p("Entropy helper is the relative entropy to uniform",
  "entropy_from_uni_distribution is non-negative on the probability simplex, zero exactly at the uniform distribution, at most ln(m), and equals the relative entropy to uniform.",
  "all distributions of any length",
  "Universal over reals.",
  ["src/common/utils.rs:entropy_from_uni_distribution"])
p("Logger and builder configuration",
  "A LoggerBuilder builds exactly when all components were supplied and time limits are converted exactly to milliseconds; a Logger with print interval 0 panics.",
  "all sequences of builder calls",
  "All call orders.",
  ["src/research/logger_builder.rs:LoggerBuilder"])
p("Boosters do not panic on a valid sample",
  "On a sample with labels -1/+1 a booster with a documented configuration runs to the end for every weak learner; the exact panic conditions are characterised where this fails.",
  "every valid sample, every configuration reachable through the public setters, every weak learner",
  "The panics depend on the whole history of hypotheses.",
  [B+"adaboost/adaboost_algorithm.rs:AdaBoost", B+"adaboostv/adaboostv_algorithm.rs:AdaBoostV", B+"madaboost/madaboost_algorithm.rs:MadaBoost", B+"smoothboost/smoothboost_algorithm.rs:SmoothBoost"])
p("AdaBoostV margin guarantee",
  "If every hypothesis the weak learner returns has edge at least g, the vote AdaBoostV returns after its full number of rounds has margin at least g - tolerance on every training example.",
  "every sample with +-1 labels, every weak learner with edges in [g,1)",
  "A bound over all histories, the reason to use the algorithm.",
  [B+"adaboostv/adaboostv_algorithm.rs:AdaBoostV"])
p("MadaBoost stops with non-negative votes",
  "MadaBoost calls the weak learner at most its iteration limit many times, never panics during boosting, and every vote weight it accumulates is non-negative.",
  "every sample, every weak learner, every round",
  "Invariant over all histories.",
  [B+"madaboost/madaboost_algorithm.rs:MadaBoost"])
p("Loss functions agree with their derivatives",
  "For both regression losses, evaluation is defined exactly on equally long non-empty vectors, is non-negative and zero exactly when all predictions equal the targets, and gradient/hessian are the derivatives of the (half, for L2) pointwise loss with respect to the prediction.",
  "all prediction and target vectors",
  "Universal over reals; derivatives are limits.",
  ["src/common/loss_functions.rs:GBMLoss::eval_at_point", "src/common/loss_functions.rs:GBMLoss::gradient", "src/common/loss_functions.rs:GBMLoss::hessian"])
p("GBM hands the weak learner the accumulated model",
  "In every round GBM hands the weak learner, for every training row, exactly the sum of coefficient times output of the predictors produced so far, each coefficient being the line search answer for its predictor; a run makes at most 100 weak-learner calls, whatever tolerance was set.",
  "every sample, weak learner, loss and number of rounds",
  "Invariant over all histories.",
  [B+"gradient_boost/gbm.rs:GBM"])
p("SoftBoost returns the best vote over its hypotheses",
  "The vote SoftBoost and TotalBoost return is a convex combination of the hypotheses collected during the run, and no other convex combination of them has a larger soft margin (worst edge under distributions capped at 1/nu).",
  "every sample, every weak learner, every solver that answers its programs correctly, every run that returns",
  "Optimality over a continuum of combinations; the program handed to the solver decides it.",
  [B+"softboost/qp_model.rs:QPModel::weights", B+"softboost/softboost_algorithm.rs:SoftBoost::postprocess"])
p("SoftBoost reaches its tolerance",
  "If every hypothesis the weak learner returns has edge at least g, the vote SoftBoost or TotalBoost returns after its full number of rounds has soft margin at least g - tolerance.",
  "every sample, every weak learner with edges at least g, every tolerance",
  "A guarantee over all histories; the reason to choose the algorithm.",
  [B+"softboost/softboost_algorithm.rs:SoftBoost::boost", B+"softboost/qp_model.rs:QPModel::update"])
p("MLPBoost's linear program respects the cap",
  "The linear program MLPBoost solves each time a new hypothesis arrives ranges over the distributions with entries at most 1/nu, with no stored hypothesis having an edge above the minimised variable.",
  "every sample, every nu, every list of hypotheses, every perturbation",
  "The program is a data structure whose meaning is universal over a continuum of points.",
  [B+"mlpboost/perturbed_lp_model.rs:LPModel"])
p("MLPBoost converges",
  "MLPBoost never panics in a round, asks the weak learner only with distributions capped at 1/nu, stops exactly by its gap rule or after ceil(8 ln(m/nu)/(tolerance/2)^2) rounds, returns for every nu below the sample size, and its combined hypothesis has soft margin within the tolerance of the weak learner's guarantee, whatever the perturbed programs return.",
  "every sample, every weak learner, every perturbation, every correct solver, classic and short-step strategies",
  "A convergence guarantee over all histories.",
  [B+"mlpboost/mlpboost_algorithm.rs:MLPBoost"])
p("Edge-criterion tree is a weak learner",
  "With the edge criterion, +-1 labels and depth at least one, if some decision stump at some bin boundary has edge at least g on the training distribution, the trained tree's edge is at least g squared (g measured against the total weight).",
  "all samples with +-1 labels, all distributions, all depths",
  "An inequality over all samples and distributions; it is the assumption every boosting guarantee rests on.",
  ["src/weak_learner/decision_tree/decision_tree_algorithm.rs:DecisionTree::produce", "src/weak_learner/decision_tree/criterion.rs:Criterion::best_split"])
p("Decision-tree training never panics",
  "On a well-formed sample with at least one column and some positive weight, a decision-tree learner produces a tree.",
  "all samples, distributions, criteria, depths, numbers of bins",
  "Every unwrap and index of the recursion has to be safe on every reachable subset of rows.",
  ["src/weak_learner/decision_tree/decision_tree_algorithm.rs:DecisionTree::produce", "src/weak_learner/decision_tree/bin.rs:Bins::pack"])
p("Decision-tree builder",
  "A decision-tree builder cuts, for every column, as many bins as it was told (by default the number of distinct values, at most 255), and building panics only when a column asks for at least two bins narrower than 1e-9.",
  "all samples and all configured numbers of bins",
  "Universal over real-valued columns.",
  ["src/weak_learner/decision_tree/builder.rs:DecisionTreeBuilder::build", "src/weak_learner/decision_tree/bin.rs:Bins::cut"])
p("Squared-loss regression trees never increase the training error","Adding the tree trained on some predictions with the squared loss to those predictions never increases the sum of squared training errors.","all samples, predictions, depths, bins, lambda >= 0","Universal over reals and tree shapes.",["src/weak_learner/regression_tree/regression_tree_algorithm.rs:RegressionTree::produce","src/common/loss_functions.rs:GBMLoss"])
p("Regression-tree training and building do not panic","Building a regression-tree learner panics only when no loss is given or a column asks for two or more bins narrower than 1e-9; training then returns a tree for every prediction vector of the right length, with either loss, when lambda is positive.","all samples, bin counts, predictions, losses","Absence of panics for every input.",["src/weak_learner/regression_tree/builder.rs:RegressionTreeBuilder::build","src/weak_learner/regression_tree/regression_tree_algorithm.rs:RegressionTree::produce"])
p("Regression trees move predictions towards the targets","If all targets are above the current predictions, the tree's values are positive, with either loss; and a tree whose training error can be improved by a split is not constant.","all samples, predictions, both losses","Universal over reals.",["src/weak_learner/regression_tree/regression_tree_algorithm.rs:prediction_and_loss","src/common/loss_functions.rs:GBMLoss::gradient"])
p("The worst-case learner forces LPBoost through n/2 rounds","On every sample with labels +1/-1, LPBoost with BadBaseLearner (nu = 1) needs more than n/2 calls of the weak learner, whatever linear-programming solver is used; the run ends after at most two calls more than the learner has middle hypotheses and returns a combination whose margin is optimal up to the tolerance.","all samples, solvers returning optimal primal-dual pairs, tolerances, LPBoost parameters","The lower bound is over all sample sizes and all solvers.",["src/weak_learner/bad_learner/worstcase_lpboost.rs:BadBaseLearner","src/booster/lpboost/lpboost_algorithm.rs:LPBoost"])
p("Neural-network training takes gradient-descent steps","One training step on a mini-batch replaces every weight and bias by itself minus the rate times the partial derivative of the summed batch loss, so that for all small enough learning rates the batch loss strictly decreases unless its gradient is zero.","all layer lists, activations, batches, rates","Universal over reals, depths, widths and batches.",["src/weak_learner/neural_network/nn_hypothesis.rs:NNHypothesis::train","src/weak_learner/neural_network/layer.rs:Layer::backward","src/weak_learner/neural_network/nn_loss.rs:NNLoss::diff"])
p("The neural-network learner returns a usable network","A learner with at least one appended layer of positive width returns, for every sample whose labels fit the output width and whatever random numbers and non-empty mini-batches are drawn, a network of the configured widths and activations that can be evaluated on every row; the default mini-batch is the first of 128, 64, ... not larger than the sample.","all configurations, samples, random draws, epochs and iterations","Universal over random draws and numbers of steps.",["src/weak_learner/neural_network/nn_weak_learner.rs:NeuralNetwork","src/weak_learner/neural_network/nn_hypothesis.rs:NNHypothesis"])
p("ERLPBoost soft-margin guarantee","If every capped distribution handed to the weak learner is answered with edge at least rho, the vote ERLPBoost returns has nu-soft margin at least rho minus the tolerance.","all samples, weak learners, solvers, nu, tolerances","A guarantee over all weak learners and all runs.",["src/booster/erlpboost/erlpboost_algorithm.rs:ERLPBoost","src/booster/erlpboost/qp_model.rs:QPModel"])
p("Decision trees of every criterion are weak learners","For each of the four split criteria, +-1 labels and depth at least one: if some decision stump at a bin boundary has edge g under the training weights, the trained tree has edge at least g squared over the total weight (half of it for the entropy criterion).","all samples with +-1 labels, all weights, depths, numbers of bins, criteria","An inequality over all samples and weights; it is the assumption every boosting guarantee rests on.",["src/weak_learner/decision_tree/criterion.rs:Criterion::best_split","src/weak_learner/decision_tree/decision_tree_algorithm.rs:DecisionTree::produce"])
p("Boosting decision trees works end to end","On a binary sample that some vote of bin-boundary stumps separates with margin theta, boosting decision trees (any criterion, any depth) never panics - neither in the booster nor in training or evaluating a tree - and AdaBoost classifies every training row correctly once its limit is large enough, AdaBoostV and LPBoost reach margin kappa theta^2 minus the tolerance on every row, and CERLPBoost and MLPBoost the same soft margin (kappa = 1, 1/2 for entropy).","all samples, columns (dense or sparse), criteria, depths, booster parameters","Composes the guarantees of the tree learner with those of the boosters over all runs.",["src/weak_learner/decision_tree/decision_tree_algorithm.rs:DecisionTree::produce","src/booster/adaboost/adaboost_algorithm.rs:AdaBoost","src/booster/adaboostv/adaboostv_algorithm.rs:AdaBoostV","src/booster/lpboost/lpboost_algorithm.rs:LPBoost","src/booster/cerlpboost/cerlpboost_algorithm.rs:CERLPBoost","src/booster/mlpboost/mlpboost_algorithm.rs:MLPBoost"])
p("When AdaBoost with trees returns","AdaBoost with decision trees on a binary sample returns a hypothesis if and only if its first tree, trained on the uniform distribution, has a positive edge; with single-test trees, if and only if some bin-boundary stump is correlated with the labels. Otherwise (e.g. exclusive or) run panics.","all binary samples, criteria, depths, limits of at least one round","An exact characterisation of the panics over all samples and runs.",["src/booster/adaboost/adaboost_algorithm.rs:AdaBoost::boost","src/hypothesis/weighted_majority.rs:WeightedMajority::from_slices","src/weak_learner/decision_tree/decision_tree_algorithm.rs:DecisionTree::produce"])
p("Configuring a booster","On a freshly constructed booster every chain of configuration calls goes through exactly when every nu (and SmoothBoost's gamma) is in its documented range; the last value given for each parameter counts, whatever the order, and defaults fill in the rest, so two chains ending with the same values give the same run; the guarantees hold from the constructor with the limits the code computes itself.","all samples, all finite chains of configuration calls, all weak learners","Universal over unbounded call sequences and all later runs.",[B+"adaboost/adaboost_algorithm.rs:AdaBoost::tolerance",B+"lpboost/lpboost_algorithm.rs:LPBoost::nu",B+"cerlpboost/cerlpboost_algorithm.rs:CERLPBoost::fw_type",B+"smoothboost/smoothboost_algorithm.rs:SmoothBoost::gamma"])
p("Linearly separable samples","When some vote over the weak learner's class separates the training sample, AdaBoost (with a learner returning a hypothesis of largest edge) stops at its own limit with a hypothesis that makes no training error.","all separable samples, classes, tolerances","A guarantee over all samples and whole runs.",[B+"adaboost/adaboost_algorithm.rs:AdaBoost::max_loop"])
p("Configuring a weak learner","On a fresh decision-tree, regression-tree or neural-network builder every chain of configuration calls goes through exactly when every depth is positive and every column named in set_nbins exists; the last value given for each parameter counts (for bins: per column), layers are appended in order, and the resulting learner builds and trains accordingly.","all samples, all finite chains of configuration calls, all training inputs","Universal over unbounded call sequences.",["src/weak_learner/decision_tree/builder.rs:DecisionTreeBuilder","src/weak_learner/regression_tree/builder.rs:RegressionTreeBuilder","src/weak_learner/neural_network/nn_weak_learner.rs:NeuralNetwork"])
p("Taking combined hypotheses apart and putting them together","Pushing votes onto a combined hypothesis adds exactly these votes to its confidence (and regression value) on every instance; pushing positive votes and normalising is from_slices; decomposing a combined hypothesis and rebuilding it from its parts gives it back.","all combined hypotheses, votes, instances","Universal over numbers of votes and instances.",["src/hypothesis/weighted_majority.rs:WeightedMajority"])
p("Statistics of a sample","weighted_mean and weighted_mean_and_variance return, in column order, the weighted mean and variance of every column, dense or sparse, for every distribution on the rows, and panic on weights that are not a distribution; the per-label versions return those of the rows with that label (dense columns).","all samples, distributions, labels","Universal over samples and real weights.",["src/sample/sample_struct.rs:Sample::weighted_mean","src/sample/sample_struct.rs:Sample::weighted_mean_and_variance_for_label","src/sample/feature_struct.rs:Feature"])
p("Threads do not change the outcome","The outcome of boosting with AdaBoost, AdaBoostV, MadaBoost, SmoothBoost and GBM - the returned hypothesis, the distributions handed to the weak learner, or the panic - and the results of the other parallel functions (inner products, normalising, statistics of a sample, appending rows, affine maps, Gaussian densities) do not depend on how rayon divides the work between threads or on how the threads' memory accesses interleave (up to rounding).","all samples, weak learners, divisions of the work, interleavings of the threads, numbers of rounds","A test sees a few of the unboundedly many schedules.",["src/common/utils.rs:inner_product","src/common/utils.rs:normalize",B+"adaboost/adaboost_algorithm.rs:AdaBoost::update_params",B+"adaboostv/adaboostv_algorithm.rs:AdaBoostV::update_params",B+"madaboost/madaboost_algorithm.rs:MadaBoost",B+"smoothboost/smoothboost_algorithm.rs:SmoothBoost",B+"gradient_boost/gbm.rs:GBM","src/sample/sample_struct.rs:Sample"])
p("Training trees is deterministic","Two calls of a decision-tree or regression-tree learner with the same sample and the same distribution or predictions return the same tree, whatever the threads do and in whatever order the (randomly seeded) hash maps are traversed (up to rounding).","all samples, distributions, criteria, depths, schedules, traversal orders","Schedules and hash seeds cannot be enumerated by tests.",["src/weak_learner/decision_tree/decision_tree_algorithm.rs:DecisionTree::produce","src/weak_learner/decision_tree/criterion.rs:Criterion::best_split","src/weak_learner/decision_tree/bin.rs:Bins::pack","src/weak_learner/regression_tree/regression_tree_algorithm.rs:RegressionTree::produce"])
p("Runs in f64 are reproducible","With the arithmetic of f64 (binary64, rounding to nearest), two runs of AdaBoost with the same sample, parameters and deterministic weak learner give the same result, whatever the threads do.","all samples, weak learners, divisions of the sums between threads","f64 addition is not associative; a test sees a few of the unboundedly many schedules.",["src/common/utils.rs:inner_product","src/common/utils.rs:edge_of_hypothesis",B+"adaboost/adaboost_algorithm.rs:AdaBoost::boost"])
p("AdaBoost in f64 stays a distribution","With the arithmetic of f64, up to 100000 examples and a weak learner whose hypotheses answer in [-1, 1] with edges of absolute value at most 0.998: whatever the threads do and however many rounds are made, the weights handed to the weak learner are never NaN, infinite, zero or negative and add up to one within 2.5e-7, the sorting of the log-weights never panics, and run fails only if no hypothesis gets a positive vote.","all samples up to 100000 rows, weak learners, schedules, numbers of rounds, exp and ln accurate to 2^-50","Rounding errors, overflow and underflow along unbounded runs and all schedules.",[B+"adaboost/adaboost_algorithm.rs:AdaBoost::update_params",B+"adaboost/adaboost_algorithm.rs:AdaBoost::boost","src/common/utils.rs:inner_product"])
p("AdaBoost's training error in f64","With the arithmetic of f64, up to 100000 examples, T of at most 900 rounds and edges between g >= 0.001 and 0.998, AdaBoost returns a hypothesis that is wrong on at most a fraction 1.001 (sqrt(1 - g^2) + 0.00001)^T of the training examples, as its own f64 vote classifies them; in particular on none once this is below one example.","all samples up to 100000 rows, weak learners, schedules, exp and ln accurate to 2^-50","The guarantee users rely on, with all rounding errors included, over all runs and schedules.",[B+"adaboost/adaboost_algorithm.rs:AdaBoost","src/hypothesis/weighted_majority.rs:WeightedMajority::from_slices","src/hypothesis/weighted_majority.rs:WeightedMajority"])
p("Building a tree learner in f64 comes to an end",
  "On every well-formed sample of finite numbers, building a decision-tree or regression-tree learner with the default number of bins returns: the loop that cuts a column makes exactly as many bins as asked for, in the machine's arithmetic.",
  "all samples of finite f64 values, all columns, all numbers of bins",
  "The outcome depends on the rounding of every addition in the loop; tests use small integers or numbers around one.",
  ["src/weak_learner/decision_tree/bin.rs:Bins::cut_dense", "src/weak_learner/decision_tree/bin.rs:Bins::cut_sparse", "src/weak_learner/regression_tree/bin.rs:Bins::cut", "src/weak_learner/decision_tree/builder.rs:DecisionTreeBuilder::build"])
p("Training a decision tree in f64 never panics",
  "With the arithmetic of f64, training a built decision-tree learner on a distribution of finite non-negative weights, one of them positive, never panics, whatever the order in which the hash maps are traversed and however rayon divides the work, and the returned tree answers every row with a number in [-1, 1] (no NaN).",
  "all samples, all finite weights with a sum of at most 3/2, all criteria, depths, schedules, traversal orders",
  "Depends on the rounding of every sum and difference of weights, in every order.",
  ["src/weak_learner/decision_tree/decision_tree_algorithm.rs:DecisionTree::produce", "src/weak_learner/decision_tree/criterion.rs:split_by_gini", "src/weak_learner/decision_tree/criterion.rs:split_by_entropy", "src/weak_learner/decision_tree/criterion.rs:split_by_twoing", "src/weak_learner/decision_tree/criterion.rs:split_by_edge", "src/weak_learner/decision_tree/bin.rs:Bins::pack"])
p("AdaBoost on decision trees in f64",
"With the arithmetic of f64, AdaBoost on decision trees (criterion entropy, edge or twoing, columns of moderate size, up to 100000 rows): as long as the edges of the trees stay within +-0.998, every call of the tree learner is made with sound weights and returns a tree (it never panics), the run ends after the number of rounds asked for, and it fails only if no tree got a positive vote; with edges of at least g >= 0.001 and at most 900 rounds the returned vote of trees is wrong on at most a fraction 1.001 (sqrt(1 - g^2) + 0.00001)^T of the rows.",
"all samples, all options of the learner, all numbers of rounds, all schedules and hash-map orders in every round, all exp/ln accurate to 2^-50",
"no test can try every sample, schedule and hash seed, and rounding errors add up over the rounds",
["src/booster/adaboost/adaboost_algorithm.rs: AdaBoost::boost","src/weak_learner/decision_tree/decision_tree_algorithm.rs: DecisionTree::produce","src/booster/core.rs: Booster::run"])
p("The projection onto the capped simplex in f64",
"With the arithmetic of f64, projecting log-weights onto the capped simplex (the softmax included) returns a vector that is, up to rounding, the point of the capped simplex closest in relative entropy: entries in [0, 1/nu], sum one up to 1.1e-5, one-norm distance at most 3e-5 from the exact projection; and it never panics for nu in [1, n].",
"all vectors of up to 100000 log-weights of absolute value at most 10000, all nu, all exp/ln accurate to 2^-50",
"The stopping test of the loop and the final assertions compare rounded numbers; which side they fall on depends on every input.",
["src/common/utils.rs:project_log_distribution_to_capped_simplex","src/common/utils.rs:exp_distribution_from_margins","src/common/checker.rs:check_capped_simplex_condition"])
p("From a file to a trained classifier",
"Reading a csv file (with header) or a svmlight file whose labels are +1/-1 (both occurring), whose other values are 0/1, and on which some weighted vote of the columns has margin theta on every row; building the default decision-tree learner with any criterion and depth >= 1; and running AdaBoost with a tolerance of at most kappa theta^2 / 2 (kappa the criterion's factor): every step succeeds, every call of the learner is answered, and the returned classifier predicts the label written in the file for every row.",
"all tables and votes, names, numbers of rows and columns, criteria, depths, tolerances",
"The guarantee composes reader, builder, tree growing and boosting over every file and every vote.",
["src/sample/sample_reader.rs:SampleReader::read","src/sample/sample_struct.rs:Sample::from_csv","src/sample/sample_struct.rs:Sample::from_svmlight","src/weak_learner/decision_tree/builder.rs:DecisionTreeBuilder::build","src/weak_learner/decision_tree/decision_tree_algorithm.rs:DecisionTree::produce","src/booster/adaboost/adaboost_algorithm.rs:AdaBoost::boost"])
p("Predictions on other samples",
"What a trained classifier answers for a row of any well-formed sample depends only on the values of that row under the column names: the order in which the sample lists its columns, dense or sparse storage, further columns, the label of the row and the other rows do not matter. A decision or regression tree answers every row of every sample that has the columns of its training sample, and a missing column is a panic, not a wrong answer. So training on one csv file and predicting another whose columns are permuted gives each row the prediction that its named cells deserve.",
"all samples, rows, column orders and storages, all trees, votes of trees and runs of AdaBoost, all naive-Bayes classifiers and networks",
"Ranges over pairs of samples and over every trained hypothesis; tests predict on the training sample.",
["src/weak_learner/decision_tree/decision_tree_classifier.rs:DecisionTreeClassifier","src/weak_learner/regression_tree/regression_tree_regressor.rs:RegressionTreeRegressor","src/weak_learner/common/split_rule.rs:Splitter","src/weak_learner/naive_bayes/probability.rs:Gaussian::log_probability","src/weak_learner/neural_network/nn_hypothesis.rs:NNHypothesis","src/sample/sample_struct.rs:Sample::at"])
p("A sample from a data frame",
"Sample::from_dataframe returns exactly when every column and the target series are of type f64 without nulls, and panics otherwise; the sample then has the frame's shape, its column names in their order, in row i under each name the frame's cell, and the target's values as labels; it is well-formed exactly when the target has one value per row, and a target of another length is only noticed (by a panic) when boosting starts. A frame with the cells of a csv file gives a sample with the same rows, columns and labels as reading the file.",
"all data frames and target series, all rows and column names",
"Ranges over all frames, types and null patterns.",
["src/sample/sample_struct.rs:Sample::from_dataframe","src/sample/feature_struct.rs:DenseFeature::from_series","src/sample/sample_struct.rs:Sample::target_is_specified"])
p("Printing a tree learner",
"A decision-tree or regression-tree learner built from a well-formed sample with at least one column can be printed (Display) without a panic, whatever the traversal order of its hash map, and the text has one line for every column with its name, its number of bins, and its intervals (all if at most three, else the first two and the last); for a sample without columns printing panics. The number of bins reported by info is the largest over the columns.",
"all samples, builder options, bin counts, traversal orders",
"The panics in Display (maximum of no keys, ilog10 of zero bins) depend on which learners the builder can return.",
["src/weak_learner/decision_tree/decision_tree_algorithm.rs:DecisionTree","src/weak_learner/regression_tree/regression_tree_algorithm.rs:RegressionTree","src/weak_learner/decision_tree/bin.rs:Bins","src/weak_learner/regression_tree/bin.rs:Bins"])
p("Returned hypotheses come from this run",
"For every booster, whenever run returns, the hypotheses inside the returned combined hypothesis are answers that the weak learner gave during this very call of run, listed in the order of the calls and each answer at most once: nothing from an earlier run, another learner or another sample gets in, and there are no more hypotheses than calls. Hence every vote of decision trees, by whatever booster, answers a row by its named values only.",
"all samples, weak learners, initial states (also used ones), solvers, noise sequences and numbers of rounds; all twelve boosters",
"Ranges over complete runs and over every prior state of the booster object.",
["src/booster/adaboost/adaboost_algorithm.rs:AdaBoost","src/booster/adaboostv/adaboostv_algorithm.rs:AdaBoostV","src/booster/madaboost/madaboost_algorithm.rs:MadaBoost","src/booster/smoothboost/smoothboost_algorithm.rs:SmoothBoost","src/booster/graph_separation_boosting/graph_separation_algorithm.rs:GraphSepBoost","src/booster/gradient_boost/gbm.rs:GBM","src/booster/lpboost/lpboost_algorithm.rs:LPBoost","src/booster/erlpboost/erlpboost_algorithm.rs:ERLPBoost","src/booster/softboost/softboost_algorithm.rs:SoftBoost","src/booster/totalboost/totalboost_algorithm.rs:TotalBoost","src/booster/cerlpboost/cerlpboost_algorithm.rs:CERLPBoost","src/booster/mlpboost/mlpboost_algorithm.rs:MLPBoost","src/hypothesis/weighted_majority.rs:WeightedMajority::from_slices"])
p("Which boosters can be logged without changing the result",
"When the log file can be written, the time limit is not exceeded, the print interval is not zero and the objective and losses can be computed, running a booster through the Logger ends exactly as running it directly (same hypothesis, same weight vectors given to the weak learner, same panic) for AdaBoostV (tolerance > 0), SmoothBoost and GraphSepBoost with any weak learner, for LPBoost, SoftBoost and TotalBoost with any weak learner and a correct solver, for ERLPBoost, CERLPBoost (all strategies) and MLPBoost under the conditions of C61. For AdaBoost and MadaBoost a logged run returns if and only if the direct run returns and the weak learner's answer to the uniform distribution has a positive edge. In general a logged run returns if and only if the direct run does and the intermediate hypothesis can be built after every round.",
"all samples, weak learners, states, objectives and losses, clocks, limits, intervals, solvers and numbers of rounds",
"Ranges over complete runs of eleven boosters and over every intermediate hypothesis the logger evaluates.",
["src/research/logger.rs:Logger::run", "src/research/logger.rs:Research", "src/booster/adaboost/adaboost_algorithm.rs:current_hypothesis", "src/booster/adaboostv/adaboostv_algorithm.rs:current_hypothesis", "src/booster/madaboost/madaboost_algorithm.rs:current_hypothesis", "src/booster/smoothboost/smoothboost_algorithm.rs:current_hypothesis", "src/booster/graph_separation_boosting/graph_separation_algorithm.rs:current_hypothesis", "src/booster/lpboost/lpboost_algorithm.rs:current_hypothesis", "src/booster/erlpboost/erlpboost_algorithm.rs:current_hypothesis", "src/booster/softboost/softboost_algorithm.rs:current_hypothesis", "src/booster/totalboost/totalboost_algorithm.rs:current_hypothesis", "src/booster/cerlpboost/cerlpboost_algorithm.rs:current_hypothesis", "src/booster/mlpboost/mlpboost_algorithm.rs:current_hypothesis"])
p("Decision trees trained in f64 are weak learners",
"When a decision tree is trained in f64 on +1/-1 labels, it answers every row of positive weight with the weighted mean label of the rows that end in the same leaf, up to 1e-8, so its edge is never less than that of the constant mean answer. With the criterion edge and a depth of at least one, its edge (times the sum of the weights) is, up to 2e-5, at least the square of the edge of every test 'value of a column below a boundary of a bin'. Hence AdaBoost on such trees, all in f64, drives the training error down at the corresponding exponential rate whenever in each round some test has an edge of at least gamma and no tree is almost perfect.",
"every sample of up to 1e5 rows with moderate columns, every f64 weights that sum up to at most 3/2, every depth, every order of the hash maps and every division of the parallel sums, every correctly rounded arithmetic and every logarithm/exponential within the Libm bounds; every round",
"rounding of the label maps, of the normalised bins, of the merged thresholds and of the losses compared by the pruning interact with the order in which hash maps are traversed and rayon sums are split; no test enumerates these orders, samples and weights",
["src/weak_learner/decision_tree/decision_tree_algorithm.rs: produce, full_tree", "src/weak_learner/decision_tree/criterion.rs: split_by_edge", "src/weak_learner/decision_tree/bin.rs: pack", "src/weak_learner/decision_tree/train_node.rs: remove_redundant_nodes", "src/booster/adaboost/adaboost_algorithm.rs: boost"])
p("A trained tree's confidence is calibrated",
"Train a decision tree on labels +1/-1 with non-negative weights, with any criterion and depth. Then for every value c, among the rows that the tree answers with confidence c the weighted mean label is exactly c. Hence the tree's edge is the weighted mean square of its confidence, its weighted training error is (1 - weighted mean |confidence|)/2, and its error is at most (1 - edge)/2.",
"every sample with labels +1/-1, every non-negative weights (for the error: every distribution), every criterion, every maximal depth, every set of bins, every traversal order of the hash maps",
"it is an identity over all samples and weight vectors that ties the stored leaf values to the rows routed to each leaf through binning, splitting, pruning and conversion to the final node type; a test checks single trees on single weights",
["src/weak_learner/decision_tree/decision_tree_algorithm.rs: produce, full_tree, confidence_and_loss", "src/weak_learner/decision_tree/decision_tree_classifier.rs: confidence", "src/weak_learner/decision_tree/train_node.rs: TrainNode", "src/weak_learner/decision_tree/node.rs: Node"])
p("Decision trees with GraphSepBoost, SmoothBoost, MadaBoost and ERLPBoost",
"On a sample on which a vote of the available single tests has a margin theta > 0, boosting decision trees of any criterion and depth >= 1: GraphSepBoost returns a hypothesis that is right on every row; SmoothBoost with 2 gamma at most the trees' edge kappa theta^2 returns before its limit, and when the limit is at most the number of rows, fewer than kappa m / sqrt(1 - gamma) rows have margin at most gamma/(2+gamma); MadaBoost returns when at least one round is allowed; ERLPBoost returns a convex combination of trees. In none of them does the weak learner panic.",
"every sample with a positive margin, every criterion, every depth >= 1, every traversal order of the hash maps, every correct solver, every admissible setting of the boosters",
"the claim is about whole runs of a booster against trees fitted to the weights it computes itself, for every sample and setting",
["src/booster/graph_separation_boosting/graph_separation_algorithm.rs: boost", "src/booster/smoothboost/smoothboost_algorithm.rs: boost", "src/booster/madaboost/madaboost_algorithm.rs: boost", "src/booster/erlpboost/erlpboost_algorithm.rs: boost", "src/weak_learner/decision_tree/decision_tree_algorithm.rs: produce"])
p("From a file to a correct classifier with each booster that guarantees one",
"Take a csv file with a header and a target column, or a svmlight file, with cells 0/1 and labels +1/-1, both present, whose labels are a vote of its columns with margin theta > 0. SampleReader reads it; DecisionTreeBuilder builds trees of every criterion and depth >= 1; and AdaBoost, AdaBoostV, GraphSepBoost, LPBoost (every admissible nu), CERLPBoost and MLPBoost (at nu = 1), made from that sample with a tolerance below the edge of the trees, return a hypothesis that predicts the label of every row of the file, without any panic of the weak learner.",
"every such file, every criterion, every depth >= 1, every small enough tolerance, every correct solver, every random perturbation (MLPBoost), every traversal order of the hash maps",
"it composes parsing, binning, tree growth, the booster's own weights and the final vote for all files; a test runs one file",
["src/sample/sample_reader.rs: read", "src/weak_learner/decision_tree/builder.rs: build", "src/weak_learner/decision_tree/decision_tree_algorithm.rs: produce", "src/booster/adaboost/adaboost_algorithm.rs: boost", "src/booster/adaboostv/adaboostv_algorithm.rs: boost", "src/booster/graph_separation_boosting/graph_separation_algorithm.rs: boost", "src/booster/lpboost/lpboost_algorithm.rs: boost", "src/booster/cerlpboost/cerlpboost_algorithm.rs: boost", "src/booster/mlpboost/mlpboost_algorithm.rs: boost"])
p("SoftBoost and TotalBoost learn with decision trees",
"On a sample on which a vote of the available single tests has a margin theta > 0, SoftBoost and TotalBoost with decision trees of any criterion and depth >= 1 return a vote of trees that gets better than one tree alone, as the documentation promises (a soft margin near the best possible).",
"every sample with a positive margin, every criterion and depth, every tolerance, every nu in [1, n), every correct solver",
"the claim is about whole runs of a booster against trees fitted to the weights it computes itself, for every sample and setting",
["src/booster/softboost/softboost_algorithm.rs: boost", "src/booster/softboost/qp_model.rs: update", "src/booster/totalboost/totalboost_algorithm.rs: boost", "src/weak_learner/decision_tree/decision_tree_algorithm.rs: produce"])
p("set_target turns a column into the labels",
"On a sample whose columns are well formed (whether or not it has labels already), set_target(name) of an existing column, dense or sparse, returns a well-formed sample: its labels are the values of that column in every row (zero where a sparse column stores nothing), the other columns are unchanged, in order and found by name, and the column itself is gone. Calling it twice drops the first label vector: neither column remains. The name of no column makes it panic.",
"every sample with distinctly named well-formed columns, dense and sparse mixed, every column name",
"it must hold for every number of rows and columns, every position of the column and every sparsity pattern",
["src/sample/sample_struct.rs: set_target", "src/sample/feature_struct.rs: into_target, name"])
p("GraphSepBoost in f64, with any learner and with decision trees",
"With every operation of GraphSepBoost rounded to binary64 (the weights `degree as f64 / total as f64`), a run on at most 10^5 examples asks the weak learner only with probability vectors whose entries were rounded once; if the hypotheses' weighted errors are at most 1/2 - g, run returns after at most ln(m^2)/(2g) + 1 calls, and what it returns predicts the label of every training example. In particular this holds with decision trees (criterion edge, depth at least one) trained in binary64: if some vote over the tests `value < end of a bin` separates the labels with margin θ ≥ 1/100, then whatever order the hash maps iterate in and however the parallel sums are divided, every call of the learner returns a tree, the run ends after at most 2 ln m / (θ² - 4·10⁻⁵) + 1 calls, and the returned hypothesis makes no training error.",
"all samples with 1 to 10^5 rows, labels ±1 and columns of moderate size (C93), all margins θ ≥ 1/100, all weak learners made of trees that training may return, all depths ≥ 1, all states of the booster",
"Rounding could in principle break the guarantee for some weights or some tree; tests see a few samples and one order of the hash maps.",
["src/booster/graph_separation_boosting/graph_separation_algorithm.rs: boost, update_params, preprocess", "src/hypothesis/naive_aggregation.rs: NaiveAggregation", "src/weak_learner/decision_tree/decision_tree_algorithm.rs: produce, full_tree"])
p("From a file to zero training errors, in f64",
"Take a csv or svmlight file with 0/1 columns and ±1 labels of both signs, at most 10^5 rows, such that a weighted vote over the columns separates the labels with margin θ ≥ 1/100. Reading it succeeds; cutting the bins in binary64 succeeds; the trees (criterion edge, any depth ≥ 1) trained in binary64 never fail on the weights they are asked with; and GraphSepBoost, itself in binary64, returns a hypothesis that predicts the label of every row of the file, whichever trees training returns under any order of the hash maps and any division of the parallel sums.",
"all such files (csv or svmlight, with any column names and any cell parser), all margins θ ≥ 1/100, all depths ≥ 1, all trees the learner may return",
"The whole pipeline, reader, binning, tree training and booster, has to stay correct under rounding for every file; a test runs it on one file.",
["src/sample/sample_reader.rs: read", "src/sample/sample_struct.rs: from_csv, from_svmlight", "src/weak_learner/decision_tree/decision_tree_algorithm.rs: produce, full_tree", "src/weak_learner/decision_tree/bin.rs: cut", "src/booster/graph_separation_boosting/graph_separation_algorithm.rs: boost, preprocess"])
p("Decision trees with the criterion Gini in f64: no panic with moderate weights, and a useful split",
"With the criterion Gini and the arithmetic of f64: (a) if no positive weight is below 10^-6, training never panics (C94 shows that it does panic with smaller weights) and every returned tree answers every row with a number in [-1, 1]; (b) however small the weights are, every tree that training returns has an edge that is, up to 4·10^-5, at least the square of the edge of every test `column < boundary of a bin`; (c) AdaBoost on these trees, also in f64, makes the training error shrink geometrically when in every round the weights stay above 10^-6 and some test keeps an edge; (d) GraphSepBoost on these trees, also in f64 and on at most 900 rows, never makes training panic and predicts every label when a vote over the tests separates the rows with margin at least 1/100.",
"all samples of up to 10^5 rows with ±1 labels and moderate columns (900 rows in (d)), all weights, all depths ≥ 1, all orders of the hash maps and all divisions of the parallel sums",
"The sums are rounded and updated by subtraction while the threshold moves; whether a label's rest is lost or becomes noise depends on the weights and on the order of the additions, which a test cannot enumerate.",
["src/weak_learner/decision_tree/criterion.rs: best_split, split_by_gini, gini_impurity", "src/weak_learner/decision_tree/decision_tree_algorithm.rs: produce, full_tree", "src/booster/adaboost/adaboost_algorithm.rs: boost", "src/booster/graph_separation_boosting/graph_separation_algorithm.rs: boost"])
p("AdaBoostV in f64 keeps sound weights and its margin guarantee",
"AdaBoostV computed with f64 (parallel sums in any division, exp and ln accurate to 2^-50): with at most 10^5 examples with labels ±1, at most 900 rounds, a tolerance ν ≥ 0.01 and a learner whose hypotheses answer in [-1, 1] and have edges in [g, 0.95], g ≥ ν + 10^-8: all the weights handed to the learner are finite, positive and sum to one up to rounding, run does not panic, the learner is called once per round, and the confidence of the returned vote, as it is computed, has margin at least g − ν − max(ln m − Tν²/2, 0)/(Tν) − 10^-5/ν on every example. With the number of rounds T that the code computes for itself in f64 this is at least g − ν − ν/(2T) − 2·10^-5/ν, and when that is positive every training label is predicted.",
"all samples of up to 10^5 examples, all learners with such edges, all tolerances ≥ 0.01, all limits up to 900 rounds, all divisions of the parallel sums and all such exp and ln",
"The margin depends on the errors of all the rounds, which feed back through the distribution, the running minimum of the edges and the computed limit; a test sees one run with one schedule on one machine's libm.",
["src/booster/adaboostv/adaboostv_algorithm.rs: boost, update_params, preprocess, max_loop, postprocess", "src/hypothesis/weighted_majority.rs: from_slices, confidence"])
p("AdaBoostV and AdaBoost on decision trees in f64 succeed when a vote over tests does",
"Boosting decision trees with the criterion edge, booster and learner both in f64, on a sample for which some vote over the tests `column < boundary of a bin` has margin θ on every row: with AdaBoostV (tolerance ν ≥ 0.01, θ² ≥ ν + 4·10^-5, at most 900 rounds, no tree's edge above 0.95) training never panics, the learner is called once per round and the returned vote of trees has a margin of at least θ² − ν − max(ln m − Tν²/2, 0)/(Tν) − 4·10^-5 − 10^-5/ν on every row; with AdaBoost (θ² ≥ 0.002, no tree's edge above 0.998) the fraction of wrong rows is at most 1.001(√(1 − (θ² − 3·10^-5)²) + 10^-5)^T. Also in f64 no returned tree has more than max_depth tests on any way from the root to a leaf.",
"all samples of up to 10^5 rows with ±1 labels and moderate columns, all depths ≥ 1, all tolerances, limits up to 900 rounds, all divisions of the parallel sums, all orders of the hash maps",
"The assumption is about the sample only, the conclusion about every weighting that a run may produce and about the rounding in both components; tests cover single runs.",
["src/booster/adaboostv/adaboostv_algorithm.rs: boost", "src/booster/adaboost/adaboost_algorithm.rs: boost", "src/weak_learner/decision_tree/decision_tree_algorithm.rs: produce, full_tree", "src/weak_learner/decision_tree/criterion.rs: split_by_edge"])
p("LPBoost with a solver of finite accuracy",
"When the linear-program solver is not exact but leaves residuals of up to ε (constraints, multipliers, stationarity, reported value): no call of LPBoost's boost panics and the vector handed to the weak learner has m entries ≥ −ε with a total within ε of 1; if the weak learner always reaches an edge ≥ ρ, the returned vote has weights that form a probability vector and a margin of at least ρ − tolerance − (νm + 2T + 2)ε on every row (T = number of calls); with the best hypothesis of a class the vote is within tolerance + (νm + 2m + 2T + 3)ε of the margin of every convex vote over the class; and over a finite class C training returns within |C| + 1 calls provided that tolerance ≥ (νm + 2m + 2|C| + 9)ε. Some such condition is needed: for every tolerance < ε there is an ε-accurate solver, a sample of two rows and a learner for which training never returns.",
"all samples, all weak learners with confidences in [-1,1], all ν, all tolerances, all solvers whose residuals are at most ε, all 0 ≤ ε < 1",
"An interior-point solver returns a different inexact answer on each platform and version; a test observes one.",
["src/booster/lpboost/lp_model.rs: update", "src/booster/lpboost/lpboost_algorithm.rs: boost, postprocess", "src/hypothesis/weighted_majority.rs: from_slices"])
p("MLPBoost: the guarantee does not depend on the solver, the success does",
"Whatever vectors (of the right lengths) the linear-program solver returns to MLPBoost (default or classic strategy, tolerance ≥ 2·10^-5, 1 ≤ ν < m), training ends after at most ⌈8 ln(m/ν)/(tolerance/2)²⌉ calls of the weak learner, each with a distribution capped at 1/ν, in one of two ways: it panics at the check that the weights lie in the simplex, or it returns a vote with a probability vector as weights whose edge is at least ρ − tolerance·(1 + 10^-5) − 10^-5 under every distribution capped at 1/ν, ρ being the edge that the weak learner always reaches. The panic cannot be excluded by accuracy: for every ε > 0 there is a solver with residuals of at most ε, a sample of two rows and a learner of two hypotheses on which MLPBoost panics in the second round, for every perturbation, because an adopted solver weight above 1 is rejected without tolerance.",
"all solvers (no accuracy assumed), all perturbations, all samples, all weak learners with margins in [-1,1], all ν in [1,m), all tolerances ≥ 2·10^-5",
"The solver's answers differ between platforms and versions and may be arbitrarily bad; the guarantee must hold for all of them.",
["src/booster/mlpboost/mlpboost_algorithm.rs: boost, better_weight", "src/booster/mlpboost/perturbed_lp_model.rs: update", "src/common/checker.rs: check_capped_simplex_condition", "src/common/frank_wolfe.rs: classic, short_step"])
p("SoftBoost and TotalBoost with a solver of finite accuracy",
"When the conic solver is not exact but leaves residuals of up to ε (constraints, multipliers, stationarity, reported value), and answers programs without a solution with a non-positive entry: no round of SoftBoost panics or hangs; every vector handed to the weak learner has one positive entry per row and a total within ε of 1; as long as training goes on, the new vector gives every hypothesis collected so far an edge of at most the target + ε; training returns for every valid sample, nonzero tolerance and 1 ≤ ν < m; and the returned vote is a convex combination of the collected hypotheses whose soft margin is within (m/ν + 2m + 2T + 7)ε of the best soft margin of any convex combination of them (m rows, T rounds), certified by an exactly capped distribution. TotalBoost is the case ν = 1.",
"all samples, all weak learners (with confidences in [-1,1] for the last part), all ν, all tolerances, all solvers whose residuals are at most ε, all 0 ≤ ε < 1",
"An interior-point solver returns a different inexact answer on each platform and version; a test observes one.",
["src/booster/softboost/qp_model.rs: update, weights", "src/booster/softboost/softboost_algorithm.rs: boost, postprocess", "src/booster/totalboost/totalboost_algorithm.rs", "src/hypothesis/weighted_majority.rs: from_slices"])
p("ERLPBoost with a solver of finite accuracy",
"When the conic solver is not exact but leaves residuals of up to ε (constraints, multipliers, stationarity, reported value): every weight vector ERLPBoost hands to the weak learner has one nonnegative entry per row, none above 1/ν + ε, and a total within (m+1)ε of 1. If moreover the solver reports success whenever a program has a solution, the confidences are in [-1,1], ε ≤ 1/2 and (m + 2T + 4)ε ≤ 900 (m rows, T the limit on the rounds): no round panics, the inner optimisation loop always ends (after at most (1004+5m)·10⁹+2 solves), and training returns a convex combination of the hypotheses it was given, after at most T calls of the weak learner, unless the first hypothesis has an edge of at most tolerance/2 - 1 under the uniform weights.",
"all samples, all weak learners, all ν and tolerances in range, all solvers whose residuals are at most ε, all ε in the stated range",
"An interior-point solver returns a different inexact answer on each platform and version; a test observes one.",
["src/booster/erlpboost/qp_model.rs: update", "src/booster/erlpboost/erlpboost_algorithm.rs: preprocess, boost, postprocess", "src/hypothesis/weighted_majority.rs: from_slices"])
p("SmoothBoost keeps its guarantees in f64",
"SmoothBoost computed in binary64 on at most 10^5 examples with ±1 labels, 10^-30 ≤ κ < 1 and 0 ≤ γ < 1/2, with any weak learner whose hypotheses answer with numbers in [-1,1]: training returns, after at least one and at most limit rounds (limit = the number the code computes); every weight vector handed out consists of finite nonnegative doubles, sums to 1 up to 10^-8 and no entry exceeds (1+10^-8)/(κ m); the result is the equal vote (up to 10^-8) over the first m hypotheses. If κγ²√(1-γ) ≥ 3·10^-6 and on all such weights the learner has an edge of at least 2γ, fewer than 2/(κγ²√(1-γ)) rounds are made, and if at most m rounds were made (which m ≥ 2/(κγ²√(1-γ)) ensures) at most (1+10^-7) κ m/√(1-γ) training examples are misclassified.",
"all samples, all weak learners, all κ and γ in range, all powf implementations with relative error at most 2^-50",
"The counters are accumulated with a rounding error each round, and powf, the normalisation and the iteration limit are rounded; the stop test compares rounded sums. A test runs one sample on one platform.",
["src/booster/smoothboost/smoothboost_algorithm.rs: theta, max_loop, check_preconditions, preprocess, boost, postprocess", "src/hypothesis/weighted_majority.rs: from_slices, confidence"])
p("SmoothBoost on decision trees keeps its guarantees in f64",
"SmoothBoost and the decision tree learner, both computed in binary64, on a well-formed sample with at least one column, 1 to 10^5 rows, moderate values and ±1 labels, with any splitting criterion but Gini: training returns after at most limit rounds; every weight vector the trees were trained on was smooth, every training of a tree succeeded, and the result is the equal vote over the first m trees. With the criterion edge and max_depth ≥ 1, if a vote over the tests 'column < boundary of a bin' has margin θ on every row and 2γ ≤ θ² - 3·10^-5 and κγ²√(1-γ) ≥ 3·10^-6, then fewer than 2/(κγ²√(1-γ)) rounds are made, and if these are at most m, at most (1+10^-7) κ m/√(1-γ) of the m rows are misclassified by the returned vote of trees.",
"all samples, bins, depths, κ and γ in range, all HashMap orders and tie-breaks of the tree learner, all ln and powf implementations of bounded error",
"The trees are trained on weights that may be exactly 0 and up to 1/(κm), and the run composes two rounded programs; a test sees one data set.",
["src/booster/smoothboost/smoothboost_algorithm.rs: preprocess, boost, postprocess", "src/weak_learner/decision_tree/decision_tree_algorithm.rs: produce, full_tree", "src/hypothesis/weighted_majority.rs: confidence"])
p("MadaBoost keeps its guarantees in f64, or panics",
"MadaBoost computed in binary64 (any thread schedule, any sorting of equal scores, exp and ln of relative error 2^-50) on 1 to 10^5 examples with ±1 labels and at most 3000 rounds: with a weak learner that answers in [-1,1] and has edges of at least -(1-10^-5), boosting never panics and every weight vector handed out consists of finite non-negative doubles with sum 1 ± 3·10^-6. With edges of at least 10^-4 and at least one round allowed, run returns; in every round the weights are exp(min(1, 1/m + Σ step·y·h(x))) normalised, up to the factor 1 ± 10^-5, with the step √(ε'/(1-ε')), ε' = √(ε/2), of the measured edge, which is the true edge up to 10^-9; either all rounds were made and the confidence is the vote with the weights ln(1/step) up to 10^-5, or a perfect hypothesis (edge 1 - 10^-9 or more) is returned alone. With decision trees of any criterion but Gini boosting never panics; with the criterion edge and a vote over the tests of margin θ, θ² ≥ 13·10^-5, run returns. Without a bound on the edges this fails: with two examples, a correctly rounded library and a learner that is always wrong, MadaBoost always panics in the first round (its assertion on the error), although with exact arithmetic it never does.",
"all samples, learners, numbers of rounds, schedules, sorted orders and math libraries in the stated ranges",
"Rounding errors accumulate over all rounds and scores, and the panic depends on the last bit of a sum; a test sees one library on a few samples.",
["src/booster/madaboost/madaboost_algorithm.rs: preprocess, boost, update_params, beta2distribution, postprocess", "src/hypothesis/weighted_majority.rs: from_slices, confidence"])
p("Regression trees computed in f64: a tree is always returned and fits its leaves",
"Training a regression tree in binary64 (any division of the parallel sums, any choice among equal best splits) on a sample with at least one row and one column, all columns of moderate size: with the squared loss and any regulariser and any predictions — even infinite ones or NaN — and with the absolute loss and a regulariser that is not zero and not NaN, training never panics; the tree tests no point more than max_depth - 1 times and answers every row. With the squared loss, at most 10^5 rows, targets, predictions and regulariser (non-negative) of at most 10^12: every answer is the sum of the residuals of the rows that share its leaf divided by their number plus the regulariser, up to a relative 10^-10 of the sum of their absolute values; adding the answers to the predictions multiplies the squared error by at most 1 + 10^-9 (plus 10^-40). With the absolute loss and a positive regulariser, predictions different from the targets: every answer is the correctly rounded quotient of (number of rows of the leaf below their prediction minus number above) and the regulariser, so it points away from the targets. With the absolute loss and the regulariser 0, training panics on two rows with equal values, targets 1 and -1 and predictions 0.",
"all samples, numbers of bins, depths, losses, regularisers, predictions, divisions of the parallel sums and tie breaks",
"The errors of a sum grow with the number of rows and depend on how rayon divides it; a test fixes one sample and sees one schedule.",
["src/weak_learner/regression_tree/regression_tree_algorithm.rs: RegressionTree::produce, full_tree, best_split, best_split_at, prediction_and_loss", "src/weak_learner/regression_tree/bin.rs: Bins::pack, remove_zero_weight_pack_and_normalize", "src/weak_learner/regression_tree/builder.rs: RegressionTreeBuilder", "src/common/loss_functions.rs: GBMLoss"])
p("Gradient boosting with the squared loss overshoots by the number of rounds",
"GBM with the squared loss, any weak learner, any sample (exact arithmetic): the predictions that the weak learner is handed in round i + 1 sum to i times the sum of the targets, so after n rounds the accumulated predictions have a squared error of at least ((n - 1) * sum of targets)^2 / number of examples, which grows without bound as rounds are added. A run never stops before its last allowed round. If the targets sum to zero, no run returns a model. With the crate's own regression trees (squared loss, any depth, any regulariser, any valid sample) no run that is allowed two or more rounds returns a model: after the first round the predictions have the same sum as the targets, the second tree is the constant zero, and the line search panics.",
"all samples, weak learners, round limits; for the trees all depths, regularisers, bins and orders of the parallel choice of a best column",
"The claim is about every weak learner and every number of rounds; a test runs one learner on one file and only prints the loss.",
["src/booster/gradient_boost/gbm.rs: GBM::boost", "src/common/loss_functions.rs: GBMLoss::best_coefficient", "src/weak_learner/regression_tree/regression_tree_algorithm.rs: RegressionTree::full_tree"])
p("Gradient boosting in f64: it ends with one result, overshoots, and may panic",
"GBM computed in binary64, both losses, any weak learner: a run ends, has one result whatever the schedule of the parallel update, and asks the learner at most 100 times (neither tolerance nor loss changes the limit). The line search of the squared loss panics exactly when the computed sum of the outputs is zero; that of the absolute loss returns exactly when one output is not zero, or several are not and none is NaN (its unreachable!() is never reached), and its coefficient is a rounded quotient of a target and an output. Squared loss, integer targets of absolute sum below 2^53 that sum to zero: no run returns a model, whatever the learner. Squared loss with one-leaf regression trees (max_depth 1, regulariser 0), integer targets (absolute sum below 2^52) with an integer mean: no run returns a model, for any number of rows. Squared loss, at most 10^5 examples, targets and predictor outputs non-negative, at most 10^10, with a sum of at least 1/10: a run makes all 100 rounds and returns 100 predictors; the predictions handed out in round i + 1 sum to i times the sum of the targets up to a relative 10^-8, so their squared error is at least ((i - 1 - i/10^8) * sum)^2 / number of examples.",
"all samples, weak learners, losses, schedules, and for the trees all divisions of the parallel sums and tie breaks",
"The claims cover every learner and every sum order; rounding errors accumulate over 100 rounds and 10^5 examples.",
["src/booster/gradient_boost/gbm.rs: GBM", "src/common/loss_functions.rs: GBMLoss::best_coefficient, weighted_median", "src/weak_learner/regression_tree/regression_tree_algorithm.rs: RegressionTree::produce", "src/hypothesis/weighted_majority.rs: WeightedMajority::from_slices"])
p("Gradient boosting in f64: the coefficient for the absolute loss is almost optimal, and the learner sees the sum of the rounds",
"GBM computed in binary64. Absolute loss, at most 10^5 examples, targets of at most 10^10 in absolute value, outputs zero or between 10^-10 and 10^10 in absolute value, one of them not zero: the line search returns a finite coefficient c, and for every number t the sum of |y - c p| is at most (1 + 10^-7) times the sum of |y - t p| plus 10^-15 times the sum of |y| plus 10^-38. Both losses, any sample and weak learner: if a run returns, the result is from_slices of at most 100 coefficients and predictors, the i-th predictor is the learner's answer to the values the earlier ones add up to (each operation rounded, in the order of the rounds), its coefficient is the line search's answer and not zero; the learner is handed exactly these values, and the run ends after 100 rounds or at the first coefficient zero.",
"all samples, targets, outputs, weak learners, losses, numbers t",
"Optimality ranges over all coefficients and all data; the history over all learners and runs.",
["src/booster/gradient_boost/gbm.rs: GBM::boost", "src/common/loss_functions.rs: GBMLoss::best_coefficient, weighted_median"])
p("CERLPBoost in f64: no numerical panic, sound distributions, margins within the tolerance",
"CERLPBoost computed in binary64 with nu = 1, half of the tolerance h in [0.002, 0.5] (default 0.005), the default short steps or the classic steps, 2 to 10^5 examples with labels 1 and -1, hypotheses with confidences in [-1, 1] (equal ones answering alike), and an exponential that is at most one for arguments up to zero. Every run ends after at most about 8 ln n / h^2 questions. Every weight vector handed to the learner consists of f64 numbers in [0, 1] with sum one up to 4e-6 (no NaN, no failing assertion). The run returns a vote with non-negative weights of sum one up to 3e-6, or it panics, and then only because the first answer has, for weights within 3e-5 of the uniform ones, an edge of at most h (+1e-8); an edge below h - 1e-8 does make it panic. If the learner has edge at least rho for all almost-distributions and the run stops before the limit, every training example has a computed margin of at least rho - 2h - 1e-4 under the returned vote, so for rho > 2h + 1e-4 the vote makes no mistake on the training set.",
"all samples, tolerances, weak learners, platform exp/ln within their error bounds, and runs of any length up to the limit",
"Rounding errors accumulate over up to 2.4*10^7 rounds and depend on the data; a test sees one data set and one platform.",
["src/booster/cerlpboost/cerlpboost_algorithm.rs: CERLPBoost::boost, preprocess, max_loop, regularization_param", "src/common/frank_wolfe.rs: FrankWolfe::next_iterate, classic, short_step, interior_point", "src/common/utils.rs: exp_distribution_from_margins, margins_of_weighted_hypothesis, edge_of_hypothesis, edge_of_weighted_hypothesis", "src/common/checker.rs: check_capped_simplex_condition, check_stepsize", "src/hypothesis/weighted_majority.rs: WeightedMajority::from_slices"])
p("CERLPBoost in f64 with a cap: capped distributions, soft margin, fewer than nu mistakes",
"CERLPBoost computed in binary64 with 1 <= nu <= 0.99 n, half of the tolerance h in [0.002, 0.5], the default short steps or the classic steps, 2 to 10^5 examples with labels 1 and -1, and hypotheses with confidences in [-1, 1]. Whenever a run returns: every weight vector handed to the learner consists of f64 numbers between 0 and 1/nu (up to a relative 1e-15) with sum one up to 1.1e-5; at most about 8 ln(n/nu)/h^2 questions were asked; the weights of the returned vote are non-negative with sum one up to 3e-6. If moreover the learner has edge at least rho for all such weights and the run stopped before the limit, the computed confidences of the returned vote have mean margin at least rho - 2h - 1e-4 under every distribution capped at 1/nu (the soft margin), so for rho > 2h + 1e-4 fewer than nu training examples are classified wrongly. Calls of nu, tolerance and fw_type in any number and order lead to these parameters (the last call of each counts); nu panics exactly for arguments outside [1, n] (also NaN), and rejected labels make every run panic.",
"all samples, caps, tolerances, weak learners, platform exp/ln within their error bounds, returning runs of any length up to the limit, and all capped distributions",
"Rounding errors accumulate over up to 2.4*10^7 rounds, and the soft margin is a statement about all capped distributions; a test sees one data set and a few distributions.",
["src/booster/cerlpboost/cerlpboost_algorithm.rs: CERLPBoost::boost, preprocess, nu, max_loop, regularization_param", "src/common/frank_wolfe.rs: FrankWolfe::next_iterate, classic, short_step, interior_point", "src/common/utils.rs: exp_distribution_from_margins, project_log_distribution_to_capped_simplex", "src/common/checker.rs: check_capped_simplex_condition, check_stepsize", "src/hypothesis/weighted_majority.rs: WeightedMajority::from_slices"])
p("CERLPBoost on decision trees, all in f64",
"CERLPBoost in binary64 (parameters as in C125) on decision trees trained in binary64 (any criterion but Gini, columns of moderate size, up to 10^5 rows): every run ends, no call of the tree learner panics, every hypothesis is a tree that training on an almost-distribution may produce (under any order of the hash maps and any division of the parallel sums), and the run returns a vote or panics because the first tree has an edge of at most half of the tolerance. With the criterion edge, depth at least one, and a vote over the tests 'column < boundary of a bin' of margin theta on every row with theta^2 > h + 1e-4, every run returns; if it returns before the limit of the iterations, every row has a computed margin of at least theta^2 - tolerance - 2e-4, so there are no training mistakes for theta^2 > tolerance + 2e-4. With a cap (parameters as in C126) a run that returns before the limit makes fewer than nu mistakes. Trees that compare equal with == are the same tree, so merging them in the vote is harmless.",
"all samples, tolerances, caps, trees that training may return, platform exp/ln within their error bounds, and runs of any length",
"Rounding in the projection, in the training of each tree and in the vote interact over millions of rounds; hash-map order and work division make the trees nondeterministic.",
["src/booster/cerlpboost/cerlpboost_algorithm.rs: CERLPBoost::boost", "src/weak_learner/decision_tree/decision_tree_algorithm.rs: DecisionTree::produce", "src/weak_learner/decision_tree/node.rs: Node (PartialEq)", "src/weak_learner/common/split_rule.rs: Splitter (PartialEq)", "src/common/frank_wolfe.rs: FrankWolfe::next_iterate"])
p("From a file to CERLPBoost, SmoothBoost and MadaBoost, all in f64",
"For a CSV or svmlight file of 0/1 cells and labels +-1 (up to 10^5 rows) on which a vote over the columns has margin theta on every row: SampleReader reads it, DecisionTreeBuilder with the criterion edge and any positive depth builds in binary64, training never panics, and (a) CERLPBoost in binary64 with its default parameters returns for theta >= 1/8, and if it stopped before the limit of the iterations the returned vote predicts the label of every row of the file; (b) SmoothBoost in binary64 with .tolerance(kappa) and .gamma(gamma), 2 gamma <= theta^2 - 3e-5, returns after fewer than 2/(kappa gamma^2 sqrt(1-gamma)) rounds and, if these are at most as many as the rows, is wrong on at most (1+1e-7) kappa m/sqrt(1-gamma) of the m rows; (c) MadaBoost in binary64 with .force_quit_at(T), 1 <= T <= 3000, returns for theta >= 1/80 a vote whose confidence on every row is a number of absolute value at most 1 + 1e-5. All whichever trees the calls of the learner return (order of the hash maps, division of the parallel sums).",
"all files of the described kind, depths, parameters, trees that training may return, platform exp/ln/powf within their error bounds",
"The whole pipeline parse -> bins -> trees -> booster -> prediction, each stage rounding, over every file and every nondeterministic choice.",
["src/sample/sample_reader.rs: SampleReader::read", "src/weak_learner/decision_tree/builder.rs: DecisionTreeBuilder::build", "src/booster/cerlpboost/cerlpboost_algorithm.rs: CERLPBoost", "src/booster/smoothboost/smoothboost_algorithm.rs: SmoothBoost", "src/booster/madaboost/madaboost_algorithm.rs: MadaBoost"])
p("The objective functions in f64",
"Evaluated in binary64 on up to 10^5 rows with labels +-1 (for the hard margin any number of rows): if every confidence is a finite number of absolute value at most two, SoftMarginObjective with 1 <= nu <= m returns a number within 1e-9 of the soft margin, the least average margin under a distribution with entries at most 1/nu; HardMarginObjective returns exactly the least margin; a NaN confidence (with at least two rows) and a nu that is NaN or outside [1, m] make the evaluation panic. ExponentialLoss returns, whatever the confidences are (NaN included), a number within 1e-8 of e k/m + (m-k)/(e m), where k of the m rows are predicted wrongly, and never less than the error rate. For the vote that a run of CERLPBoost in binary64 returns (parameters as in C126), the soft-margin objective with the same nu returns a number, which is at least rho - tolerance - 11e-5 if the learner always finds an edge of at least rho and the run returned before the limit of the iterations.",
"all samples, hypotheses, confidences, nu, platform exp/ln within their error bounds, and runs of CERLPBoost",
"The weight that is left is decreased by the rounded 1/nu up to 10^5 times, so the loop may take one row more or less than the exact one; a test looks at a few nu.",
["src/research/objective_functions.rs: SoftMarginObjective::eval", "src/research/objective_functions.rs: HardMarginObjective::eval", "src/research/objective_functions.rs: ExponentialLoss::eval", "src/common/checker.rs: check_nu", "src/hypothesis/hypothesis_traits.rs: Classifier::predict"])
p("MLPBoost in f64, with any LP solver",
"MLPBoost run in binary64, with 2 to 10^5 examples labelled +-1, half tolerance h in [0.002, 0.5], nu in [1, 0.99 m] and confidences in [-1, 1], whatever the LP solver answers (NaN, infinite and non-normalised numbers included, as long as it gives one number per hypothesis) and whatever step the exact line searches compute: a run that returns has shown the weak learner only distributions within rounding of the capped simplex, at most 8 ln(m/nu)/h^2 + 1.001 of them; its vote weights are finite, nonnegative, with a sum within 5e-5 of one, and every confidence of the vote on an example is a finite number of absolute value at most 1.01. If it stops before the limit of the iterations and the learner's answers always have an edge of at least rho, every capped distribution gives the vote an average margin of at least rho - 2h - 2.3e-4 - h/(1000 ln(m/nu)), so fewer than nu examples are predicted wrongly when rho exceeds that. A nu that is NaN or outside [1, m] is refused; labels other than +-1 make the run panic; the setters reach the parameters of the claim.",
"all samples, learners, LP solvers (any function), line searches, hypotheses, platform exp/ln within their error bounds, and runs",
"The LP solver is an external numeric program with random perturbations; a test sees one solver. That the check on the weights and the comparison of the rounded objectives are enough is a statement about every answer the solver could give.",
["src/booster/mlpboost/mlpboost_algorithm.rs: MLPBoost::boost", "src/booster/mlpboost/mlpboost_algorithm.rs: MLPBoost::objval", "src/booster/mlpboost/mlpboost_algorithm.rs: MLPBoost::better_weight", "src/booster/mlpboost/mlpboost_algorithm.rs: MLPBoost::max_loop", "src/booster/mlpboost/mlpboost_algorithm.rs: MLPBoost::nu", "src/common/checker.rs: check_capped_simplex_condition", "src/common/utils.rs: entropy_from_uni_distribution"])
p("In f64 too, a booster object can be run again",
"For AdaBoost, AdaBoostV, MadaBoost, SmoothBoost, GraphSepBoost, CERLPBoost, MLPBoost and GBM in binary64: after any number of earlier runs of the same object on the same sample, finished or abandoned between two rounds, each with a weak learner of its own, the next run has exactly the possible results (returned hypothesis, panic, and the distributions or predictions shown to the learner) that it has on an object with the same settings that has never been run. Where the parallel sums of rayon allow several results, the sets of the possible results are the same.",
"all samples (invalid labels included), settings, earlier histories, weak learners, platform exp/ln, LP solvers, orders of the parallel sums",
"A test runs an object twice with one learner; a leftover NaN, prediction or limit of the iterations from an abandoned run matters only for some histories.",
["src/booster/core.rs: Booster::run", "src/booster/adaboost/adaboost_algorithm.rs: AdaBoost::preprocess", "src/booster/adaboostv/adaboostv_algorithm.rs: AdaBoostV::preprocess", "src/booster/madaboost/madaboost_algorithm.rs: MadaBoost::preprocess", "src/booster/smoothboost/smoothboost_algorithm.rs: SmoothBoost::preprocess", "src/booster/graph_separation_boosting/graph_separation_algorithm.rs: GraphSepBoost::preprocess", "src/booster/cerlpboost/cerlpboost_algorithm.rs: CERLPBoost::preprocess", "src/booster/mlpboost/mlpboost_algorithm.rs: MLPBoost::preprocess", "src/booster/gradient_boost/gbm.rs: GBM::preprocess"])
p("MLPBoost on decision trees and from a file in f64, and the objective of its vote, with any LP solver",
"MLPBoost in binary64 (parameters as in C130, any answers of the LP solver of the right length) on decision trees trained in binary64 with the criterion edge and a positive depth: in a run that returns, every question is within rounding of the capped simplex, no call of the tree learner panics and every hypothesis is a tree that training may produce; if a vote over the tests of the trees has margin theta on every row, theta^2 > tolerance + 2.7e-4 + h/(1000 ln(m/nu)), and the run returned before the limit of the iterations, fewer than nu rows are predicted wrongly. For a CSV or svmlight file of 0/1 cells and labels +-1 (2 to 10^5 rows) on which a vote over the columns has margin theta >= 1/8: it is read, the trees are configured, and a run of MLPBoost with its default parameters that returns before the limit predicts the label of every row of the file. Whatever the learner is, the soft-margin objective with the same nu evaluates in binary64 to a number on the vote of every run that returns, and it is at least rho - tolerance - 2.4e-4 - h/(1000 ln(m/nu)) if the learner's edges are at least rho and the run returned before the limit.",
"all files and samples of the described kind, depths, tolerances, caps, LP solvers, trees that training may return, platform exp/ln within their error bounds, and runs",
"The pipeline rounds in every stage and contains an external solver with random perturbations and hash maps of random order; a test sees one of the outcomes.",
["src/booster/mlpboost/mlpboost_algorithm.rs: MLPBoost", "src/weak_learner/decision_tree/decision_tree_algorithm.rs: DecisionTree::produce", "src/sample/sample_reader.rs: SampleReader::read", "src/weak_learner/decision_tree/builder.rs: DecisionTreeBuilder::build", "src/research/objective_functions.rs: SoftMarginObjective::eval"])
with open("/verif/properties.jsonl","w") as f:
    for o in P: f.write(json.dumps(o)+"\n")
print(len(P))
