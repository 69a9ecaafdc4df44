{
 "C01": "State machine AdaBoost.State over R; invariant by induction over the list of hypotheses returned.",
 "C02": "Closed form by induction; ratios of weights compared with exp of past votes.",
 "C03": "Algebra on exp/log of the edge weight.",
 "C04": "Booster.run modelled as a fuelled/iterated driver over a boost step; count of weak-learner calls.",
 "C05": "Potential argument on the normalisers; combined hypothesis modelled by WeightedMajority.",
 "C06": "Case analysis; the edge <= -1 case is expected to be false (panic) - prove the negation with a witness.",
 "C07": "As C01/C04 with the AdaBoostV update.",
 "C08": "from_slices as an Except-valued function over lists.",
 "C09": "Convexity on lists.",
 "C10": "Sign invariance.",
 "C11": "Model of the sort + search loop over R.",
 "C12": "KKT/three-point inequality for relative entropy.",
 "C13": "Softmax of clipped log weights.",
 "C14": "Expected false (update has the wrong sign): negation with a witness plus what holds.",
 "C15": "Invariant 0<m_i<=1, sum>=kappa m when continuing.",
 "C16": "Servedio potential argument.",
 "C17": "Expected false beyond n_sample rounds: negation plus _partial.",
 "C18": "Invariant over the edge sets.",
 "C19": "From C18 and C21.",
 "C20": "Edge count strictly decreases.",
 "C21": "Bit-vector set membership.",
 "C22": "Expected false: negation plus _partial.",
 "C23": "Weighted-median argument.",
 "C24": "Expected false: negation plus _partial.",
 "C25": "CSC assembly denoted as linear inequalities; dual; expected false for nu>1.",
 "C26": "Solver = arbitrary oracle; invariant over rounds.",
 "C27": "CSC denotation of constraints; expected false for cap in QP.",
 "C28": "CSC denotation.",
 "C29": "Solver = oracle.",
 "C30": "Convexity of interior_point.",
 "C31": "Expected false; negation.",
 "C32": "Expected false; negation plus _partial.",
 "C33": "Invariant using C11 and C30.",
 "C34": "State machine with oracle.",
 "C35": "Induction on full_tree.",
 "C36": "Induction on full_tree.",
 "C37": "Induction on full_tree.",
 "C38": "Fold over prefixes.",
 "C39": "List of contiguous intervals.",
 "C40": "Induction.",
 "C41": "Completing the square.",
 "C42": "Induction.",
 "C43": "Parser after tokenisation: table of numbers.",
 "C44": "Binary search over sorted list of pairs.",
 "C45": "Sums over sparse/dense; per-label expected false.",
 "C46": "Sort/dedup.",
 "C47": "Record update.",
 "C48": "Index arithmetic; expected panic for some sizes.",
 "C49": "Uses C11-like greedy; lower bound + attained.",
 "C50": "exp(-x) >= 1 on x<=0.",
 "C51": "Driver with log vs driver without.",
 "C52": "Spec: the states any sequence of earlier runs leaves behind (interrupted or finished). Settings are invariant under preprocess and boost (`used_setting`); preprocess depends on the settings only; so the run is the same.",
 "C53": "argmax + log identity; density expected wrong for >1 feature.",
 "C54": "HasDerivAt; sigmoid derivative expected false.",
 "C55": "Round trips.",
 "C56": "argmax fold.",
 "C57": "Induction on trees.",
 "C58": "Sum exchange.",
 "C59": "Gibbs inequality.",
 "C60": "Builder record.",
 "C61": "`run_returns_iff` reduces 'run returns' to reachable states; for each booster the panic conditions of preprocess, boost and postprocess are computed, which gives an iff per booster. Every Frank-Wolfe strategy is shown to answer and to leave a positive weight (`nextIterate_total`). MLPBoost with the blended pairwise strategy is refuted by a run in which the weak learner repeats an answer (`mlp_blended_can_panic`).",
 "C62": "Potential argument on the normalisers as in C05, with the shifted target edge.",
 "C63": "Invariant over rounds; vote weights are arctanh-like logs of positive ratios.",
 "C64": "HasDerivAt of every per-example loss; L1 expected false (sign).",
 "C65": "Invariant over rounds: predictions seen by the learner = weighted sum of the past hypotheses.",
 "C66": "Solver = oracle; LP denotation and optimality of the returned vote.",
 "C67": "Expected false: the uniform distribution stays feasible, so the query never changes; negation.",
 "C68": "LP denotation; expected false for nu>1 (cap row).",
 "C69": "Frank-Wolfe rate on the smoothed soft margin; adopted secondary weights never hurt.",
 "C70": "Best split over bin boundaries dominates each stump of the combination; averaging argument.",
 "C71": "Every unwrap/index discharged from TrainOk by induction on full_tree.",
 "C72": "Bins::cut length and panics as an exact condition.",
 "C73": "Leaf optimality (C41) summed over the leaves.",
 "C74": "As C71 for regression trees.",
 "C75": "Sign of leaf values; expected false for L1; negation for every sample.",
 "C76": "Invariant over LPBoost rounds with the worst-case learner; complementary slackness.",
 "C77": "Backward pass equals the Frechet derivative of the batch loss by induction over the layers. For hidden sigmoid and softmax layers a concrete network refutes the claim.",
 "C78": "Totality of produce by shape invariants.",
 "C79": "First-order optimality of the last quadratic program gives a margin bound; expected false in general, witness run.",
 "C80": "Every criterion is rewritten as a function of the sum over the two sides of (signed weight)^2 / weight; the optimal split maximises it (up to a factor for entropy, by quadratic bounds on the binary entropy); sub-trees only add edge.",
 "C81": "Averaging over the stump vote gives a stump with edge theta under every distribution; C80 turns it into a tree edge; the booster theorems (C05, C62, C26, C33, C69) are instantiated with the tree learner.",
 "C82": "Weights are log-ratios of edges, so a zero first edge keeps the distribution uniform for ever; conversely a positive edge makes the normalising sum positive.",
 "C83": "Chains are folds of the setter functions; induction over the chain with an invariant and an observed field; then history independence of the run and the run guarantees at the default limits.",
 "C84": "Averaging: a vote with margin 2 tau over C gives a member of C with edge at least 2 tau under every distribution, and the limit is enough for that edge. Negation: a sample where one hypothesis of decaying edge is preferred until the limit is reached.",
 "C85": "As C83, for the builders; the table of bin counts is a map whose key set is invariant.",
 "C86": "Induction over the pushed votes; a normalised positive weight vector is a fixed point of normalisation.",
 "C87": "Column by column; sparse columns through the dense column with the same values (C45).",
 "C88": "Model/Rayon.lean: a parallel iterator divides its items by an arbitrary binary tree; a parallel in-place update is an arbitrary interleaving of one load and one store per cell. Each parallel function becomes a relation between arguments and possible results; proved equal to the graph of the sequential function by induction over the division and over the interleaving, and lifted to whole runs by induction over the rounds.",
 "C89": "Model/ParTree.lean: every function of the tree learners that runs a parallel iterator or traverses a hash map is a relation (arbitrary division, arbitrary order, new for every traversal). Sums and counters are invariant under permutation; ties between labels matter only for more than two labels, where a witness with two different results is exhibited.",
 "C90": "Model/Float.lean models binary64 (round to nearest even, subnormals, overflow, NaN) and AdaBoost computed with it, with the sums divided by an arbitrary `Split`; the witness adds ten rounded tenths in two ways. The positive part bounds the error of an arbitrary division of the sum.",
 "C91": "Error analysis of one round (hypothesis weight, log-weights, log-sum-exp in any order, exponentials); the new weights are within 2.1e-7 of the exact ones, and the factor of a weight is above one half because the chord bound on the normaliser holds up to the accumulated errors; invariant over the rounds.",
 "C92": "The same invariant with the product of the normalisers and the margins of the vote; the rounding of the vote only matters for examples with a tiny margin.",
 "C93": "Model/FloatTree.lean computes Bins::cut in binary64, with fuel for the while loop (none: not over yet). Positive part: by induction on the bins, the distance of the k-th boundary from min + k(max-min)/n is bounded by k times one rounding error, which stays below the tolerance. Negative part: the loop is evaluated with exact rounding on three columns.",
 "C94": "Model/FloatTree.lean computes the whole decision tree in binary64; every sum over a hash map is taken in an arbitrary order and every parallel sum over an arbitrary division. Positive part: a sum of at most 10^6 non-negative f64s is within a factor (1 +- u)^k of the exact one (no underflow in additions), so that totals are positive, normalised weights add up to 1 +- 1e-6, the scores compared are never NaN and labels are found; then induction on the depth. Negative part: the Gini search is evaluated on a concrete sample for every order and division.",
 "C95": "Model: Model/FloatTreeBoost.lean (the learner returns any of the trees that FTree.Produce allows). Proof: C91/C92 only ask for fairness in the rounds that a run reaches (FloatReach, FairRun); the weights reached are binary64 numbers (SoundWeights), so C94 applies in every round. Example: three rows that no test separates, edges of about 1/9.",
 "C96": "Model: Model/FloatProject.lean (suffix log-sums, the loop and the final assertions of src/common/checker.rs in binary64). Specification: Spec/Projection.lean (the minimiser of the relative entropy). Proof: forward error analysis of the suffix log-sum-exp (log_lsum_bound), the loop stops at a pivot that is nearly the exact one (run_shape), the computed vector is close to min(1/nu, xi exp a) (go_cap, close_of_check); for nu = 1 monotonicity of rounding gives entries <= 1. Negation: a run computed by hand with exact libm.",
 "C97": "Composition: csv_header_keeps_cells / svmlight_keeps_values give a well-formed sample with the cells of the file; for 0/1 columns the bins of the default builder have a boundary in (0, 1), so each column is a stump of the learner and the vote of the columns is a vote of stumps (columnVote_margin); adaboost_trees then gives zero training errors. The conditions (VoteTable, VoteRows) mention only the cells of the file; shown to be met by the table of a majority of three columns.",
 "C98": "Model: TreeNode.confidence looks the column up by name in the sample it is given; Gaussian.logProbability and Sample.at' walk the columns by position. Specification: valueAt (the value of a row under a name), treeValue (a tree as a function of named values). Proved by induction on the tree; that a trained tree tests known columns only by induction on the construction; lifted to the vote and to every run of AdaBoost. For naive Bayes and networks a witness shows two orders of the same two columns with different answers, and equality is proved for equal orders.",
 "C99": "Model/Frame.lean: a series is a name with f64 values (each possibly null) or another type; from_dataframe as written. Specification Spec/Frame.lean: FrameOk (what polars guarantees), frameCell. Proved by induction on the columns; compared with csv through ReadsAs.",
 "C100": "Model/Display.lean: Display of Bin, Bins, DecisionTree, RegressionTree as string functions with the panics (expect on an empty maximum, ilog10 of 0) and with the hash-map order as a parameter. Proved: build never leaves a column without bins, so the panics only occur without columns.",
 "C101": "Spec/Provenance.lean: the answers of a run and `FromRun` (order-preserving sublist). One lemma for all boosters (every boost asks at most once, appends or drops the answer, or asks nothing and breaks), then a case analysis of each boost; TreesByName.lean lifts C98 to every booster.",
 "C102": "Model/Research.lean: current_hypothesis of the eleven boosters that implement Research. Spec/Research.lean: Undisturbed and Transparent. Proved by induction on the two loops; the logger's evaluation can only fail at a state where a vote cannot be built, which the invariants of C61 exclude after every completed round.",
 "C103": "Follow one call of produce in F64 (a relation, covering every order): the label maps are near the exact signed sums (signs +-1, so at most two entries), a leaf's answer is near the mean label; the scan of split_by_edge finds a threshold whose difference is near the best one over all bins; merging of bins moves thresholds only between values of rows; pruning replaces a subtree only if that costs almost nothing; the edge of a tree is a sum of squares over leaves and grows with each split (Cauchy-Schwarz).",
 "C104": "The tree that produce returns is Grown (C22): each leaf stores the weighted mean label of the rows reaching it. Induct on the tree: for every function g of the confidence, sum d_i y_i g(conf_i) = sum d_i conf_i g(conf_i); take g an indicator, the identity and the sign.",
 "C105": "treeLearner_error (C104) turns the edge of the trees (C81) into the hypothesis of the theorems on each booster: GraphSepBoost needs an error below 1/2, SmoothBoost an edge 2 gamma, MadaBoost a positive edge, ERLPBoost a first edge above -1 + tolerance.",
 "C106": "C97's reading part is factored into a lemma: the sample read has 0/1 columns and a column vote; the default builder puts a boundary between 0 and 1 in each column, so the column vote is a vote of available tests; then C81/C105 for each booster. At nu = 1 the soft margin is the margin of every row (point masses are capped distributions).",
 "C107": "A tree's edge on its own distribution is at most one and the code's edge constraint lacks the tolerance, so the program of SoftBoost has the uniform distribution as its solution again (C67's stuck run); the tree grown for the uniform distribution of the witness uses one test, and two rows with different labels fall on the same side.",
 "C108": "position finds the column because names are distinct; the scatter loop of a sparse column is followed entry by entry (distinct rows below n); removal of the column keeps the others, and the name table is rebuilt from them.",
 "C109": "Model GraphSepBoost in binary64 (Model/FloatGraphSep.lean); prove that its run is the exact run with rounded queries; bound the signed edge of a tree's signs from the leaves' means; average over the vote to get a good test; combine with graphsep_run_zero_error and graphsep_calls.",
 "C110": "Show that a sample of 0/1 columns meets the moderate-size conditions of C93, that cutting in f64 puts a bin boundary between 0 and 1, so the column vote becomes a vote over the trees' tests; apply C109.",
 "C111": "Follow the scan over the bins with an invariant: the rounded left and right totals of each label are near the exact ones and a label is present while its exact rest is at least 10^-6; the rounded Gini score is then near the exact one, so the chosen boundary is near-optimal; relate the drop of the Gini impurity to the squared edge of a test. For (d), replace the learner by one that falls back to the criterion edge on tiny weights, which a run never sees, and apply C109.",
 "C112": "Model AdaBoostV over F64 with relational parallel sums. Invariant over the rounds: the exact product of the normalisers is at most exp(\u2212T\u03bd\u00b2/2 ...) because each vote balances the edge against the target \u03b3 \u2212 \u03bd, and each rounded weight tracks the exponential of its exact margin up to a relative error per round; the vote is then divided by its rounded norm.",
 "C113": "Average the vote over the normalised weights: some test has an edge of at least \u03b8 times the sum of the weights; C103 turns that into an edge of the tree, C112 and C92 into the guarantee of the booster.",
 "C114": "An \u03b5-accurate answer is a near-optimal pair of a vote and a weighting; clip both to probability vectors, weak duality gives the bounds; a hypothesis produced twice makes the gap smaller than the tolerance.",
 "C115": "The adopted weights have passed the check, so they are non-negative with a total within 10^-5 of 1; the convergence proof of the Frank-Wolfe step tolerates that. The counterexample adds \u03b5 to the last multiplier of an optimal answer.",
 "C116": "Read the conditions up to \u03b5 on the rows of the matrix; the inner loop ends because the reported value falls by 10^-9 each time and is bounded below; for the final program, weak duality with error terms, and an exactly capped distribution next to the nearly capped one.",
 "C117": "Read the conditions up to \u03b5 on the rows of the matrix (Lemmas/GammaAccurate.lean); clipping at 0 moves the total by at most m\u03b5; the reported values are bounded below, so the inner loop, which goes on only while they fall by 10^-9, ends; the first solve is below 1000, so the weights are always those of the current hypotheses.",
 "C118": "Invariant per example: the rounded counter is within n\u00b710^-9 of the exact one and the weight within 12 ulp of (1-\u03b3)^(N/2) (Lemmas/FloatSmoothRun.lean); the exact potential argument of C16 is repeated with an error of 3\u00b710^-8 per unit of weight (Lemmas/FloatSmoothBound.lean, FloatSmoothPot.lean); votes in Lemmas/FloatSmoothVote.lean.",
 "C119": "Smooth weights are weights a tree can be trained on (C94 allows zeros); the edge of a tree is at least the square of the best test's edge (C103 in f64); both are fed to C118. Props/FloatSmoothTrees.lean.",
 "C120": "Model/FloatMada.lean; relative errors of the parameters, absolute errors of the scores and of the logarithmic sum (Lemmas/FloatMada*.lean), an invariant over the rounds; the panic is computed from ln 2 to 20 decimals (Props/FloatMadaPanic.lean).",
 "C121": "Model/FloatRegTree.lean: losses, builder, packing, split search and growth in F64, sums as arbitrary Split trees. Integer-valued sums (hessians, signs) are exact; a live-node lemma shows packing never unwraps an empty iterator; signed sums satisfy |s - \u03a3x| \u2264 ((1+u)^n - 1)\u03a3|x| by induction on the split; then the leaf quotient and Cauchy-Schwarz.",
 "C122": "Each round's coefficient times the predictor's total is the total of the targets (Fitted, C21); induct over the pairs; Cauchy-Schwarz. For trees: the root's loss is the squared gradient sum over n + lambda, so a zero sum stops growth at a zero leaf (RGrown, C31).",
 "C123": "Model/FloatGBM.lean. Determinism by induction on the remaining rounds. Median: the running sum ends at the same total as the sum before it, and half a total rounds to at most the total. Integer sums below 2^53 are exact for every split. Overshoot: invariant |q - E| <= (4e-9 + n e-12) E + n e-58 per example, with the exact scaled sum E.",
 "C124": "Model/FloatGBM.lean. The computed partial sums are within 10^-9 of the exact ones, so the chosen quotient is a weighted median up to 5e-9 of the total; an almost-median is almost optimal, and the gap is absorbed by the triangle inequality. History by induction over the loop.",
 "C125": "Model/FloatCERLP.lean. Weights keep a sum within 14u per round of one; a softmax puts the mean margin within ln n / eta of the smallest; the computed gap of the edges is within 1e-8 of the exact one, so the numerator of a short step is not zero and the step size is never NaN.",
 "C126": "Model/FloatCERLP.lean. The computed weights are within 3e-5 of the exact entropy projection (C96); an entropy projection has a mean margin within ln(n/nu)/eta of the smallest over the capped simplex; weights keep a sum within 14u per round of one.",
 "C127": "Model/FloatCERLP.lean, Model/FloatTree.lean, Model/FloatTreeEq.lean. The weights of CERLPBoost are f64 numbers of sum about one, hence weights on which training returns (C94); averaging gives a test with edge theta, C103 a tree with edge about theta^2; C125 and C126 do the rest.",
 "C128": "Model/Sample.lean, Model/FloatTree.lean, Model/FloatCERLP.lean, Model/FloatSmooth.lean, Model/FloatMada.lean. C110 gives the sample, the bins and the margin of a vote over tests; C127, C119, C120 do the rest.",
 "C129": "Model/FloatObjective.lean. The f64 loop is compared with the exact loop of C49 by induction: the weight left differs by at most 6u per round, and where the two loops stop at different rows the rest of the weight is at most that difference. The terms of the exponential loss take two values, whose sum is bounded by C94's lemmas on sums.",
 "C130": "Model/FloatMLP.lean. The invariant gives finite nonnegative weights that sum to one within the checked 1e-5 (the check runs after the comparison, so a NaN that won the comparison stops the run), the projection of C117 gives near-capped distributions, and the objective computed in binary64 is compared with the soft margin through the entropy, whose rounding error is bounded by a term proportional to 1/eta.",
 "C131": "Spec/FloatRerun.lean defines the states left behind. The settings are kept by preprocess and boost; preprocess overwrites every other field except `terminated`, and the relation 'equal up to terminated' is preserved by every round.",
 "C132": "C130 combined with the edge of the trees (C112, C127), the reading of files (C128) and the objective in binary64 (C129)."
}