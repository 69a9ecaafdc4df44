# DESIGN

A formal model of `rmitsuboshi/miniboosts` (source read as text in /repo, never built or run) in Lean 4.33 + Mathlib, and
theorems about it. This file is written by `tools/design.py` from `tools/design_head.md`, `properties.jsonl`,
`tools/plans.json` and `MANIFEST.json`.

## Layout

* `lean/Verif/Model/*.lean` — the model, function by function; every definition cites the file and lines it models.
* `lean/Verif/Spec/*.lean` — small vocabularies in which the properties are stated (probability vectors, edges, votes,
  soft margins, tilings, well-formed samples, optimal programs, ...), independent of the model's helpers.
* `lean/Verif/Lemmas/*.lean` — auxiliary facts.
* `lean/Verif/Props/*.lean` — the property theorems, each followed by an example or witness whose hypotheses are met.
* `seeded/mutations/*.json`, `seeded/LOG.jsonl` — the wrong programs tried and what failed (`tools/mutate.py`).

## Trusted base

1. Lean's kernel. No own axioms, no compiled-code proofs.
2. The axioms of the manifest theorems are `propext`, `Quot.sound` and (for most) `Classical.choice`; nothing else
   (checked with `#print axioms` on every theorem in MANIFEST.json, and by `vcheck`).
3. The reading of the Rust source: nothing is extracted, so the correspondence model/code rests on the cited lines.
4. The conventions below.

## Modelling conventions and simplifications

* `f64` is exact, except in `Model/Float.lean`: an ordered field `K` (with floor where the code casts to integers), or `ℝ` where `exp`, `ln`,
  `sqrt` occur. `Model/Float.lean` defines binary64 (53 bits, nearest even, subnormals, overflow, infinities, NaN; the two zeros are
  identified; `exp` and `ln` have a relative error of at most 2^-50 before rounding) and AdaBoost computed with it under every schedule;
  C90-C96, C103, C109-C113, C118-C121, C123-C132 are about that model and its extensions (FloatTree, FloatTreeBoost, FloatProject, FloatGraphSep, FloatAdaBoostV, FloatSmooth, FloatMada, FloatRegTree, FloatGBM, FloatCERLP, FloatTreeEq, FloatObjective, FloatMLP; `sqrt` is correctly rounded, `powf` has a relative error of at most 2^-50 before rounding) (its loop limit is computed exactly). Elsewhere rounding, overflow, infinities and NaN are not
  modelled, except where NaN/∞ decides the result: naive Bayes represents
  a NaN as `none`, division by zero and logarithms of non-positive numbers that would become non-finite are the
  explicit panic value `nonFinite` or hypotheses. 
* `usize` is `Nat`; underflow, index out of range, `unwrap` of `None`, `assert!`, `panic!` are explicit error values
  (`Panic`). A loop that may not end has fuel; running out of fuel is the value `diverges`/`none`.
* `Vec` is `List`; `HashMap` is an association list without repeated keys whose traversal order is a parameter;
  `HashSet` is `Finset`; parallel iterators are replaced by their sequential results. The replacement is justified by a second
  model (`Model/Rayon.lean`, `ParBoost.lean`, `ParTree.lean`, `ParMisc.lean`) in which rayon divides the work arbitrarily, the
  threads interleave arbitrarily and hash maps are traversed in any order: C88 and C89.
* `&mut self` methods return the new state. `Booster::run` is `Booster.run` over `preprocess`, `boost`, `postprocess`.
* The weak learner is an arbitrary function of the call number and the distribution (so it may be randomised or
  stateful). Where a concrete learner matters (trees, naive Bayes, networks, worst-case learner), it is modelled too.
* clarabel is a parameter `Solver`, with hypotheses `Correct` (returns an optimal primal-dual pair when one exists),
  `Reports`, `Signals`; that such solvers exist is proved. C114-C117 need only `Accurate ε` (residuals of at most ε) or `Shaped` (lengths). The programs handed to the solver (CSC matrices, cones) are
  modelled entry by entry and their meaning is proved.
* Random numbers are arbitrary functions, permutations and draws; the clock, printing and the file system are parameters
  (file contents as lists of lines).

## Modelled

booster: adaboost, adaboostv, madaboost, smoothboost, graph separation, gbm, lpboost (+lp_model), erlpboost (+qp_model),
softboost (+qp_model), totalboost, cerlpboost, mlpboost (+perturbed_lp_model), core. common: checker, frank_wolfe,
loss_functions, utils. hypothesis: traits, weighted_majority, naive_aggregation. research: cross_validation, logger,
logger_builder, objective_functions. sample: feature_struct, sample_reader, sample_struct. weak_learner: decision_tree/*,
regression_tree/*, bad_learner/*, naive_bayes/*, neural_network/*, common/*, core.

## Not modelled

* `*/gurobi_*_model.rs` — behind a feature gate, other solver bindings of the same programs. Read, not modelled: with the feature on,
  the crate cannot compile at this commit (MLPBoost calls `LPModel::init` with three arguments where two are declared, ERLPBoost calls
  `update` with two where three are declared, SoftBoost's model refers to the undefined `env`, `size`, `self.dist` and `self.model`), so
  this code is unreachable.
* `booster/leveragings/*`, `weak_learner/union/wl_union.rs`, `booster/mlpboost/lp_model.rs` — not compiled (no `mod` declaration).
* `common/task.rs` — enums only; serde derives; `info`/`Display` strings (except those of tree learners (C100), the logger's time format and DOT lines).
* Floating-point rounding outside AdaBoost (C90-C92), AdaBoostV (C112, C113), SmoothBoost (C118), MadaBoost (C120), GraphSepBoost (C109), the decision-tree learner
  (C93-C95, C103, C111), the regression-tree learner (C121), GBM (C123, C124), CERLPBoost (C125-C127) and the projection onto the capped simplex (C96), performance, I/O errors; of rayon its scheduler, only the set of executions it allows.

## Disagreements between code and documented behaviour found on the way

Each was formalised as a theorem about the model (names in MANIFEST.json) unless marked (read).

* AdaBoost: a perfectly wrong hypothesis (edge <= -1) panics in postprocess. A run panics iff the total of the votes is not positive.
* AdaBoost: the documented claim that separable samples are classified correctly fails for every tolerance; it needs a margin of twice
  the tolerance (C84).
* AdaBoost in f64: whether a perfect hypothesis is recognised (and ends the run) depends on how the threads share a sum (C90). Without the
  condition on the edges in C91 two weights may become zero; then (read) the next weights are NaN and the sorting panics.
* MadaBoost: the update raises the weight of correctly classified examples. In f64 an always-wrong hypothesis can make it panic, e.g. in the
  first round on two examples (C120; with glibc also on 8, 23, 30, 31 and 54 examples); in exact arithmetic boosting never panics.
* SmoothBoost: `n_sample` many hypotheses at most are returned; the default gamma 0.5 always panics in preprocess.
* GBM: the returned model is normalised and loses negative coefficients; the tolerance is ignored; line search is made
  against the targets instead of the residuals; L2 line search is sum(y)/sum(p); the L1 gradient has the wrong sign.
* GBM with the squared loss: the line search is made on the targets, not on what is left of them, by the quotient of the sums, so the predictions after
  n rounds sum to n times the targets' sum (any weak learner); with regression trees the second tree is zero and the run panics (exact arithmetic: C122; in f64, within stated bounds: C123).
* LPBoost: slack coefficient nu instead of 1/nu, so nu has no effect on the program.
* SoftBoost/TotalBoost: cap row makes d_i <= 1; the edge constraint lacks the tolerance, so a deterministic learner is
  queried with the uniform distribution forever (with decision trees: the result is one tree, C107); nu = n panics.
* MLPBoost: cap row makes d_i <= 1; nu = n panics.
* ERLPBoost: stopping in the first round panics; a zero weight freezes the inner loop, so the documented soft-margin guarantee fails.
* The projection onto the capped simplex panics in f64 ("capping constraint is violated!") when a weight equals the cap up to
  rounding, e.g. with nu tied hardest examples and negligible others (C96; simulated with glibc: 78 of the nu in 1..199); this reaches
  CERLPBoost, MLPBoost and the Frank-Wolfe line searches.
* CERLPBoost/Frank-Wolfe: nu = m panics; the line search bisects in the wrong direction; blended pairwise overwrites a weight,
  so MLPBoost with it can end with all weights zero and panic when the weak learner repeats an answer (C61).
* LPBoost: with a solver whose residuals exceed the tolerance training may never return (C114).
* MLPBoost: an adopted solver weight above 1 by any ε > 0 (or below 0) panics, the check has no tolerance for single weights (C115).
* ExponentialLoss is evaluated at predictions, not confidences.
* Logger: evaluating the intermediate hypothesis can panic where the unlogged run succeeds; print interval 0 panics.
* from_dataframe accepts a target of another length (C99). Printing a tree learner of a sample without columns panics (C100).
* Samples: short csv lines are accepted and shift later values, long lines panic; the label check saturates at i32; sparse
  per-label statistics and the sparse distinct count are wrong; cross-validation reads zeros from sparse columns in all
  folds but the first and panics for some sizes.
* Decision trees: with three or more labels the trained tree depends on the random seed of a hash map (C89); cutting panics for two or more bins narrower than 1e-9; pruning never changes a tree; in f64 building a
  learner loops for ever on two neighbouring large values and panics on large ranges and large constant columns (C93); in f64 the
  Gini search may lose a label by rounding and unwrap a `None` (C94).
* Regression trees: a zero gradient sum gives the constant-zero leaf; max_depth d gives at most d-1 tests; with L1 the tree
  moves away from the targets, drops cancelling bins and divides by zero for lambda = 0, which in f64 may panic (C121).
* Naive Bayes and neural networks read the columns of the sample to predict by position, not by name; trees by name (C98).
* Naive Bayes: ln var is multiplied by the number of features; constant columns give NaN and a constant answer.
* Neural network: the sigmoid derivative lacks a square and the softmax derivative is diagonal, so a step is not a gradient step with such hidden layers (C77); one-output binary labels are decoded inverted; the inherited
  `predict` of a multi-class network is always +1; (read) the loss cannot be set.
* Worst-case learner: (read) the doc comment of two hypotheses is wrong; builder excludes nu = n.

## Per property: plan and outcome

| id | property | how it is modelled and proved | outcome |
|---|---|---|---|
| C01 | AdaBoost always hands the weak learner a probability distribution | State machine AdaBoost.State over R; invariant by induction over the list of hypotheses returned. | proved |
| C02 | AdaBoost weights are the exponential weights of the past votes | Closed form by induction; ratios of weights compared with exp of past votes. | proved |
| C03 | AdaBoost makes the last hypothesis useless | Algebra on exp/log of the edge weight. | proved |
| C04 | AdaBoost stops | Booster.run modelled as a fuelled/iterated driver over a boost step; count of weak-learner calls. | proved |
| C05 | AdaBoost training error bound | Potential argument on the normalisers; combined hypothesis modelled by WeightedMajority. | proved |
| C06 | AdaBoost shortcut on a perfect hypothesis | Case analysis; the edge <= -1 case is expected to be false (panic) - prove the negation with a witness. | partial: edge >= 1: proved. edge <= -1: the property is false of the code (negation proved: the run panics). |
| C07 | AdaBoostV keeps a distribution and stops | As C01/C04 with the AdaBoostV update. | proved |
| C08 | Vote weights are normalised and non-negative | from_slices as an Except-valued function over lists. | proved |
| C09 | Combined confidence is a convex combination | Convexity on lists. | proved |
| C10 | Scaling votes does not change predictions | Sign invariance. | proved |
| C11 | Projection returns a capped distribution | Model of the sort + search loop over R. | proved |
| C12 | Projection is the relative-entropy projection | KKT/three-point inequality for relative entropy. | proved |
| C13 | MadaBoost hands out a bounded distribution | Softmax of clipped log weights. | proved |
| C14 | MadaBoost moves weight to mistakes | Expected false (update has the wrong sign): negation with a witness plus what holds. | partial: false of the code: the update raises the weight of correctly classified examples; the negation is proved, with a concrete witness |
| C15 | SmoothBoost is smooth | Invariant 0<m_i<=1, sum>=kappa m when continuing. | proved |
| C16 | SmoothBoost stops after finitely many rounds | Servedio potential argument. | proved: the margin guarantee is proved for runs with at most as many rounds as examples (see C17) |
| C17 | SmoothBoost outputs all its hypotheses | Expected false beyond n_sample rounds: negation plus _partial. | partial: false of the code for runs with more rounds than examples (negation with witness); true when rounds <= examples |
| C18 | GraphSepBoost edge set is exact | Invariant over the edge sets. | proved |
| C19 | GraphSepBoost output is consistent with the sample | From C18 and C21. | proved |
| C20 | GraphSepBoost terminates | Edge count strictly decreases. | proved |
| C21 | NaiveAggregation is a lookup in the training votes | Bit-vector set membership. | proved |
| C22 | GBM returns the additive model it fitted | Expected false: negation plus _partial. | partial: false of the code: the output is normalised and negative coefficients are dropped (negation with witness); what it does return is proved exactly |
| C23 | L1 line search is optimal | Weighted-median argument. | proved |
| C24 | L2 line search is optimal | Expected false: negation plus _partial. | partial: false of the code: it returns sum(y)/sum(p), which is optimal only in special cases (negation with witness) |
| C25 | LPBoost solves the soft-margin program with cap 1/nu | CSC assembly denoted as linear inequalities; dual; expected false for nu>1. | partial: FALSE of the code: the slack coefficient is nu instead of 1/nu, so the cap is not enforced (negation with witness); what the program does solve (the hard-margin pair) is proved exactly. |
| C26 | LPBoost certificate at stopping | Solver = arbitrary oracle; invariant over rounds. | proved: Relative to a solver returning an optimal primal-dual pair whenever one exists; such pairs are proved to exist. |
| C27 | SoftBoost and TotalBoost use the capped simplex | CSC denotation of constraints; expected false for cap in QP. | partial: the cap 1/nu is not in the program (proved with a witness): the program is the documented one for nu = 1; everything else is proved |
| C28 | ERLPBoost uses the capped simplex | CSC denotation. | proved: Relative to a solver that returns an optimal primal-dual pair whenever one exists; the pairs are proved to exist and the inner loop is proved to end. |
| C29 | ERLPBoost bookkeeping and stopping | Solver = oracle. | proved: For every solver. |
| C30 | Frank-Wolfe steps stay in the simplex | Convexity of interior_point. | proved: Simplex preservation for classic, short step and line search; the two step sizes are characterised (2/(t+1); optimum of the quadratic bound). |
| C31 | Frank-Wolfe line search finds the best step | Expected false; negation. | partial: The full statement is FALSE of the code: the bisection moves in the wrong direction. Proved: the two failing directions for all inputs, and that the result stays in the simplex. |
| C32 | Pairwise Frank-Wolfe moves mass from the worst to the best | Expected false; negation plus _partial. | partial: FALSE of the code in general (the weight of the chosen hypothesis is overwritten): counterexample proved for every eta>0. Proved for a fresh hypothesis. |
| C33 | CERLPBoost weights and stopping | Invariant using C11 and C30. | proved: Classic and short-step strategies; cerlp_round_any covers all four (no panic, capped distributions, stopping rule); includes the soft margin guarantee rho - tolerance of the returned hypothesis. |
| C34 | MLPBoost never does worse than its two candidate weightings | State machine with oracle. | proved: The comparison and the absence of duplicates hold for any solver, perturbation and strategy; equal lengths need a correct solver and any strategy but blended pairwise. |
| C35 | Decision trees respect the depth limit | Induction on full_tree. | proved |
| C36 | Decision-tree output is bounded and has non-negative edge | Induction on full_tree. | proved |
| C37 | Decision-tree leaves own the training rows they were fitted on | Induction on full_tree. | proved |
| C38 | Decision-tree split search is optimal over its candidate thresholds | Fold over prefixes. | proved: for one search and for every test of every trained tree |
| C39 | Histogram bins partition the feature's range | List of contiguous intervals. | proved: cutting panics exactly when at least two bins narrower than 1e-9 are asked for |
| C40 | Pruning does not change a tree's function | Induction. | proved: stronger: pruning never changes a trained tree at all |
| C41 | Regression-tree leaves are optimal | Completing the square. | proved: the minimiser is unique; leaves of the trained tree, all losses with non-negative second derivatives and H + lambda > 0 |
| C42 | Regression trees respect the depth limit and split by best gain | Induction. | partial: depth proved for all losses (in fact at most d-1 tests); best gain and improvement proved for losses with positive second derivatives (squared loss); FALSE of the code for the absolute loss, whose cancelling bins are dropped (witness) |
| C43 | CSV reading keeps every cell | Parser after tokenisation: table of numbers. | proved: with and without header; beyond the property: non-rectangular files |
| C44 | Sparse features read back what was stored | Binary search over sorted list of pairs. | proved: files in which no line repeats a feature index |
| C45 | Dense and sparse representations have the same statistics | Sums over sparse/dense; per-label expected false. | partial: true for the overall mean and variance; false of the code for the per-label statistics and for the distinct count with explicit zeros (witnesses), exact excess proved |
| C46 | unique_target and label checks | Sort/dedup. | partial: unique_target proved; the label check saturates at the i32 range, so it accepts three labels beyond it (witness); exact when the integer labels fit i32 |
| C47 | Renaming features round-trips | Record update. | proved |
| C48 | Cross-validation folds partition the sample | Index arithmetic; expected panic for some sizes. | partial: proved for samples with dense columns and sizes whose folds start inside the sample; false of the code otherwise: exact panic condition (default settings: n in 1,2,3,6,7,11) and loss of sparse values (proved, with witness) |
| C49 | Soft-margin objective is the capped minimum | Uses C11-like greedy; lower bound + attained. | proved |
| C50 | Exponential objective dominates the error rate | exp(-x) >= 1 on x<=0. | proved: the code evaluates the loss at the predictions, not the confidences as documented (negation proved) |
| C51 | Logging does not change the result | Driver with log vs driver without. | partial: one line per boost call proved in full; same result proved whenever the intermediate evaluations do not panic (discharged for AdaBoost); FALSE in full: evaluating the intermediate hypothesis can panic, witness AdaBoost whose first edge is not positive |
| C52 | run is history independent | Spec: the states any sequence of earlier runs leaves behind (interrupted or finished). Settings are invariant under preprocess and boost (`used_setting`); preprocess depends on the settings only; so the run is the same. | proved: After any number of earlier runs (finished or interrupted, each with a weak learner of its own) a further run gives what a fresh object with the same settings gives, for all twelve boosters; the solver is a function of the program, and MLPBoost's perturbation a function of the draw within the run. |
| C53 | Naive Bayes picks the most probable label | argmax + log identity; density expected wrong for >1 feature. | partial: proved for one dense column (and for any number of columns when the products of the variances agree); the exact quantity maximised is proved for any number of dense columns with positive variances; FALSE in general, proved: two columns give the wrong label on a training row, a constant column or a weightless largest label makes the answer constant (NaN); sparse columns are fitted wrongly (see label_variance_excess_partial) |
| C54 | Neural-network activations and derivatives | HasDerivAt; sigmoid derivative expected false. | partial: evaluation proved in full; derivatives proved for softmax (diagonal), ReLU off the kink and the identity; FALSE for the sigmoid at every point (missing square), proved |
| C55 | Neural-network label encoding round-trips | Round trips. | partial: multi-class labels and binary labels with two outputs round-trip; FALSE with a single output (label +1 is decoded as -1), proved; the inherited predict is constantly +1 for multi-class networks |
| C56 | Worst-case learner returns a maximum-edge hypothesis | argmax fold. | proved |
| C57 | Tree export is a tree | Induction on trees. | proved: decision and regression trees: both node types have the same shape and the same export |
| C58 | Margins and edges are dual | Sum exchange. | proved |
| C59 | Entropy helper is the relative entropy to uniform | Gibbs inequality. | proved |
| C60 | Logger and builder configuration | Builder record. | proved |
| C61 | Boosters do not panic on a valid sample | `run_returns_iff` reduces 'run returns' to reachable states; for each booster the panic conditions of preprocess, boost and postprocess are computed, which gives an iff per booster. Every Frank-Wolfe strategy is shown to answer and to leave a positive weight (`nextIterate_total`). MLPBoost with the blended pairwise strategy is refuted by a run in which the weak learner repeats an answer (`mlp_blended_can_panic`). | partial: False in general; the exact condition under which run returns is proved for all twelve boosters, CERLPBoost with all four Frank-Wolfe strategies.  AdaBoostV for any tolerance; MLPBoost with the blended pairwise strategy for weak learners that never repeat an answer.  With a repeated answer it can panic (proved: two examples, answers A, B, A; the step loses weight, C32, and the assertion on the weights fails). The conic boosters assume a correct solver. |
| C62 | AdaBoostV margin guarantee | Potential argument on the normalisers as in C05, with the shifted target edge. | proved |
| C63 | MadaBoost stops with non-negative votes | Invariant over rounds; vote weights are arctanh-like logs of positive ratios. | proved |
| C64 | Loss functions agree with their derivatives | HasDerivAt of every per-example loss; L1 expected false (sign). | partial: true for L2; for L1 the gradient has the wrong sign everywhere the loss is differentiable (proved) |
| C65 | GBM hands the weak learner the accumulated model | Invariant over rounds: predictions seen by the learner = weighted sum of the past hypotheses. | proved |
| C66 | SoftBoost returns the best vote over its hypotheses | Solver = oracle; LP denotation and optimality of the returned vote. | proved |
| C67 | SoftBoost reaches its tolerance | Expected false: the uniform distribution stays feasible, so the query never changes; negation. | partial: false of this code, proved: the edge constraint does not subtract the tolerance, so a deterministic weak learner is asked with the uniform distribution in every round |
| C68 | MLPBoost's linear program respects the cap | LP denotation; expected false for nu>1 (cap row). | partial: FALSE of the code for every nu > 1 (the cap row has the coefficient 1/nu on both sides): proved; the program is the one with cap 1. |
| C69 | MLPBoost converges | Frank-Wolfe rate on the smoothed soft margin; adopted secondary weights never hurt. | proved |
| C70 | Edge-criterion tree is a weak learner | Best split over bin boundaries dominates each stump of the combination; averaging argument. | proved |
| C71 | Decision-tree training never panics | Every unwrap/index discharged from TrainOk by induction on full_tree. | proved: in exact arithmetic; f64 is C94 |
| C72 | Decision-tree builder | Bins::cut length and panics as an exact condition. | proved |
| C73 | Squared-loss regression trees never increase the training error | Leaf optimality (C41) summed over the leaves. | proved |
| C74 | Regression-tree training and building do not panic | As C71 for regression trees. | proved |
| C75 | Regression trees move predictions towards the targets | Sign of leaf values; expected false for L1; negation for every sample. | partial: FALSE of the code, proved: with the absolute loss the tree moves away from the targets for every such sample; a zero gradient sum gives the constant zero, and boosting then panics |
| C76 | The worst-case learner forces LPBoost through n/2 rounds | Invariant over LPBoost rounds with the worst-case learner; complementary slackness. | proved |
| C77 | Neural-network training takes gradient-descent steps | Backward pass equals the Frechet derivative of the batch loss by induction over the layers. For hidden sigmoid and softmax layers a concrete network refutes the claim. | partial: proved for any depth with identity/ReLU (off the kink) hidden layers and identity/softmax/sigmoid output; FALSE of hidden sigmoid and softmax layers, proved: the trained bias is not the old one minus rate times the derivative, for every rate (the code's sigmoid derivative lacks a square, its softmax derivative the off-diagonal terms) |
| C78 | The neural-network learner returns a usable network | Totality of produce by shape invariants. | proved |
| C79 | ERLPBoost soft-margin guarantee | First-order optimality of the last quadratic program gives a margin bound; expected false in general, witness run. | partial: FALSE of the code, proved: with default parameters, 20 examples and a weak learner with edge >= 0.09 on every distribution the returned vote is wrong on 18 examples with margin <= -0.8 (an example whose weight becomes 0 is frozen by the curvature 1/(EPS*eta), and the loop stops because the objective no longer drops). Proved: margin >= rho - tolerance - r^2/((1-r) eta) for a run stopping before the limit, r the relative change in the last accepted inner step |
| C80 | Decision trees of every criterion are weak learners | Every criterion is rewritten as a function of the sum over the two sides of (signed weight)^2 / weight; the optimal split maximises it (up to a factor for entropy, by quadratic bounds on the binary entropy); sub-trees only add edge. | proved |
| C81 | Boosting decision trees works end to end | Averaging over the stump vote gives a stump with edge theta under every distribution; C80 turns it into a tree edge; the booster theorems (C05, C62, C26, C33, C69) are instantiated with the tree learner. | proved |
| C82 | When AdaBoost with trees returns | Weights are log-ratios of edges, so a zero first edge keeps the distribution uniform for ever; conversely a positive edge makes the normalising sum positive. | proved |
| C83 | Configuring a booster | Chains are folds of the setter functions; induction over the chain with an invariant and an observed field; then history independence of the run and the run guarantees at the default limits. | proved |
| C84 | Linearly separable samples | Averaging: a vote with margin 2 tau over C gives a member of C with edge at least 2 tau under every distribution, and the limit is enough for that edge. Negation: a sample where one hypothesis of decaying edge is preferred until the limit is reached. | partial: FALSE of the code as documented, proved for every tolerance: a separable 4-example sample and a largest-edge learner with which AdaBoost returns a hypothesis wrong on 3 examples (the limit ln(m)/tolerance^2 does not depend on the margin). Proved when the separating margin is at least twice the tolerance |
| C85 | Configuring a weak learner | As C83, for the builders; the table of bin counts is a map whose key set is invariant. | proved |
| C86 | Taking combined hypotheses apart and putting them together | Induction over the pushed votes; a normalised positive weight vector is a fixed point of normalisation. | proved |
| C87 | Statistics of a sample | Column by column; sparse columns through the dense column with the same values (C45). | proved: per-label statistics for samples of dense columns; sparse columns are C45 (wrong in the code, proved there) |
| C88 | Threads do not change the outcome | Model/Rayon.lean: a parallel iterator divides its items by an arbitrary binary tree; a parallel in-place update is an arbitrary interleaving of one load and one store per cell. Each parallel function becomes a relation between arguments and possible results; proved equal to the graph of the sequential function by induction over the division and over the interleaving, and lifted to whole runs by induction over the rounds. | proved: for exact addition, as the statement says; parallel collect of columns while reading a csv file or a data frame is an order-preserving map |
| C89 | Training trees is deterministic | Model/ParTree.lean: every function of the tree learners that runs a parallel iterator or traverses a hash map is a relation (arbitrary division, arbitrary order, new for every traversal). Sums and counters are invariant under permutation; ties between labels matter only for more than two labels, where a witness with two different results is exhibited. | partial: proved for regression trees and for decision trees with labels +1/-1; FALSE with three or more labels (the label of a leaf is the last maximum in the traversal order of a hash map), witness proved |
| C90 | Runs in f64 are reproducible | Model/Float.lean models binary64 (round to nearest even, subnormals, overflow, NaN) and AdaBoost computed with it, with the sums divided by an arbitrary `Split`; the witness adds ten rounded tenths in two ways. The positive part bounds the error of an arbitrary division of the sum. | partial: FALSE of the code, proved: on ten examples with default parameters and a learner returning a perfect hypothesis, one division of the first sum ends the run after one call of the learner (edge 1) and another goes on (edge 1 - 2^-53). Proved: every schedule computes the edge to within 1e-9 |
| C91 | AdaBoost in f64 stays a distribution | Error analysis of one round (hypothesis weight, log-weights, log-sum-exp in any order, exponentials); the new weights are within 2.1e-7 of the exact ones, and the factor of a weight is above one half because the chord bound on the normaliser holds up to the accumulated errors; invariant over the rounds. | proved: the conditions on the learner are about the rounds that a run reaches; the limit of the loop is computed exactly in the model; the two zeros are identified |
| C92 | AdaBoost's training error in f64 | The same invariant with the product of the normalisers and the margins of the vote; the rounding of the vote only matters for examples with a tiny margin. | proved |
| C93 | Building a tree learner in f64 comes to an end | Model/FloatTree.lean computes Bins::cut in binary64, with fuel for the while loop (none: not over yet). Positive part: by induction on the bins, the distance of the k-th boundary from min + k(max-min)/n is bounded by k times one rounding error, which stays below the tolerance. Negative part: the loop is evaluated with exact rounding on three columns. | partial: FALSE of the code, proved in binary64: two neighbouring values (2^53 and 2^53+2) make the builder loop for ever, six values from 0 to 2^24 make it panic, and so does a constant column of 2^53; proved to succeed, whatever the rounding, for n bins when the values are at most M with (n+8)M <= 2^21 and the bins are 3e-9 wide (or n = 1) |
| C94 | Training a decision tree in f64 never panics | Model/FloatTree.lean computes the whole decision tree in binary64; every sum over a hash map is taken in an arbitrary order and every parallel sum over an arbitrary division. Positive part: a sum of at most 10^6 non-negative f64s is within a factor (1 +- u)^k of the exact one (no underflow in additions), so that totals are positive, normalised weights add up to 1 +- 1e-6, the scores compared are never NaN and labels are found; then induction on the depth. Negative part: the Gini search is evaluated on a concrete sample for every order and division. | partial: FALSE of the code for the criterion Gini, proved in binary64: three rows with weights 1/2, 1/2, 2^-60 make training panic in every execution (the weight of a label is rounded to that of one row, the label is removed too early and then looked up). Proved for entropy, edge and twoing on up to 10^5 rows and bins, with the columns of C93 |
| C95 | AdaBoost on decision trees in f64 | Model: Model/FloatTreeBoost.lean (the learner returns any of the trees that FTree.Produce allows). Proof: C91/C92 only ask for fairness in the rounds that a run reaches (FloatReach, FairRun); the weights reached are binary64 numbers (SoundWeights), so C94 applies in every round. Example: three rows that no test separates, edges of about 1/9. | proved: composition of C91/C92 with C93/C94; the condition on the edges is about the rounds that a run reaches |
| C96 | The projection onto the capped simplex in f64 | Model: Model/FloatProject.lean (suffix log-sums, the loop and the final assertions of src/common/checker.rs in binary64). Specification: Spec/Projection.lean (the minimiser of the relative entropy). Proof: forward error analysis of the suffix log-sum-exp (log_lsum_bound), the loop stops at a pivot that is nearly the exact one (run_shape), the computed vector is close to min(1/nu, xi exp a) (go_cap, close_of_check); for nu = 1 monotonicity of rounding gives entries <= 1. Negation: a run computed by hand with exact libm. | partial: that it never panics is FALSE of the code, proved: nine margins -7/8..1/8 with eta = 800 and nu = 8 make the weight of the last capped example (-(8.ln())).exp() > 1/8, and the assertion fails. Proved: every returned vector is the exact projection up to 3e-5 (any nu); it returns when no example is within 1% of the cap and the uncapped mass is at least 1/1000; without a cap (softmax, nu = 1) it always returns |
| C97 | From a file to a trained classifier | Composition: csv_header_keeps_cells / svmlight_keeps_values give a well-formed sample with the cells of the file; for 0/1 columns the bins of the default builder have a boundary in (0, 1), so each column is a stump of the learner and the vote of the columns is a vote of stumps (columnVote_margin); adaboost_trees then gives zero training errors. The conditions (VoteTable, VoteRows) mention only the cells of the file; shown to be met by the table of a majority of three columns. | proved: in exact arithmetic; composition of C43/C44, C72, C80, C81 and C03 with the conditions stated on the file |
| C98 | Predictions on other samples | Model: TreeNode.confidence looks the column up by name in the sample it is given; Gaussian.logProbability and Sample.at' walk the columns by position. Specification: valueAt (the value of a row under a name), treeValue (a tree as a function of named values). Proved by induction on the tree; that a trained tree tests known columns only by induction on the construction; lifted to the vote and to every run of AdaBoost. For naive Bayes and networks a witness shows two orders of the same two columns with different answers, and equality is proved for equal orders. | partial: proved in full for trees, votes of trees and AdaBoost on trees; FALSE of the code for naive Bayes and neural networks, proved: they read the columns by position, so the same row listed as (a, b) and (b, a) gets different answers; for them proved when the samples list the same columns in the same order |
| C99 | A sample from a data frame | Model/Frame.lean: a series is a name with f64 values (each possibly null) or another type; from_dataframe as written. Specification Spec/Frame.lean: FrameOk (what polars guarantees), frameCell. Proved by induction on the columns; compared with csv through ReadsAs. | proved: polars is modelled by names, types, values and nulls of its series |
| C100 | Printing a tree learner | Model/Display.lean: Display of Bin, Bins, DecisionTree, RegressionTree as string functions with the panics (expect on an empty maximum, ilog10 of 0) and with the hash-map order as a parameter. Proved: build never leaves a column without bins, so the panics only occur without columns. | proved: the text of a number is a parameter |
| C101 | Returned hypotheses come from this run | Spec/Provenance.lean: the answers of a run and `FromRun` (order-preserving sublist). One lemma for all boosters (every boost asks at most once, appends or drops the answer, or asks nothing and breaks), then a case analysis of each boost; TreesByName.lean lifts C98 to every booster. | proved |
| C102 | Which boosters can be logged without changing the result | Model/Research.lean: current_hypothesis of the eleven boosters that implement Research. Spec/Research.lean: Undisturbed and Transparent. Proved by induction on the two loops; the logger's evaluation can only fail at a state where a vote cannot be built, which the invariants of C61 exclude after every completed round. | proved: C51 for each booster; the trait Research is not implemented for GBM |
| C103 | Decision trees trained in f64 are weak learners | Follow one call of produce in F64 (a relation, covering every order): the label maps are near the exact signed sums (signs +-1, so at most two entries), a leaf's answer is near the mean label; the scan of split_by_edge finds a threshold whose difference is near the best one over all bins; merging of bins moves thresholds only between values of rows; pruning replaces a subtree only if that costs almost nothing; the edge of a tree is a sum of squares over leaves and grows with each split (Cauchy-Schwarz). | proved: Conditions as in C93-C95: at most 1e5 rows and bins, columns of moderate size; boundaries of the bins, not arbitrary thresholds (the code only tests those). The upper bound 0.998 on the edges of the trees in the boosting theorem is a hypothesis, as in C95. |
| C104 | A trained tree's confidence is calibrated | The tree that produce returns is Grown (C22): each leaf stores the weighted mean label of the rows reaching it. Induct on the tree: for every function g of the confidence, sum d_i y_i g(conf_i) = sum d_i conf_i g(conf_i); take g an indicator, the identity and the sign. | proved: Exact arithmetic. The last two are stated for distributions under which training succeeds (TreesOk, C81/C96). |
| C105 | Decision trees with GraphSepBoost, SmoothBoost, MadaBoost and ERLPBoost | treeLearner_error (C104) turns the edge of the trees (C81) into the hypothesis of the theorems on each booster: GraphSepBoost needs an error below 1/2, SmoothBoost an edge 2 gamma, MadaBoost a positive edge, ERLPBoost a first edge above -1 + tolerance. | proved: Exact arithmetic. For MadaBoost and ERLPBoost no bound on the error is claimed here (C09, C65 are about that). |
| C106 | From a file to a correct classifier with each booster that guarantees one | C97's reading part is factored into a lemma: the sample read has 0/1 columns and a column vote; the default builder puts a boundary between 0 and 1 in each column, so the column vote is a vote of available tests; then C81/C105 for each booster. At nu = 1 the soft margin is the margin of every row (point masses are capped distributions). | proved: Exact arithmetic; a correct solver is assumed for LPBoost and MLPBoost; AdaBoostV is given at least 2 ln m / tolerance^2 rounds by force_quit_at. CERLPBoost and MLPBoost with the classic or short step rule. |
| C107 | SoftBoost and TotalBoost learn with decision trees | A tree's edge on its own distribution is at most one and the code's edge constraint lacks the tolerance, so the program of SoftBoost has the uniform distribution as its solution again (C67's stuck run); the tree grown for the uniform distribution of the witness uses one test, and two rows with different labels fall on the same side. | partial: FALSE (a bug of the crate): for every sample, criterion, depth, tolerance and nu, both ask for the tree of the uniform distribution in every round and return just that tree (softboost_trees_single, totalboost_trees_single); on a four-row sample that three stumps separate with margin 1/3, the result is wrong on a row (softboost_trees_wrong), where AdaBoost gets all rows right (C81). What remains true is that they return. |
| C108 | set_target turns a column into the labels | position finds the column because names are distinct; the scatter loop of a sparse column is followed entry by entry (distinct rows below n); removal of the column keeps the others, and the name table is rebuilt from them. | proved: The values are those that Feature::index returns (C43). |
| C109 | GraphSepBoost in f64, with any learner and with decision trees | Model GraphSepBoost in binary64 (Model/FloatGraphSep.lean); prove that its run is the exact run with rounded queries; bound the signed edge of a tree's signs from the leaves' means; average over the vote to get a good test; combine with graphsep_run_zero_error and graphsep_calls. | proved: The f64 run is simulated by the exact model run with the weights rounded before the learner sees them; the trees' side is C103 plus a lemma on the signs of the leaves. |
| C110 | From a file to zero training errors, in f64 | Show that a sample of 0/1 columns meets the moderate-size conditions of C93, that cutting in f64 puts a bin boundary between 0 and 1, so the column vote becomes a vote over the trees' tests; apply C109. | proved: Composition of C97/C106 (reading), C90/C93 (binning and training in f64) and C109 (the booster in f64). |
| C111 | Decision trees with the criterion Gini in f64: no panic with moderate weights, and a useful split | Follow the scan over the bins with an invariant: the rounded left and right totals of each label are near the exact ones and a label is present while its exact rest is at least 10^-6; the rounded Gini score is then near the exact one, so the chosen boundary is near-optimal; relate the drop of the Gini impurity to the squared edge of a test. For (d), replace the learner by one that falls back to the criterion edge on tiny weights, which a run never sees, and apply C109. | proved: Complements the finding of C94 (tree_f64_gini_panics): it says for which weights the panic cannot occur. In (d) the weights of GraphSepBoost are fractions with a denominator of at most 900² while a label is wrong, so they are never tiny. |
| C112 | AdaBoostV in f64 keeps sound weights and its margin guarantee | Model AdaBoostV over F64 with relational parallel sums. Invariant over the rounds: the exact product of the normalisers is at most exp(−Tν²/2 ...) because each vote balances the edge against the target γ − ν, and each rounded weight tracks the exponential of its exact margin up to a relative error per round; the vote is then divided by its rounded norm. | proved: Complements the exact-arithmetic margin theorem for AdaBoostV. The edges must stay at or below 0.95: near 1 the votes are unbounded. |
| C113 | AdaBoostV and AdaBoost on decision trees in f64 succeed when a vote over tests does | Average the vote over the normalised weights: some test has an edge of at least θ times the sum of the weights; C103 turns that into an edge of the tree, C112 and C92 into the guarantee of the booster. | proved: The upper bound on the edges is about the run; it holds for instance when the trees are too small to fit the sample. The example is one round on three rows. |
| C114 | LPBoost with a solver of finite accuracy | An ε-accurate answer is a near-optimal pair of a vote and a weighting; clip both to probability vectors, weak duality gives the bounds; a hypothesis produced twice makes the gap smaller than the tolerance. | proved: ε bounds absolute residuals of the program as LPBoost passes it on; rounding inside LPBoost itself is not part of this claim. |
| C115 | MLPBoost: the guarantee does not depend on the solver, the success does | The adopted weights have passed the check, so they are non-negative with a total within 10^-5 of 1; the convergence proof of the Frank-Wolfe step tolerates that. The counterexample adds ε to the last multiplier of an optimal answer. | proved: With exact solvers the panic does not occur and the bound is ρ − tolerance (C69). |
| C116 | SoftBoost and TotalBoost with a solver of finite accuracy | Read the conditions up to ε on the rows of the matrix; the inner loop ends because the reported value falls by 10^-9 each time and is bounded below; for the final program, weak duality with error terms, and an exactly capped distribution next to the nearly capped one. | proved: ε bounds absolute residuals of the programs as SoftBoost passes them on; rounding inside SoftBoost itself is not part of this claim. With an inexact solver an early stop no longer proves that the target cannot be met; nothing is claimed about that. |
| C117 | ERLPBoost with a solver of finite accuracy | Read the conditions up to ε on the rows of the matrix (Lemmas/GammaAccurate.lean); clipping at 0 moves the total by at most mε; the reported values are bounded below, so the inner loop, which goes on only while they fall by 10^-9, ends; the first solve is below 1000, so the weights are always those of the current hypotheses. | proved: ε bounds absolute residuals of the programs as ERLPBoost passes them on; rounding inside ERLPBoost itself is not part of this claim. No margin is claimed: C79 shows the documented one fails even with an exact solver. |
| C118 | SmoothBoost keeps its guarantees in f64 | Invariant per example: the rounded counter is within n·10^-9 of the exact one and the weight within 12 ulp of (1-γ)^(N/2) (Lemmas/FloatSmoothRun.lean); the exact potential argument of C16 is repeated with an error of 3·10^-8 per unit of weight (Lemmas/FloatSmoothBound.lean, FloatSmoothPot.lean); votes in Lemmas/FloatSmoothVote.lean. | proved: After more than m rounds the code drops hypotheses (C17), so nothing is said about the mistakes then. The factor 1/√(1-γ) comes from the code's counters starting at 1 (C61). |
| C119 | SmoothBoost on decision trees keeps its guarantees in f64 | Smooth weights are weights a tree can be trained on (C94 allows zeros); the edge of a tree is at least the square of the best test's edge (C103 in f64); both are fed to C118. Props/FloatSmoothTrees.lean. | proved: The sample's property is stated about the data alone (a vote over tests with margin θ), not about the learner. |
| C120 | MadaBoost keeps its guarantees in f64, or panics | Model/FloatMada.lean; relative errors of the parameters, absolute errors of the scores and of the logarithmic sum (Lemmas/FloatMada*.lean), an invariant over the rounds; the panic is computed from ln 2 to 20 decimals (Props/FloatMadaPanic.lean). | proved: The bound 3000 keeps the scores where the logarithmic sum is accurate. The learner's conditions need to hold only for weights as described. |
| C121 | Regression trees computed in f64: a tree is always returned and fits its leaves | Model/FloatRegTree.lean: losses, builder, packing, split search and growth in F64, sums as arbitrary Split trees. Integer-valued sums (hessians, signs) are exact; a live-node lemma shows packing never unwraps an empty iterator; signed sums satisfy |s - Σx| ≤ ((1+u)^n - 1)Σ|x| by induction on the split; then the leaf quotient and Cauchy-Schwarz. | proved: The conditions on the columns are those of C93 (outside them cutting a column may itself panic or not end). The two zeros are identified, so the sign of a zero difference is left open; the statement on answers for the absolute loss excludes it. |
| C122 | Gradient boosting with the squared loss overshoots by the number of rounds | Each round's coefficient times the predictor's total is the total of the targets (Fitted, C21); induct over the pairs; Cauchy-Schwarz. For trees: the root's loss is the squared gradient sum over n + lambda, so a zero sum stops growth at a zero leaf (RGrown, C31). | proved: What the code does is proved; what a user expects (the error falls with the rounds) is false. Exact arithmetic: in f64 the second tree's gradients sum to a rounding error instead of zero unless the sums happen to be exact, and then the coefficient is that error's reciprocal in size rather than a panic. A tree learner that panics is replaced by the constant zero, which makes the run panic as well. |
| C123 | Gradient boosting in f64: it ends with one result, overshoots, and may panic | Model/FloatGBM.lean. Determinism by induction on the remaining rounds. Median: the running sum ends at the same total as the sum before it, and half a total rounds to at most the total. Integer sums below 2^53 are exact for every split. Overshoot: invariant |q - E| <= (4e-9 + n e-12) E + n e-58 per example, with the exact scaled sum E. | proved: f64 counterpart of C122. Trees with several leaves in f64: the second round's sum is a rounding error, not exactly zero, so nothing is claimed there. The two zeros are identified. |
| C124 | Gradient boosting in f64: the coefficient for the absolute loss is almost optimal, and the learner sees the sum of the rounds | Model/FloatGBM.lean. The computed partial sums are within 10^-9 of the exact ones, so the chosen quotient is a weighted median up to 5e-9 of the total; an almost-median is almost optimal, and the gap is absorbed by the triangle inequality. History by induction over the loop. | proved: f64 counterpart of C23 and C65. |
| C125 | CERLPBoost in f64: no numerical panic, sound distributions, margins within the tolerance | Model/FloatCERLP.lean. Weights keep a sum within 14u per round of one; a softmax puts the mean margin within ln n / eta of the smallest; the computed gap of the edges is within 1e-8 of the exact one, so the numerator of a short step is not zero and the step size is never NaN. | proved: f64 counterpart of C33. That the run stops before the limit is a hypothesis of the margin statement (in exact arithmetic C33 proves the bound at the limit too); nu > 1 is C126; the two line searches are covered only by the exact model. |
| C126 | CERLPBoost in f64 with a cap: capped distributions, soft margin, fewer than nu mistakes | Model/FloatCERLP.lean. The computed weights are within 3e-5 of the exact entropy projection (C96); an entropy projection has a mean margin within ln(n/nu)/eta of the smallest over the capped simplex; weights keep a sum within 14u per round of one. | proved: f64 counterpart of C34. Conditional on the run returning: for nu > 1 the projection can panic on rounding errors (C96, project_f64_can_panic); for nu = 1 C125 shows that it does not. That the run stops before the limit is a hypothesis of the margin statements. |
| C127 | CERLPBoost on decision trees, all in f64 | Model/FloatCERLP.lean, Model/FloatTree.lean, Model/FloatTreeEq.lean. The weights of CERLPBoost are f64 numbers of sum about one, hence weights on which training returns (C94); averaging gives a test with edge theta, C103 a tree with edge about theta^2; C125 and C126 do the rest. | proved: C125 and C126 composed with C94 and C103. That the run stops before the limit is a hypothesis of the margin statements; the capped statement is conditional on the run returning. |
| C128 | From a file to CERLPBoost, SmoothBoost and MadaBoost, all in f64 | Model/Sample.lean, Model/FloatTree.lean, Model/FloatCERLP.lean, Model/FloatSmooth.lean, Model/FloatMada.lean. C110 gives the sample, the bins and the margin of a vote over tests; C127, C119, C120 do the rest. | proved: The counterpart of C110 (GraphSepBoost) for the other boosters in f64: C110's reading of a file composed with C127, C119 and C120. That CERLPBoost stops before the limit is a hypothesis of its last conclusion. |
| C129 | The objective functions in f64 | Model/FloatObjective.lean. The f64 loop is compared with the exact loop of C49 by induction: the weight left differs by at most 6u per round, and where the two loops stop at different rows the rest of the weight is at most that difference. The terms of the exponential loss take two values, whose sum is bounded by C94's lemmas on sums. | proved: The f64 counterpart of C49 and C50; the exact soft margin comes from C49. As C50 shows, the exponential loss is that of the predictions, not of the confidences. |
| C130 | MLPBoost in f64, with any LP solver | Model/FloatMLP.lean. The invariant gives finite nonnegative weights that sum to one within the checked 1e-5 (the check runs after the comparison, so a NaN that won the comparison stops the run), the projection of C117 gives near-capped distributions, and the objective computed in binary64 is compared with the soft margin through the entropy, whose rounding error is bounded by a term proportional to 1/eta. | proved: The f64 counterpart of the MLPBoost properties in exact arithmetic. exMlpF_run shows that the claims are not vacuous: with a solver that answers only NaN a run on two examples returns a vote. |
| C131 | In f64 too, a booster object can be run again | Spec/FloatRerun.lean defines the states left behind. The settings are kept by preprocess and boost; preprocess overwrites every other field except `terminated`, and the relation 'equal up to terminated' is preserved by every round. | proved: The f64 counterpart of C52. MLPBoost: the LP solver is a function of its input, so the random perturbations are taken to be the same in both runs. A run that panics inside boost is not continued. |
| C132 | MLPBoost on decision trees and from a file in f64, and the objective of its vote, with any LP solver | C130 combined with the edge of the trees (C112, C127), the reading of files (C128) and the objective in binary64 (C129). | proved: That a run on trees returns is not claimed: the check on the weights may panic when the LP solver's answer wins the comparison without being a distribution. |

The theorem names are in MANIFEST.json.
