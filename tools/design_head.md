# DESIGN

A formal model of `rmitsuboshi/miniboosts` (source read as text in /repo, never built or run) in Lean 4.33 + Mathlib, and
theorems about it. This file is written by `tools/design.py` from `tools/design_head.md`, `properties.jsonl`,
`tools/plans.json` and `MANIFEST.json`.

## Layout

* `lean/Verif/Model/*.lean` — the model, function by function; every definition cites the file and lines it models.
* `lean/Verif/Spec/*.lean` — small vocabularies in which the properties are stated (probability vectors, edges, votes,
  soft margins, tilings, well-formed samples, optimal programs, ...), independent of the model's helpers.
* `lean/Verif/Lemmas/*.lean` — auxiliary facts.
* `lean/Verif/Props/*.lean` — the property theorems, each followed by an example or witness whose hypotheses are met.
* `seeded/mutations/*.json`, `seeded/LOG.jsonl` — the wrong programs tried and what failed (`tools/mutate.py`).

## Trusted base

1. Lean's kernel. No own axioms, no compiled-code proofs.
2. The axioms of the manifest theorems are `propext`, `Quot.sound` and (for most) `Classical.choice`; nothing else
   (checked with `#print axioms` on every theorem in MANIFEST.json, and by `vcheck`).
3. The reading of the Rust source: nothing is extracted, so the correspondence model/code rests on the cited lines.
4. The conventions below.

## Modelling conventions and simplifications

* `f64` is exact, except in `Model/Float.lean`: an ordered field `K` (with floor where the code casts to integers), or `ℝ` where `exp`, `ln`,
  `sqrt` occur. `Model/Float.lean` defines binary64 (53 bits, nearest even, subnormals, overflow, infinities, NaN; the two zeros are
  identified; `exp` and `ln` have a relative error of at most 2^-50 before rounding) and AdaBoost computed with it under every schedule;
  C90-C96, C103, C109-C113, C118-C121, C123-C132 are about that model and its extensions (FloatTree, FloatTreeBoost, FloatProject, FloatGraphSep, FloatAdaBoostV, FloatSmooth, FloatMada, FloatRegTree, FloatGBM, FloatCERLP, FloatTreeEq, FloatObjective, FloatMLP; `sqrt` is correctly rounded, `powf` has a relative error of at most 2^-50 before rounding) (its loop limit is computed exactly). Elsewhere rounding, overflow, infinities and NaN are not
  modelled, except where NaN/∞ decides the result: naive Bayes represents
  a NaN as `none`, division by zero and logarithms of non-positive numbers that would become non-finite are the
  explicit panic value `nonFinite` or hypotheses. 
* `usize` is `Nat`; underflow, index out of range, `unwrap` of `None`, `assert!`, `panic!` are explicit error values
  (`Panic`). A loop that may not end has fuel; running out of fuel is the value `diverges`/`none`.
* `Vec` is `List`; `HashMap` is an association list without repeated keys whose traversal order is a parameter;
  `HashSet` is `Finset`; parallel iterators are replaced by their sequential results. The replacement is justified by a second
  model (`Model/Rayon.lean`, `ParBoost.lean`, `ParTree.lean`, `ParMisc.lean`) in which rayon divides the work arbitrarily, the
  threads interleave arbitrarily and hash maps are traversed in any order: C88 and C89.
* `&mut self` methods return the new state. `Booster::run` is `Booster.run` over `preprocess`, `boost`, `postprocess`.
* The weak learner is an arbitrary function of the call number and the distribution (so it may be randomised or
  stateful). Where a concrete learner matters (trees, naive Bayes, networks, worst-case learner), it is modelled too.
* clarabel is a parameter `Solver`, with hypotheses `Correct` (returns an optimal primal-dual pair when one exists),
  `Reports`, `Signals`; that such solvers exist is proved. C114-C117 need only `Accurate ε` (residuals of at most ε) or `Shaped` (lengths). The programs handed to the solver (CSC matrices, cones) are
  modelled entry by entry and their meaning is proved.
* Random numbers are arbitrary functions, permutations and draws; the clock, printing and the file system are parameters
  (file contents as lists of lines).

## Modelled

booster: adaboost, adaboostv, madaboost, smoothboost, graph separation, gbm, lpboost (+lp_model), erlpboost (+qp_model),
softboost (+qp_model), totalboost, cerlpboost, mlpboost (+perturbed_lp_model), core. common: checker, frank_wolfe,
loss_functions, utils. hypothesis: traits, weighted_majority, naive_aggregation. research: cross_validation, logger,
logger_builder, objective_functions. sample: feature_struct, sample_reader, sample_struct. weak_learner: decision_tree/*,
regression_tree/*, bad_learner/*, naive_bayes/*, neural_network/*, common/*, core.

## Not modelled

* `*/gurobi_*_model.rs` — behind a feature gate, other solver bindings of the same programs. Read, not modelled: with the feature on,
  the crate cannot compile at this commit (MLPBoost calls `LPModel::init` with three arguments where two are declared, ERLPBoost calls
  `update` with two where three are declared, SoftBoost's model refers to the undefined `env`, `size`, `self.dist` and `self.model`), so
  this code is unreachable.
* `booster/leveragings/*`, `weak_learner/union/wl_union.rs`, `booster/mlpboost/lp_model.rs` — not compiled (no `mod` declaration).
* `common/task.rs` — enums only; serde derives; `info`/`Display` strings (except those of tree learners (C100), the logger's time format and DOT lines).
* Floating-point rounding outside AdaBoost (C90-C92), AdaBoostV (C112, C113), SmoothBoost (C118), MadaBoost (C120), GraphSepBoost (C109), the decision-tree learner
  (C93-C95, C103, C111), the regression-tree learner (C121), GBM (C123, C124), CERLPBoost (C125-C127) and the projection onto the capped simplex (C96), performance, I/O errors; of rayon its scheduler, only the set of executions it allows.

## Disagreements between code and documented behaviour found on the way

Each was formalised as a theorem about the model (names in MANIFEST.json) unless marked (read).

* AdaBoost: a perfectly wrong hypothesis (edge <= -1) panics in postprocess. A run panics iff the total of the votes is not positive.
* AdaBoost: the documented claim that separable samples are classified correctly fails for every tolerance; it needs a margin of twice
  the tolerance (C84).
* AdaBoost in f64: whether a perfect hypothesis is recognised (and ends the run) depends on how the threads share a sum (C90). Without the
  condition on the edges in C91 two weights may become zero; then (read) the next weights are NaN and the sorting panics.
* MadaBoost: the update raises the weight of correctly classified examples. In f64 an always-wrong hypothesis can make it panic, e.g. in the
  first round on two examples (C120; with glibc also on 8, 23, 30, 31 and 54 examples); in exact arithmetic boosting never panics.
* SmoothBoost: `n_sample` many hypotheses at most are returned; the default gamma 0.5 always panics in preprocess.
* GBM: the returned model is normalised and loses negative coefficients; the tolerance is ignored; line search is made
  against the targets instead of the residuals; L2 line search is sum(y)/sum(p); the L1 gradient has the wrong sign.
* GBM with the squared loss: the line search is made on the targets, not on what is left of them, by the quotient of the sums, so the predictions after
  n rounds sum to n times the targets' sum (any weak learner); with regression trees the second tree is zero and the run panics (exact arithmetic: C122; in f64, within stated bounds: C123).
* LPBoost: slack coefficient nu instead of 1/nu, so nu has no effect on the program.
* SoftBoost/TotalBoost: cap row makes d_i <= 1; the edge constraint lacks the tolerance, so a deterministic learner is
  queried with the uniform distribution forever (with decision trees: the result is one tree, C107); nu = n panics.
* MLPBoost: cap row makes d_i <= 1; nu = n panics.
* ERLPBoost: stopping in the first round panics; a zero weight freezes the inner loop, so the documented soft-margin guarantee fails.
* The projection onto the capped simplex panics in f64 ("capping constraint is violated!") when a weight equals the cap up to
  rounding, e.g. with nu tied hardest examples and negligible others (C96; simulated with glibc: 78 of the nu in 1..199); this reaches
  CERLPBoost, MLPBoost and the Frank-Wolfe line searches.
* CERLPBoost/Frank-Wolfe: nu = m panics; the line search bisects in the wrong direction; blended pairwise overwrites a weight,
  so MLPBoost with it can end with all weights zero and panic when the weak learner repeats an answer (C61).
* LPBoost: with a solver whose residuals exceed the tolerance training may never return (C114).
* MLPBoost: an adopted solver weight above 1 by any ε > 0 (or below 0) panics, the check has no tolerance for single weights (C115).
* ExponentialLoss is evaluated at predictions, not confidences.
* Logger: evaluating the intermediate hypothesis can panic where the unlogged run succeeds; print interval 0 panics.
* from_dataframe accepts a target of another length (C99). Printing a tree learner of a sample without columns panics (C100).
* Samples: short csv lines are accepted and shift later values, long lines panic; the label check saturates at i32; sparse
  per-label statistics and the sparse distinct count are wrong; cross-validation reads zeros from sparse columns in all
  folds but the first and panics for some sizes.
* Decision trees: with three or more labels the trained tree depends on the random seed of a hash map (C89); cutting panics for two or more bins narrower than 1e-9; pruning never changes a tree; in f64 building a
  learner loops for ever on two neighbouring large values and panics on large ranges and large constant columns (C93); in f64 the
  Gini search may lose a label by rounding and unwrap a `None` (C94).
* Regression trees: a zero gradient sum gives the constant-zero leaf; max_depth d gives at most d-1 tests; with L1 the tree
  moves away from the targets, drops cancelling bins and divides by zero for lambda = 0, which in f64 may panic (C121).
* Naive Bayes and neural networks read the columns of the sample to predict by position, not by name; trees by name (C98).
* Naive Bayes: ln var is multiplied by the number of features; constant columns give NaN and a constant answer.
* Neural network: the sigmoid derivative lacks a square and the softmax derivative is diagonal, so a step is not a gradient step with such hidden layers (C77); one-output binary labels are decoded inverted; the inherited
  `predict` of a multi-class network is always +1; (read) the loss cannot be set.
* Worst-case learner: (read) the doc comment of two hypotheses is wrong; builder excludes nu = n.
