import Verif.Model.TreeBoost
import Verif.Model.RegressionTree
import Verif.Model.GBM

/-! # Gradient boosting with regression trees: the glue between `Sample`, the trees and GBM -/

namespace Miniboosts

variable {K : Type*} [Field K] [LinearOrder K]

/-- `impl Regressor for RegressionTreeRegressor`, `src/weak_learner/regression_tree/regression_tree_regressor.rs:30-34`.
Simplification: a panic is replaced by `0`; the theorems show that it does not occur on the training sample. -/
instance treeRegressor : Regressor (TreeNode K) (Sample K × Nat) K where
  pred t x := orZero (t.confidence x.1 x.2)

/-- `impl WeakLearner for RegressionTree` (`src/weak_learner/regression_tree/regression_tree_algorithm.rs:184-209`) as GBM sees it.
Simplification: a panic is replaced by the constant zero; the theorems show that it does not occur. -/
def regTreeLearner (env : TreeEnv K) (t : RegressionTree K) (s : Sample K) : WeakLearner K (TreeNode K) :=
  fun _ predictions => match t.produce env s predictions with
    | .ok tree => tree
    | .error _ => .leaf 0

end Miniboosts
