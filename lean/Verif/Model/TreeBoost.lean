import Verif.Model.DecisionTree
import Verif.Model.Core

/-! # Boosting decision trees on a columnar sample: the glue between `Sample`, the trees and the boosters -/

namespace Miniboosts

variable {K : Type*} [Field K] [LinearOrder K]

/-- What a booster sees of a `Sample`: row `i` is the pair `(sample, i)` given to `Classifier::confidence`
(`src/hypothesis/hypothesis_traits.rs:6-11`), its label is `sample.target()[i]` (`src/sample/sample_struct.rs:179-181`). -/
def Sample.rows (s : Sample K) : Examples (Sample K × Nat) K :=
  (List.range s.nSample).map (fun i => ((s, i), s.target.getD i 0))

/-- The value of a computation, `0` for a panic. -/
def orZero (r : Except Panic K) : K :=
  match r with
  | .ok c => c
  | .error _ => 0

/-- `impl Classifier for DecisionTreeClassifier`, `src/weak_learner/decision_tree/decision_tree_classifier.rs:30-34`.
Simplification: a panic is replaced by `0`; the theorems show that it does not occur on the training sample. -/
instance treeClassifier : Classifier (TreeNode K) (Sample K × Nat) K where
  conf t x := orZero (t.confidence x.1 x.2)

/-- `impl WeakLearner for DecisionTree` (`src/weak_learner/decision_tree/decision_tree_algorithm.rs:163-220`) as the boosters
see it.  Simplification: a panic is replaced by the constant zero; the theorems show that it does not occur. -/
def treeLearner [FloorRing K] (env : TreeEnv K) (t : DecisionTree K) (s : Sample K) : WeakLearner K (TreeNode K) :=
  fun _ dist => match t.produce env s dist with
    | .ok tree => tree
    | .error _ => .leaf 0

end Miniboosts
