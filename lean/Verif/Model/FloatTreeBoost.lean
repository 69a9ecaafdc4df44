import Verif.Model.FloatTree
import Verif.Model.TreeBoost

/-! # Boosting decision trees in `f64`: the glue between the trees and AdaBoost -/

namespace Miniboosts

open F64

/-- `impl Classifier for DecisionTreeClassifier`, `src/weak_learner/decision_tree/decision_tree_classifier.rs:30-34`, in `f64`.
Simplification: a panic is replaced by NaN; the theorems show that it does not occur on the training sample. -/
noncomputable instance floatTreeClassifier : Classifier (TreeNode F64) (Sample ℝ × Nat) F64 where
  conf t x := (FTree.confidence x.1 x.2 t).getD nan

/-- `impl WeakLearner for DecisionTree` (`src/weak_learner/decision_tree/decision_tree_algorithm.rs:163-220`) as AdaBoost sees it: for every
call one of the trees that `produce` may return.  For weights on which `produce` panics nothing is said; the theorems show that no such
weights occur. -/
def FTree.IsLearner (L : Libm) (t : FTree.Tree) (s : Sample ℝ) (wl : WeakLearner F64 (TreeNode F64)) : Prop :=
  ∀ it d, (∃ tree, FTree.Produce L t s d (some tree)) → FTree.Produce L t s d (some (wl it d))

end Miniboosts
