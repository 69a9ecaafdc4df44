import Verif.Model.FloatTree

/-! # Equality of decision trees in `f64` -/

namespace Miniboosts

open Classical in
/-- `==` of two `f64`: false for a NaN. -/
noncomputable def F64.feq (a b : F64) : Bool := decide (F64.Le a b ∧ F64.Le b a)

/-- `derive(PartialEq)` of `Node`, `BranchNode`, `LeafNode` (`src/weak_learner/decision_tree/node.rs:19-59`) and `Splitter` (`src/weak_learner/common/split_rule.rs:16-20`). -/
noncomputable def TreeNode.feq : TreeNode F64 → TreeNode F64 → Bool
  | .leaf c, .leaf c' => F64.feq c c'
  | .branch r l l', .branch r' m m' => (r.feature == r'.feature && F64.feq r.threshold r'.threshold) && (TreeNode.feq l m && TreeNode.feq l' m')
  | _, _ => false

/-- `impl PartialEq for DecisionTreeClassifier`, `src/weak_learner/decision_tree/decision_tree_classifier.rs:15-18`. -/
noncomputable instance floatTreeBEq : BEq (TreeNode F64) := ⟨TreeNode.feq⟩

end Miniboosts
