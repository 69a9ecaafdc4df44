import Verif.Model.Config
import Verif.Model.DecisionTree
import Verif.Model.RegressionTree
import Verif.Model.NeuralNetwork

/-! # Chains of configuration calls on the builders of weak learners -/

namespace Miniboosts

variable {K : Type*} [Field K] [LinearOrder K]

/-- The setters of `DecisionTreeBuilder`, `src/weak_learner/decision_tree/builder.rs:64-94`.  (`set_nbins` takes `&mut self`
instead of `self`; a chain is a sequence of calls in either case.) -/
inductive TreeCall where
  | maxDepth (d : Nat)
  | criterion (c : Criterion)
  | setNbins (name : String) (n : Nat)

/-- `DecisionTreeBuilder::{max_depth, criterion, set_nbins}`, `src/weak_learner/decision_tree/builder.rs:64-94`. -/
def DecisionTreeBuilder.call (b : DecisionTreeBuilder K) : TreeCall → Except Panic (DecisionTreeBuilder K)
  | .maxDepth d => b.setMaxDepth d
  | .criterion c => .ok (b.setCriterion c)
  | .setNbins name n => b.setNbins name n

/-- The setters of `RegressionTreeBuilder`, `src/weak_learner/regression_tree/builder.rs:76-110`. -/
inductive RegCall (K : Type*) where
  | loss (l : LossFn K)
  | lambda (l : K)
  | maxDepth (d : Nat)
  | setNbins (name : String) (n : Nat)

/-- `RegressionTreeBuilder::{loss, lambda_l2, max_depth, set_nbins}`,
`src/weak_learner/regression_tree/builder.rs:76-110`. -/
def RegressionTreeBuilder.call (b : RegressionTreeBuilder K) : RegCall K → Except Panic (RegressionTreeBuilder K)
  | .loss l => .ok (b.setLoss l)
  | .lambda l => .ok (b.setLambda l)
  | .maxDepth d => b.setMaxDepth d
  | .setNbins name n => b.setNbins name n

/-- The configuration methods of `NeuralNetwork`, `src/weak_learner/neural_network/nn_weak_learner.rs:120-163`. -/
inductive NNCall where
  | append (dim : Nat) (a : Activation)
  | epoch (n : Nat)
  | iter (n : Nat)
  | minibatch (n : Nat)
  | task (t : Task)

/-- `NeuralNetwork::{append, n_epoch, n_iter, minibatch_size, task}`,
`src/weak_learner/neural_network/nn_weak_learner.rs:120-163`; none of them panics. -/
def NeuralNetwork.call (nn : NeuralNetwork) : NNCall → Except Panic NeuralNetwork
  | .append dim a => .ok (nn.append dim a)
  | .epoch n => .ok (nn.setEpoch n)
  | .iter n => .ok (nn.setIter n)
  | .minibatch n => .ok (nn.setMinibatch n)
  | .task t => .ok (nn.setTask t)

end Miniboosts
