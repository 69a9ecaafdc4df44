import Verif.Model.LearnerConfig
import Verif.Spec.Config

/-! # Which parameter a configuration call of a weak learner's builder sets -/

namespace Miniboosts.Spec

/-- The value a call gives to the depth. -/
def treeDepth : TreeCall → Option Nat
  | .maxDepth d => some d
  | _ => none

/-- The value a call gives to the split criterion. -/
def treeCriterion : TreeCall → Option Criterion
  | .criterion c => some c
  | _ => none

/-- The value a call gives to the number of bins of the column called `name`. -/
def treeBins (name : String) : TreeCall → Option Nat
  | .setNbins name' n => if name' = name then some n else none
  | _ => none

/-- The value a call gives to the depth. -/
def regDepth {K : Type*} : RegCall K → Option Nat
  | .maxDepth d => some d
  | _ => none

/-- The value a call gives to the loss. -/
def regLoss {K : Type*} : RegCall K → Option (Option (LossFn K))
  | .loss l => some (some l)
  | _ => none

/-- The value a call gives to the regularisation parameter. -/
def regLambda {K : Type*} : RegCall K → Option K
  | .lambda l => some l
  | _ => none

/-- The value a call gives to the number of bins of the column called `name`. -/
def regBins {K : Type*} (name : String) : RegCall K → Option Nat
  | .setNbins name' n => if name' = name then some n else none
  | _ => none

/-- The layer a call appends. -/
def nnLayer : NNCall → Option (Nat × Activation)
  | .append d a => some (d, a)
  | _ => none

/-- The value a call gives to the number of epochs. -/
def nnEpoch : NNCall → Option Nat
  | .epoch n => some n
  | _ => none

/-- The value a call gives to the number of iterations per epoch. -/
def nnIter : NNCall → Option Nat
  | .iter n => some n
  | _ => none

/-- The value a call gives to the size of the mini-batches. -/
def nnMinibatch : NNCall → Option Nat
  | .minibatch n => some n
  | _ => none

/-- The value a call gives to the task. -/
def nnTask : NNCall → Option Task
  | .task t => some t
  | _ => none

end Miniboosts.Spec
