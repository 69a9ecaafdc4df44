import Verif.Spec.Sample
import Verif.Model.DecisionTree

/-! # Answering rows of other samples: what an answer may depend on -/

namespace Miniboosts.Spec

variable {K : Type*} [Field K] [LinearOrder K]

/-- The value of row `i` in the column called `nm`; `none` when there is no such column. -/
def valueAt (s : Sample K) (i : Nat) (nm : String) : Option K := (s.features.find? fun f => f.name = nm).map fun f => f.val i

/-- The names of the columns that a tree tests. -/
def tested : TreeNode K → List String
  | .leaf _ => []
  | .branch rule left right => rule.feature :: (tested left ++ tested right)

/-- The value of a tree at a point given as a partial function from column names to numbers: left when the value is below the threshold,
`none` when a test on the way asks for a column that does not exist. -/
def treeValue (x : String → Option K) : TreeNode K → Option K
  | .leaf c => some c
  | .branch rule left right =>
    match x rule.feature with
    | none => none
    | some v => if v < rule.threshold then treeValue x left else treeValue x right

/-- Two samples have columns of the same names in the same order. -/
def SameColumns (s s' : Sample K) : Prop := s.features.map Feature.name = s'.features.map Feature.name

end Miniboosts.Spec
