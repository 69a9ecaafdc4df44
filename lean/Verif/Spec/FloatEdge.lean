import Verif.Spec.Float
import Verif.Spec.OtherSample

/-! # What a decision tree trained in `f64` has learned -/

namespace Miniboosts.Spec

open Miniboosts

/-- The turns (`true`: left) that a point, given by its values, takes on its way through a tree: left when the value is below the threshold. -/
noncomputable def turns (x : String → Option ℝ) : TreeNode F64 → List Bool
  | .leaf _ => []
  | .branch rule left right =>
    match x rule.feature with
    | none => []
    | some v => open Classical in if F64.Lt (F64.fin v) rule.threshold then true :: turns x left else false :: turns x right

open Classical in
/-- The rows that a tree answers with the same leaf as row `i`. -/
noncomputable def leafMates (s : Sample ℝ) (tree : TreeNode F64) (i : ℕ) : List ℕ :=
  (List.range s.nSample).filter fun j => turns (valueAt s j) tree = turns (valueAt s i) tree

/-- The weighted mean of the labels of some rows. -/
noncomputable def meanLabel (s : Sample ℝ) (w : List ℝ) (rows : List ℕ) : ℝ :=
  (rows.map fun j => w.getD j 0 * s.target.getD j 0).sum / (rows.map fun j => w.getD j 0).sum

/-- The edge of the best rule of thumb that tests whether the value of the column `f` is below `b`: `|∑ wᵢ yᵢ|` over the rows below `b`, plus
`|∑ wᵢ yᵢ|` over the others. -/
noncomputable def testEdge (s : Sample ℝ) (w : List ℝ) (f : Feature ℝ) (b : ℝ) : ℝ :=
  |(((List.range s.nSample).filter fun j => decide (f.val j < b)).map fun j => w.getD j 0 * s.target.getD j 0).sum| +
    |(((List.range s.nSample).filter fun j => decide (b ≤ f.val j)).map fun j => w.getD j 0 * s.target.getD j 0).sum|

end Miniboosts.Spec
