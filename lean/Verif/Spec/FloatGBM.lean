import Verif.Spec.Float

/-! # Targets and outputs of moderate size -/

namespace Miniboosts.Spec

open Miniboosts

/-- Non-negative doubles of at most `10¹⁰`, with a sum of at least one tenth. -/
def PositiveTotal (l : List ℝ) : Prop := (∀ x ∈ l, Double x ∧ 0 ≤ x ∧ x ≤ 10 ^ 10) ∧ 1 / 10 ≤ l.sum

/-- The absolute loss of `t` times the outputs. -/
def absLossAt (ys ps : List ℝ) (t : ℝ) : ℝ := (List.zipWith (fun y p => |y - t * p|) ys ps).sum

end Miniboosts.Spec
