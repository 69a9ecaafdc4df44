import Verif.Spec.Basic
import Verif.Spec.Entropy

/-! # The entropy projection, as a specification -/

namespace Miniboosts.Spec

/-- `p` is the point of the capped simplex `{ p ∈ [0, 1/ν]ⁿ : ∑ p = 1 }` with the smallest relative entropy to the softmax of `logs`. -/
def IsEntropyProjection (nu : ℝ) (logs p : List ℝ) : Prop :=
  p.length = logs.length ∧ IsCapped nu p ∧ ∀ q : List ℝ, q.length = logs.length → IsCapped nu q → relEnt p (softmax logs) ≤ relEnt q (softmax logs)

/-- The distance of two vectors in the one-norm. -/
noncomputable def dist1 (xs ys : List ℝ) : ℝ := (List.zipWith (fun x y => |x - y|) xs ys).sum

end Miniboosts.Spec
