import Verif.Model.BadLearner

/-! # What the worst-case learner is documented to do -/

namespace Miniboosts.Spec

variable {K : Type*} [Field K] [LinearOrder K]

/-- The hypotheses of the worst-case learner for `n` examples: one of kind 0, then `⌈n/2⌉ - 1` of kind 1 whose
positions and gaps increase, then one of kind 2. -/
def badHypotheses (n shift : Nat) (eps : K) : List (BadClassifier K) :=
  [⟨0, (n + 1) / 2, shift, 3, eps⟩] ++
    (List.range ((n + 1) / 2 - 1)).map (fun k => ⟨1, (n + 1) / 2 + k, shift, 5 + 2 * (k : K), eps⟩) ++
    [⟨2, (n + 1) / 2, shift, 3 + 2 * (((n + 1) / 2 - 1 : Nat) : K), eps⟩]

/-- The distribution on `n` examples that puts all its weight on row `r`. -/
def pointMass (n r : Nat) : List K := (List.range n).map fun i => if i = r then 1 else 0

end Miniboosts.Spec
