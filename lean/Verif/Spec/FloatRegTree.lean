import Verif.Spec.FloatEdge
import Mathlib.Data.Real.Sign

/-! # What a regression tree trained in `f64` has learned -/

namespace Miniboosts.Spec

open Miniboosts

/-- What remains of the target of a row after a prediction. -/
noncomputable def residualAt (s : Sample ℝ) (p : List ℝ) (i : ℕ) : ℝ := s.target.getD i 0 - p.getD i 0

/-- Doubles of at most `10¹²`. -/
def ModerateValues (l : List ℝ) : Prop := ∀ x ∈ l, Double x ∧ |x| ≤ 10 ^ 12

end Miniboosts.Spec
