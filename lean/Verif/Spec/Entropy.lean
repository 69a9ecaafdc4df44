import Verif.Spec.Basic
import Mathlib.Analysis.SpecialFunctions.Log.Basic

/-! # Relative entropy -/

namespace Miniboosts.Spec

/-- The relative entropy (Kullback-Leibler divergence) `Σ_i a_i ln(a_i / b_i)`, with `0 ln 0 = 0`. -/
noncomputable def relEnt (a b : List ℝ) : ℝ :=
  (List.zipWith (fun x y => if x = 0 then 0 else x * Real.log (x / y)) a b).sum

/-- The distribution proportional to the exponentials of the given logarithms. -/
noncomputable def softmax (logs : List ℝ) : List ℝ :=
  logs.map fun a => Real.exp a / (logs.map Real.exp).sum

end Miniboosts.Spec
