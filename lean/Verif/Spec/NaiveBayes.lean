import Verif.Model.NaiveBayes
import Mathlib.Algebra.BigOperators.Group.List.Basic
import Mathlib.Analysis.SpecialFunctions.Pow.Real

/-! # Gaussian naive Bayes -/

namespace Miniboosts.Spec

open Real

/-- The total weight of the examples with label `y` (labels `t`, weights `w`). -/
noncomputable def labelMass (t w : List ℝ) (y : ℝ) : ℝ :=
  ∑ i ∈ Finset.range t.length, if t.getD i 0 = y then w.getD i 0 else 0

/-- The weighted mean of a column over the examples with label `y`. -/
noncomputable def condMean (t w : List ℝ) (y : ℝ) (x : List ℝ) : ℝ :=
  (∑ i ∈ Finset.range t.length, if t.getD i 0 = y then w.getD i 0 * x.getD i 0 else 0) / labelMass t w y

/-- The weighted variance of a column over the examples with label `y`. -/
noncomputable def condVar (t w : List ℝ) (y : ℝ) (x : List ℝ) : ℝ :=
  (∑ i ∈ Finset.range t.length, if t.getD i 0 = y then w.getD i 0 * (x.getD i 0 - condMean t w y x) ^ 2 else 0) /
    labelMass t w y

/-- The density of the normal distribution. -/
noncomputable def normalDensity (μ v x : ℝ) : ℝ := exp (-(x - μ) ^ 2 / (2 * v)) / √(2 * π * v)

/-- The naive-Bayes score of the label `y` at the point `z`: prior times product of the densities of the columns. -/
noncomputable def bayesScore (cols : List (List ℝ)) (t w z : List ℝ) (y : ℝ) : ℝ :=
  labelMass t w y * (List.zipWith (fun x a => normalDensity (condMean t w y x) (condVar t w y x) a) cols z).prod

/-- A sample with dense columns `cols` and labels `t`. -/
structure DenseSample (s : Sample ℝ) (cols : List (List ℝ)) (t : List ℝ) : Prop where
  target : s.target = t
  features : List.Forall₂ (fun f x => ∃ name, f = Feature.dense ⟨name, x⟩) s.features cols
  len : ∀ x ∈ cols, x.length = t.length

end Miniboosts.Spec
