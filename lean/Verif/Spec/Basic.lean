import Verif.Model.Utils
import Mathlib.Analysis.SpecialFunctions.Exp

/-! # Specification vocabulary

Small definitions used to state the properties.  Nothing here mentions how the code computes. -/

namespace Miniboosts.Spec

variable {K : Type*} [Field K] [LinearOrder K] {H X : Type*}

/-- A probability vector. -/
def IsProb (d : List K) : Prop := (∀ p ∈ d, 0 ≤ p) ∧ d.sum = 1

/-- A probability vector without zero entries. -/
def IsPosProb (d : List K) : Prop := (∀ p ∈ d, 0 < p) ∧ d.sum = 1

/-- A probability vector with entries at most `1/nu` (the capped simplex). -/
def IsCapped (nu : K) (d : List K) : Prop := (∀ p ∈ d, 0 ≤ p ∧ p ≤ 1 / nu) ∧ d.sum = 1

/-- All labels are `+1` or `-1`. -/
def PmLabels (S : List (X × K)) : Prop := ∀ e ∈ S, e.2 = 1 ∨ e.2 = -1

/-- The vote `F(x) = Σ_j w_j h_j(x)` of a list of weighted hypotheses. -/
def vote (conf : H → X → K) (wh : List (K × H)) (x : X) : K :=
  (wh.map fun p => p.1 * conf p.2 x).sum

/-- The edge of the function `g` under the distribution `d` on the examples `S`:
`Σ_i d_i y_i g(x_i)`. -/
def edge (S : List (X × K)) (d : List K) (g : X → K) : K :=
  ((List.zip S d).map fun p => p.2 * (p.1.2 * g p.1.1)).sum

/-- The edges of a history of rounds: round `t` handed out the weights `qs[t]` and received the
hypothesis `hs[t]`. -/
def edges (S : List (X × K)) (conf : H → X → K) (qs : List (List K)) (hs : List H) : List K :=
  List.zipWith (fun q h => edge S q (conf h)) qs hs

/-- Number of examples whose label is not the predicted one. -/
def errors (S : List (X × K)) (pred : X → Int) : Nat :=
  S.countP fun e => decide (e.2 ≠ (pred e.1 : K))

/-- The exponential weights of a real-valued function `F`: proportional to `exp(-y F(x))`. -/
noncomputable def expWeights (S : List (X × ℝ)) (F : X → ℝ) : List ℝ :=
  S.map fun e => Real.exp (-(e.2 * F e.1)) / (S.map fun e => Real.exp (-(e.2 * F e.1))).sum

end Miniboosts.Spec
