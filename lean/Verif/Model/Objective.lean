import Verif.Model.Utils
import Verif.Model.Label
import Mathlib.Analysis.SpecialFunctions.Exp
import Mathlib.Data.List.Sort

/-! # `src/research/objective_functions.rs` -/

namespace Miniboosts

variable {K : Type*} [Field K] [LinearOrder K] {H X : Type*}

/-- The loop of `SoftMarginObjective::eval`, `src/research/objective_functions.rs:71-83`:
`acc` is `objective_value`, `left` is `weight_left`. -/
def softLoop (unit : K) : List K → K → K → K
  | [], _, acc => acc
  | yh :: rest, left, acc =>
    if unit < left then softLoop unit rest (left - unit) (acc + unit * yh)
    else acc + left * yh

/-- `SoftMarginObjective::eval`, `src/research/objective_functions.rs:50-87`;
`nFeature` is the number of features of the sample (checked to be positive). -/
def softMarginEval [Classifier H X K] (nu : K) (nFeature : Nat) (S : Examples X K) (h : H) :
    Except Panic K :=
  match checkSample S.length nFeature with
  | .error e => .error e
  | .ok () =>
    match checkNu nu S.length with
    | .error e => .error e
    | .ok () =>
      let margins := List.zipWith (fun hx y => y * hx) (confidenceAll h (S.map Prod.fst)) (S.map Prod.snd)
      let sorted := margins.mergeSort fun a b => decide (a ≤ b)
      .ok (softLoop (1 / nu) sorted 1 0)

/-- `HardMarginObjective::eval` (with `HardMarginObjective::new`),
`src/research/objective_functions.rs:98-131`. -/
def hardMarginEval [Classifier H X K] (nFeature : Nat) (S : Examples X K) (h : H) : Except Panic K :=
  softMarginEval 1 nFeature S h

/-- `ExponentialLoss::eval`, `src/research/objective_functions.rs:158-174`.
Note that the code exponentiates the prediction (`±1`), not the confidence. -/
noncomputable def expLossEval [Classifier H X ℝ] (nFeature : Nat) (S : Examples X ℝ) (h : H) : Except Panic ℝ :=
  match checkSample S.length nFeature with
  | .error e => .error e
  | .ok () =>
    .ok ((List.zipWith (fun (hx : Int) (y : ℝ) => Real.exp (-y * (hx : ℝ)))
      (predictAll (K := ℝ) h (S.map Prod.fst)) (S.map Prod.snd)).sum / (S.length : ℝ))

end Miniboosts
