/-
`impl Research for …`: the hypothesis a booster shows between two rounds, which `Logger::run` evaluates (trait `Research`,
`src/research/logger.rs:326-334`).  `GBM` does not implement it.
-/
import Verif.Model.Logger
import Verif.Model.AdaBoost
import Verif.Model.AdaBoostV
import Verif.Model.MadaBoost
import Verif.Model.SmoothBoost
import Verif.Model.GraphSepBoost
import Verif.Model.LPBoost
import Verif.Model.ERLPBoost
import Verif.Model.SoftBoost
import Verif.Model.CERLPBoost
import Verif.Model.MLPBoost

namespace Miniboosts

variable {H X K : Type*}

/-- `src/booster/adaboost/adaboost_algorithm.rs:357-359`. -/
noncomputable def AdaBoost.currentHypothesis (s : AdaBoost H) : Except Panic (WeightedMajority ℝ H) :=
  WeightedMajority.fromSlices s.weights s.hypotheses

/-- `src/booster/adaboostv/adaboostv_algorithm.rs:391-393`. -/
noncomputable def AdaBoostV.currentHypothesis (s : AdaBoostV H) : Except Panic (WeightedMajority ℝ H) :=
  WeightedMajority.fromSlices s.weights s.hypotheses

/-- `src/booster/madaboost/madaboost_algorithm.rs:373-375`. -/
noncomputable def MadaBoost.currentHypothesis (s : MadaBoost H) : Except Panic (WeightedMajority ℝ H) :=
  WeightedMajority.fromSlices s.alphas s.hypotheses

/-- `src/booster/smoothboost/smoothboost_algorithm.rs:358-362`.  `1.0 / 0` is infinite, and normalising infinite weights gives NaN: modelled as a
panic, as in `SmoothBoost.postprocess`. -/
noncomputable def SmoothBoost.currentHypothesis (s : SmoothBoost H) : Except Panic (WeightedMajority ℝ H) :=
  if s.terminated = 0 then .error .nonFinite
  else WeightedMajority.fromSlices (List.replicate s.nSample (1 / (s.terminated : ℝ))) s.hypotheses

/-- `src/booster/graph_separation_boosting/graph_separation_algorithm.rs:248-250`. -/
def GraphSepBoost.currentHypothesis [Field K] [LinearOrder K] [IsStrictOrderedRing K] [FloorRing K] [Classifier H X K] (S : Examples X K)
    (s : GraphSepBoost H) : Except Panic (NaiveAggregation H) :=
  .ok (NaiveAggregation.new s.hypotheses S)

/-- `src/booster/lpboost/lpboost_algorithm.rs:349-357`. -/
def LPBoost.currentHypothesis [Field K] [LinearOrder K] [IsStrictOrderedRing K] (s : LPBoost K H) : Except Panic (WeightedMajority K H) :=
  match s.lpModel with
  | none => .error .unwrapNone
  | some m => WeightedMajority.fromSlices m.weights s.hypotheses

/-- `src/booster/erlpboost/erlpboost_algorithm.rs:448-456`. -/
noncomputable def ERLPBoost.currentHypothesis (s : ERLPBoost H) : Except Panic (WeightedMajority ℝ H) :=
  match s.qpModel with
  | none => .error .unwrapNone
  | some m => WeightedMajority.fromSlices m.weights s.hypotheses

/-- `src/booster/softboost/softboost_algorithm.rs:367-371`, with `set_weights` (234-245): a linear program is solved for every evaluation. -/
noncomputable def SoftBoost.currentHypothesis (solver : Solver ℝ) (s : SoftBoost H) : Except Panic (WeightedMajority ℝ H) :=
  match s.qpModel with
  | none => .error .unwrapNone
  | some m =>
    match m.weights solver with
    | .error e => .error e
    | .ok w => WeightedMajority.fromSlices w s.hypotheses

/-- `src/booster/totalboost/totalboost_algorithm.rs:189-191`. -/
noncomputable def TotalBoost.currentHypothesis (solver : Solver ℝ) (s : TotalBoost H) : Except Panic (WeightedMajority ℝ H) :=
  s.softboost.currentHypothesis solver

/-- `src/booster/cerlpboost/cerlpboost_algorithm.rs:400-402`. -/
noncomputable def CERLPBoost.currentHypothesis (s : CERLPBoost H) : Except Panic (WeightedMajority ℝ H) :=
  WeightedMajority.fromSlices s.weights s.hypotheses

/-- `src/booster/mlpboost/mlpboost_algorithm.rs:534-536`. -/
noncomputable def MLPBoost.currentHypothesis (s : MLPBoost H) : Except Panic (WeightedMajority ℝ H) :=
  WeightedMajority.fromSlices s.weights s.hypotheses

end Miniboosts
