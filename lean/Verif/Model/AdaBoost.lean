import Verif.Model.Utils
import Verif.Model.Label
import Mathlib.Analysis.SpecialFunctions.Log.Basic
import Mathlib.Data.List.Sort

/-! # `src/booster/adaboost/adaboost_algorithm.rs` -/

namespace Miniboosts

open Real

variable {H X : Type*}

/-- One step of the numerically stable log-sum-exp loop, e.g.
`src/booster/adaboost/adaboost_algorithm.rs:225-231`: `a` is the running value,
`b` the next element; the larger one is factored out. -/
noncomputable def logAddExp (a b : ℝ) : ℝ :=
  if a < b then b + log (1 + exp (a - b)) else a + log (1 + exp (b - a))

/-- The normaliser loop over the ascending order of the entries,
`src/booster/adaboost/adaboost_algorithm.rs:216-232`.
`indices.sort_unstable_by` followed by reading `dist` in that order is modelled as sorting the
values.  `indices[0]` panics on an empty vector: the `none` case. -/
noncomputable def logSumExpSorted (l : List ℝ) : Option ℝ :=
  match l.mergeSort (fun a b => decide (a ≤ b)) with
  | [] => none
  | a :: rest => some (rest.foldl logAddExp a)

/-- The multiplicative reweighting in the logarithmic domain shared (as duplicated code) by
`AdaBoost::update_params` (`src/booster/adaboost/adaboost_algorithm.rs:209-239`) and
`AdaBoostV::update_params` (`src/booster/adaboostv/adaboostv_algorithm.rs:246-274`). -/
noncomputable def reweight (dist margins : List ℝ) (weight : ℝ) : Except Panic (List ℝ) :=
  let logDist := List.zipWith (fun d p => log d - weight * p) dist margins
  match logSumExpSorted logDist with
  | none => .error .outOfRange
  | some normalizer => .ok (logDist.map fun d => exp (d - normalizer))

/-- The mutable fields of `AdaBoost` (`src/booster/adaboost/adaboost_algorithm.rs:89-121`);
the sample is a separate argument. -/
structure AdaBoost (H : Type*) where
  dist : List ℝ
  tolerance : ℝ
  weights : List ℝ
  hypotheses : List H
  maxIter : Nat
  forceQuitAt : Option Nat
  terminated : Nat

namespace AdaBoost

/-- `usize::MAX` on a 64-bit target. -/
def usizeMax : Nat := 2 ^ 64 - 1

/-- `AdaBoost::init`, `src/booster/adaboost/adaboost_algorithm.rs:129-145`. -/
noncomputable def init (S : Examples X ℝ) : AdaBoost H :=
  { dist := [], tolerance := 1 / ((S.length : ℝ) + 1), weights := [], hypotheses := [],
    maxIter := usizeMax, forceQuitAt := none, terminated := usizeMax }

/-- `AdaBoost::tolerance`, `src/booster/adaboost/adaboost_algorithm.rs:179-182`. -/
def setTolerance (s : AdaBoost H) (t : ℝ) : AdaBoost H := { s with tolerance := t }

/-- `AdaBoost::force_quit_at`, `src/booster/adaboost/adaboost_algorithm.rs:168-171`. -/
def setForceQuitAt (s : AdaBoost H) (it : Nat) : AdaBoost H := { s with forceQuitAt := some it }

/-- `AdaBoost::max_loop`, `src/booster/adaboost/adaboost_algorithm.rs:156-160`.
`as usize` truncates; for `tolerance = 0` the code saturates at `usize::MAX`
(`ln m / 0 = inf`, or 0 for NaN), here `x / 0 = 0`: theorems assume `tolerance ≠ 0`. -/
noncomputable def maxLoop (S : Examples X ℝ) (s : AdaBoost H) : Nat :=
  ⌊log (S.length : ℝ) / s.tolerance ^ 2⌋₊

/-- The weight on the new hypothesis, `src/booster/adaboost/adaboost_algorithm.rs:206`. -/
noncomputable def hypWeight (edge : ℝ) : ℝ := log ((1 + edge) / (1 - edge)) / 2

/-- `AdaBoost::update_params`, `src/booster/adaboost/adaboost_algorithm.rs:195-242`:
returns the weight and the new distribution. -/
noncomputable def updateParams (dist margins : List ℝ) (edge : ℝ) :
    Except Panic (ℝ × List ℝ) :=
  let weight := hypWeight edge
  match reweight dist margins weight with
  | .error e => .error e
  | .ok dist' => .ok (weight, dist')

/-- `f64::signum` on non-NaN input (`+0.0` counts as positive). -/
noncomputable def signum (x : ℝ) : ℝ := if 0 ≤ x then 1 else -1

/-- `Booster::preprocess` of AdaBoost, `src/booster/adaboost/adaboost_algorithm.rs:275-296`. -/
noncomputable def preprocess (S : Examples X ℝ) (s : AdaBoost H) : Except Panic (AdaBoost H) :=
  match checkBinary S with
  | .error e => .error e
  | .ok () =>
    .ok { s with
      dist := List.replicate S.length (1 / (S.length : ℝ))
      weights := []
      hypotheses := []
      maxIter := match s.forceQuitAt with
        | some it => it
        | none => maxLoop S s }

/-- `Booster::boost` of AdaBoost, `src/booster/adaboost/adaboost_algorithm.rs:299-339`. -/
noncomputable def boost [Classifier H X ℝ] (S : Examples X ℝ) (s : AdaBoost H)
    (wl : WeakLearner ℝ H) (iteration : Nat) : Except Panic (BoostOut (AdaBoost H) ℝ) :=
  if s.maxIter < iteration then
    .ok { state := s, flow := .brk s.maxIter, queries := [] }
  else
    let h := wl iteration s.dist
    let ms := margins S h
    let edge := innerProduct ms s.dist
    if 1 ≤ |edge| then
      .ok { state := { s with terminated := iteration, weights := [signum edge],
                              hypotheses := [h] },
            flow := .brk iteration, queries := [s.dist] }
    else
      match updateParams s.dist ms edge with
      | .error e => .error e
      | .ok (weight, dist') =>
        .ok { state := { s with dist := dist', weights := s.weights ++ [weight],
                                hypotheses := s.hypotheses ++ [h] },
              flow := .cont, queries := [s.dist] }

/-- `Booster::postprocess` and `Research::current_hypothesis` of AdaBoost,
`src/booster/adaboost/adaboost_algorithm.rs:342-349, 352-360`. -/
noncomputable def postprocess (s : AdaBoost H) : Except Panic (WeightedMajority ℝ H) :=
  WeightedMajority.fromSlices s.weights s.hypotheses

/-- `impl Booster for AdaBoost`, `src/booster/adaboost/adaboost_algorithm.rs:246-350`. -/
noncomputable def booster [Classifier H X ℝ] (S : Examples X ℝ) :
    Booster (AdaBoost H) ℝ H (WeightedMajority ℝ H) where
  preprocess s _ := preprocess S s
  boost := boost S
  postprocess := postprocess

end AdaBoost

end Miniboosts
