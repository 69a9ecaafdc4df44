import Verif.Model.Utils
import Mathlib.Data.List.Sort
import Mathlib.Data.Sign.Defs

/-! # `src/common/loss_functions.rs` and `src/booster/gradient_boost/gbm.rs` -/

namespace Miniboosts

variable {K : Type*} [Field K] [LinearOrder K] {H X : Type*}

/-- `GBMLoss`, `src/common/loss_functions.rs:44-65`. -/
inductive GBMLoss where
  | L1
  | L2
  deriving DecidableEq, Repr

/-- `f64::signum` on finite numbers: `signum(0.0)` is `1.0` (a difference that is zero is `+0.0`). -/
def signum (x : K) : K := if x < 0 then -1 else 1

/-- The search of `weighted_median`, `src/common/loss_functions.rs:206-213`; running off the end is
`unreachable!()`. -/
def medianLoop (half : K) : List (K × K) → K → Except Panic K
  | [], _ => .error .assertion
  | (w, x) :: rest, partialSum =>
    if half ≤ partialSum + w then .ok x else medianLoop half rest (partialSum + w)

/-- `weighted_median`, `src/common/loss_functions.rs:190-216`. -/
def weightedMedian (items : List (K × K)) : Except Panic K :=
  match items with
  | [] => .error .assertion
  | [p] => .ok p.2
  | _ =>
    let sorted := items.mergeSort fun a b => decide (a.2 ≤ b.2)
    let total := (sorted.map Prod.fst).sum
    medianLoop (1 / 2 * total) sorted 0

namespace GBMLoss

/-- `GBMLoss::eval_at_point`, `src/common/loss_functions.rs:78-92`. -/
def evalAtPoint (loss : GBMLoss) (prediction trueValue : K) : K :=
  match loss with
  | .L1 => |prediction - trueValue|
  | .L2 => (prediction - trueValue) ^ 2

/-- `LossFunction::eval`, `src/common/loss_functions.rs:10-21`; the mean over no items is NaN. -/
def eval (loss : GBMLoss) (predictions target : List K) : Except Panic K :=
  if predictions.length ≠ target.length then .error .assertion
  else if predictions.length = 0 then .error .nonFinite
  else .ok ((List.zipWith (fun p y => loss.evalAtPoint p y) predictions target).sum /
    (predictions.length : K))

/-- `GBMLoss::gradient`, `src/common/loss_functions.rs:94-128`. -/
def gradient (loss : GBMLoss) (predictions target : List K) : Except Panic (List K) :=
  if predictions.length ≠ target.length then .error .assertion
  else .ok (match loss with
    | .L1 => List.zipWith (fun y p => signum (y - p)) target predictions
    | .L2 => List.zipWith (fun y p => p - y) target predictions)

/-- `GBMLoss::hessian`, `src/common/loss_functions.rs:130-157`. -/
def hessian (loss : GBMLoss) (predictions target : List K) : Except Panic (List K) :=
  if predictions.length ≠ target.length then .error .assertion
  else .ok (match loss with
    | .L1 => List.replicate predictions.length 0
    | .L2 => List.replicate predictions.length 1)

/-- `GBMLoss::best_coefficient`, `src/common/loss_functions.rs:159-185`. -/
def bestCoefficient (loss : GBMLoss) (targets predictions : List K) : Except Panic K :=
  match loss with
  | .L1 =>
    weightedMedian ((List.zip targets predictions).filterMap fun rp =>
      if rp.2 = 0 then none else some (|rp.2|, rp.1 / rp.2))
  | .L2 =>
    if predictions.sum = 0 then .error .assertion else .ok (targets.sum / predictions.sum)

end GBMLoss

/-- The fields of `GBM`, `src/booster/gradient_boost/gbm.rs:89-119`, without the loss and the sample. -/
structure GBM (K H : Type*) where
  tolerance : K
  weights : List K
  hypotheses : List H
  maxIter : Nat
  terminated : Nat
  predictions : List K

namespace GBM

/-- `GBM::init_with_loss`, `src/booster/gradient_boost/gbm.rs:128-148`. -/
def init (S : Examples X K) : GBM K H :=
  { tolerance := 0, weights := [], hypotheses := [], maxIter := 100, terminated := 2 ^ 64 - 1,
    predictions := List.replicate S.length 0 }

/-- `GBM::tolerance`, `src/booster/gradient_boost/gbm.rs:165-168`. -/
def setTolerance (s : GBM K H) (t : K) : GBM K H := { s with tolerance := t }

/-- `Booster::preprocess` of GBM, `src/booster/gradient_boost/gbm.rs:204-220`. -/
def preprocess (S : Examples X K) (s : GBM K H) : Except Panic (GBM K H) :=
  .ok { s with
    weights := []
    hypotheses := []
    terminated := s.maxIter
    predictions := List.replicate S.length 0 }

/-- `Regressor::predict_all`, `src/hypothesis/hypothesis_traits.rs:50-55`. -/
def regressAll [Regressor H X K] (h : H) (rows : List X) : List K := rows.map (Regressor.pred h)

/-- `Booster::boost` of GBM, `src/booster/gradient_boost/gbm.rs:222-260`; `best` is
`LossFunction::best_coefficient` of the loss in use. -/
def boost [Regressor H X K] (best : List K → List K → Except Panic K) (S : Examples X K) (s : GBM K H)
    (wl : WeakLearner K H) (iteration : Nat) : Except Panic (BoostOut (GBM K H) K) :=
  if s.maxIter < iteration then
    .ok { state := s, flow := .brk s.maxIter, queries := [] }
  else
    let h := wl iteration s.predictions
    let predictions := regressAll h (S.map Prod.fst)
    match best (S.map Prod.snd) predictions with
    | .error e => .error e
    | .ok coef =>
      if coef = 0 then
        .ok { state := { s with terminated := iteration }, flow := .brk iteration, queries := [s.predictions] }
      else
        .ok { state := { s with
                weights := s.weights ++ [coef]
                hypotheses := s.hypotheses ++ [h]
                predictions := updateZip (fun p q => p + coef * q) s.predictions predictions }
              flow := .cont
              queries := [s.predictions] }

/-- `Booster::postprocess` of GBM, `src/booster/gradient_boost/gbm.rs:263-271`. -/
def postprocess (s : GBM K H) : Except Panic (WeightedMajority K H) :=
  WeightedMajority.fromSlices s.weights s.hypotheses

/-- `impl Booster for GBM`, `src/booster/gradient_boost/gbm.rs:179-272`. -/
def booster [Regressor H X K] (best : List K → List K → Except Panic K) (S : Examples X K) :
    Booster (GBM K H) K H (WeightedMajority K H) where
  preprocess s _ := preprocess S s
  boost := boost best S
  postprocess := postprocess

end GBM

end Miniboosts
