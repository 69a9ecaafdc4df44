import Verif.Model.Core

/-! # `src/common/utils.rs` (exact-arithmetic part) and `src/hypothesis/weighted_majority.rs` -/

namespace Miniboosts

variable {K : Type*} [Field K] [LinearOrder K] {H X : Type*}

/-- `v.iter_mut().zip(w).for_each(|(a, b)| *a = f(*a, b))`: updates in place while both last; the entries
of `v` beyond the length of `w` stay as they are (e.g. `src/booster/madaboost/madaboost_algorithm.rs:212-214`,
`src/booster/smoothboost/smoothboost_algorithm.rs:319-323`). -/
def updateZip {α β : Type*} (f : α → β → α) : List α → List β → List α
  | a :: as, b :: bs => f a b :: updateZip f as bs
  | as, _ => as

/-- `utils::margins_of_hypothesis`, `src/common/utils.rs:35-45`. -/
def margins [Classifier H X K] (S : Examples X K) (h : H) : List K :=
  S.map fun e => e.2 * conf h e.1

/-- `margins.into_iter().zip(dist).map(|(yh, d)| *d * yh).sum()`; also
`utils::inner_product`, `src/common/utils.rs:277-282` (zip truncates to the shorter slice). -/
def innerProduct (v1 v2 : List K) : K :=
  (List.zipWith (fun a b => a * b) v1 v2).sum

/-- `utils::edge_of_hypothesis`, `src/common/utils.rs:15-27`. -/
def edge [Classifier H X K] (S : Examples X K) (dist : List K) (h : H) : K :=
  (List.zipWith (fun yh d => d * yh) (margins S h) dist).sum

/-- `sum_j w_j * h_j(x)`: `src/common/utils.rs:89-93` and
`src/hypothesis/weighted_majority.rs:72-78` (zip truncates). -/
def weightedConf [Classifier H X K] (weights : List K) (hs : List H) (x : X) : K :=
  (List.zipWith (fun w h => w * conf h x) weights hs).sum

/-- `utils::margins_of_weighted_hypothesis`, `src/common/utils.rs:77-97`. -/
def weightedMargins [Classifier H X K] (S : Examples X K) (weights : List K) (hs : List H) :
    List K :=
  S.map fun e => e.2 * weightedConf weights hs e.1

/-- `utils::edge_of_weighted_hypothesis`, `src/common/utils.rs:54-67`. -/
def weightedEdge [Classifier H X K] (S : Examples X K) (dist weights : List K) (hs : List H) : K :=
  (List.zipWith (fun yh d => d * yh) (weightedMargins S weights hs) dist).sum

/-- `utils::normalize`, `src/common/utils.rs:287-296`: divide by the sum of absolute values,
panic when that sum is zero. -/
def normalize (items : List K) : Except Panic (List K) :=
  let z := (items.map (fun a => |a|)).sum
  if z = 0 then .error .assertion else .ok (items.map (fun a => a / z))

/-- `utils::total_weight_for_label`, `src/common/utils.rs:318-329`. -/
def totalWeightForLabel (y : K) (target weight : List K) : K :=
  ((List.zip target weight).filterMap (fun p => if p.1 = y then some p.2 else none)).sum

/-- `WeightedMajority`, `src/hypothesis/weighted_majority.rs:13-19`. -/
structure WeightedMajority (K H : Type*) where
  weights : List K
  hypotheses : List H
  deriving DecidableEq, Repr

namespace WeightedMajority

/-- `WeightedMajority::from_slices`, `src/hypothesis/weighted_majority.rs:24-42`. -/
def fromSlices (weights : List K) (hypotheses : List H) :
    Except Panic (WeightedMajority K H) :=
  let kept := (List.zip weights hypotheses).filter (fun p => decide (0 < p.1))
  match normalize (kept.map Prod.fst) with
  | .error e => .error e
  | .ok ws => .ok { weights := ws, hypotheses := kept.map Prod.snd }

/-- `WeightedMajority::push`, `src/hypothesis/weighted_majority.rs:47-50`. -/
def push (f : WeightedMajority K H) (w : K) (h : H) : WeightedMajority K H :=
  { weights := f.weights ++ [w], hypotheses := f.hypotheses ++ [h] }

/-- `WeightedMajority::normalize`, `src/hypothesis/weighted_majority.rs:55-57`. -/
def norm (f : WeightedMajority K H) : Except Panic (WeightedMajority K H) :=
  match normalize f.weights with
  | .error e => .error e
  | .ok ws => .ok { f with weights := ws }

/-- `WeightedMajority::decompose`, `src/hypothesis/weighted_majority.rs:63-65`. -/
def decompose (f : WeightedMajority K H) : List K × List H := (f.weights, f.hypotheses)

/-- `impl Classifier for WeightedMajority`, `src/hypothesis/weighted_majority.rs:69-79`. -/
instance [Classifier H X K] : Classifier (WeightedMajority K H) X K where
  conf f x := weightedConf f.weights f.hypotheses x

/-- `impl Regressor for WeightedMajority`, `src/hypothesis/weighted_majority.rs:81-91`. -/
instance [Regressor H X K] : Regressor (WeightedMajority K H) X K where
  pred f x := (List.zipWith (fun w h => w * Regressor.pred h x) f.weights f.hypotheses).sum

end WeightedMajority

/-- `NaiveAggregation`, `src/hypothesis/naive_aggregation.rs:38-45`.
A `FixedBitSet` of capacity `n_hypotheses` is a list of booleans of that length. -/
structure NaiveAggregation (H : Type*) where
  hypotheses : List H
  prediction : List (List Bool)
  deriving DecidableEq, Repr

namespace NaiveAggregation

/-- `NaiveAggregation::new`, `src/hypothesis/naive_aggregation.rs:55-83`
(`from_slice`, lines 94-101, is the same after a clone). -/
def new [Classifier H X K] (hypotheses : List H) (S : Examples X K) : NaiveAggregation H :=
  { hypotheses := hypotheses
    prediction := (S.filter (fun e => decide (0 < e.2))).map fun e =>
      hypotheses.map fun h => decide (0 < predict (K := K) h e.1) }

/-- `impl Classifier for NaiveAggregation`, `src/hypothesis/naive_aggregation.rs:106-123`. -/
instance [Classifier H X K] : Classifier (NaiveAggregation H) X K where
  conf f x :=
    let bits := f.hypotheses.map fun h => decide (predict (K := K) h x = 1)
    if f.prediction.any (fun p => p == bits) then 1 else -1

end NaiveAggregation

end Miniboosts
