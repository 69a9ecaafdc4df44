import Verif.Model.FloatProject
import Verif.Model.FloatSmooth
import Verif.Model.FloatTree
import Verif.Model.FrankWolfe

/-! # CERLPBoost in `f64`: `src/booster/cerlpboost/cerlpboost_algorithm.rs`

No parallel iterator is used on this path, so the result is a function of the sample, the weak learner and the platform's `exp` and `ln`. -/

namespace Miniboosts

namespace F64

/-- `utils::margins_of_weighted_hypothesis`, `src/common/utils.rs:77-98`. -/
noncomputable def weightedMargins {H X : Type*} [Classifier H X F64] (S : Examples X ℝ) (weights : List F64) (hs : List H) : List F64 :=
  S.map fun e => mul (fin e.2) ((List.zipWith (fun w h => mul w (conf h e.1)) weights hs).foldl add (fin 0))

/-- The sum of `utils::edge_of_hypothesis` and `utils::edge_of_weighted_hypothesis`, `src/common/utils.rs:13-27, 52-67`. -/
noncomputable def edgeOf (margins dist : List F64) : F64 := (List.zipWith (fun yh d => mul d yh) margins dist).foldl add (fin 0)

open Classical in
/-- `a.clamp(0f64, 1f64)`: a NaN stays. -/
noncomputable def clamp01 (a : F64) : F64 := if Lt a (fin 0) then fin 0 else if Lt (fin 1) a then fin 1 else a

open Classical in
/-- `interior_point`, `src/common/frank_wolfe.rs:419-433`, with `check_stepsize`, `src/common/checker.rs:37-39`. -/
noncomputable def interiorPoint (step : F64) (pos : Nat) (base : List F64) : Except Panic (List F64) :=
  if Le (fin 0) step ∧ Le step (fin 1) then
    .ok (base.mapIdx fun j b => add b (mul step (if j = pos then sub (fin 1) b else neg b)))
  else .error .assertion

/-- The step size of `short_step`, `src/common/frank_wolfe.rs:165-179`; `powi(2)` is one multiplication. -/
noncomputable def shortStepSize (eta : F64) (newMargins oldMargins dist : List F64) : F64 :=
  let diffs := List.zip (List.zipWith sub newMargins oldMargins) dist
  let numer := diffs.foldl (fun a p => add a (mul p.2 p.1)) (fin 0)
  let denom := diffs.foldl (fun a p => maxNum a p.1.abs) (fin (-maxVal))
  clamp01 (div numer (mul eta (mul denom denom)))

/-- `FrankWolfe::next_iterate`, `classic` and `short_step`, `src/common/frank_wolfe.rs:93-184`.  Simplification: the two line searches (lines 187-415) are an
arbitrary function `other`. -/
noncomputable def nextIterate {H X : Type*} [Classifier H X F64] (other : FWType → Nat → List F64 → List H → Nat → List F64 → Except Panic (List F64))
    (fwType : FWType) (eta : F64) (iteration : Nat) (S : Examples X ℝ) (dist : List F64) (hs : List H) (pos : Nat) (weights : List F64) : Except Panic (List F64) :=
  match hs[pos]? with
  | none => .error .assertion
  | some h =>
    match fwType with
    | .classic => interiorPoint (div (fin 2) (rnd ((iteration + 1 : ℕ) : ℝ))) pos weights
    | .shortStep =>
      if hs.length = 1 then .ok [fin 1]
      else interiorPoint (shortStepSize eta (F64.margins S h) (weightedMargins S weights hs) dist) pos weights
    | t => other t iteration dist hs pos weights

end F64

/-- The fields of `CERLPBoost`, `src/booster/cerlpboost/cerlpboost_algorithm.rs:120-137`; `frank_wolfe` has the same `eta` and `nu` whenever they are read. -/
structure CERLPBoostF (H : Type*) where
  dist : List F64
  eta : F64
  halfTolerance : F64
  nu : F64
  fwType : FWType
  weights : List F64
  hypotheses : List H
  maxIter : Nat
  terminated : Nat

namespace CERLPBoostF

open F64

variable {H X : Type*}

/-- `CERLPBoost::init`, `src/booster/cerlpboost/cerlpboost_algorithm.rs:143-171`. -/
noncomputable def init (L : Libm) (S : Examples X ℝ) : CERLPBoostF H :=
  { dist := [], halfTolerance := rnd (5 / 1000), eta := div (ln L (div (rnd (S.length : ℝ)) (fin 1))) (rnd (5 / 1000)), nu := fin 1, fwType := .shortStep,
    weights := [], hypotheses := [], maxIter := 2 ^ 64 - 1, terminated := 2 ^ 64 - 1 }

/-- `CERLPBoost::regularization_param`, `src/booster/cerlpboost/cerlpboost_algorithm.rs:212-218`. -/
noncomputable def regularizationParam (L : Libm) (s : CERLPBoostF H) : CERLPBoostF H :=
  { s with eta := div (ln L (div (rnd (s.dist.length : ℝ)) s.nu)) s.halfTolerance }

open Classical in
/-- `CERLPBoost::nu`, `src/booster/cerlpboost/cerlpboost_algorithm.rs:177-186`. -/
noncomputable def setNu (L : Libm) (S : Examples X ℝ) (s : CERLPBoostF H) (nu : F64) : Except Panic (CERLPBoostF H) :=
  if Le (fin 1) nu ∧ Le nu (rnd (S.length : ℝ)) then .ok (regularizationParam L { s with nu := nu }) else .error .assertion

/-- `CERLPBoost::tolerance`, `src/booster/cerlpboost/cerlpboost_algorithm.rs:193-196`. -/
noncomputable def setTolerance (s : CERLPBoostF H) (tolerance : F64) : CERLPBoostF H := { s with halfTolerance := div tolerance (fin 2) }

/-- `CERLPBoost::fw_type` and `CERLPBoost::variant`, `src/booster/cerlpboost/cerlpboost_algorithm.rs:201-204, 240-243`. -/
def setFwType (s : CERLPBoostF H) (t : FWType) : CERLPBoostF H := { s with fwType := t }

/-- `CERLPBoost::max_loop`, `src/booster/cerlpboost/cerlpboost_algorithm.rs:225-233`; `powi(2)` is one multiplication. -/
noncomputable def maxLoop (L : Libm) (s : CERLPBoostF H) : Nat :=
  ceilUsize (div (mul (fin 8) (ln L (div (rnd (s.dist.length : ℝ)) s.nu))) (mul s.halfTolerance s.halfTolerance))

/-- `Booster::preprocess` of CERLPBoost, `src/booster/cerlpboost/cerlpboost_algorithm.rs:287-307`. -/
noncomputable def preprocess (L : Libm) (S : Examples X ℝ) (s : CERLPBoostF H) : Except Panic (CERLPBoostF H) :=
  match checkBinary S with
  | .error e => .error e
  | .ok () =>
    let s := regularizationParam L { s with dist := List.replicate S.length (div (fin 1) (rnd (S.length : ℝ))) }
    .ok { s with maxIter := maxLoop L s, terminated := maxLoop L s, weights := [], hypotheses := [] }

open Classical in
/-- `Booster::boost` of CERLPBoost, `src/booster/cerlpboost/cerlpboost_algorithm.rs:310-382`.  `PartialEq` on hypotheses is `BEq`. -/
noncomputable def boost [Classifier H X F64] [BEq H] (L : Libm) (other : FWType → Nat → List F64 → List H → Nat → List F64 → Except Panic (List F64))
    (S : Examples X ℝ) (s : CERLPBoostF H) (wl : WeakLearner F64 H) (iteration : Nat) : Except Panic (BoostOut (CERLPBoostF H) F64) :=
  if s.maxIter < iteration then
    .ok { state := s, flow := .brk s.maxIter, queries := [] }
  else
    match F64.expDistributionFromMargins L s.eta s.nu (F64.weightedMargins S s.weights s.hypotheses) with
    | .error e => .error e
    | .ok dist =>
      let h := wl iteration dist
      let newEdge := F64.edgeOf (F64.margins S h) dist
      let oldEdge := F64.edgeOf (F64.weightedMargins S s.weights s.hypotheses) dist
      if Le (sub newEdge oldEdge) s.halfTolerance then
        .ok { state := { s with dist := dist, terminated := iteration }, flow := .brk iteration, queries := [dist] }
      else
        let pos := s.hypotheses.findIdx (fun f => f == h)
        let hs := if pos = s.hypotheses.length then s.hypotheses ++ [h] else s.hypotheses
        let ws := if pos = s.hypotheses.length then s.weights ++ [fin 0] else s.weights
        match nextIterate other s.fwType s.eta iteration S dist hs pos ws with
        | .error e => .error e
        | .ok weights => .ok { state := { s with dist := dist, hypotheses := hs, weights := weights }, flow := .cont, queries := [dist] }

/-- `impl Booster for CERLPBoost`, `src/booster/cerlpboost/cerlpboost_algorithm.rs:259-393`, in `f64`; `postprocess` is lines 385-392. -/
noncomputable def booster [Classifier H X F64] [BEq H] (L : Libm) (other : FWType → Nat → List F64 → List H → Nat → List F64 → Except Panic (List F64))
    (S : Examples X ℝ) : Booster (CERLPBoostF H) F64 H (WeightedMajority F64 H) where
  preprocess s _ := preprocess L S s
  boost := boost L other S
  postprocess s := fromSlices s.weights s.hypotheses

end CERLPBoostF

end Miniboosts
