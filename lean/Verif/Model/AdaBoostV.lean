import Verif.Model.AdaBoost

/-! # `src/booster/adaboostv/adaboostv_algorithm.rs` -/

namespace Miniboosts

open Real

variable {H X : Type*}

/-- The fields of `AdaBoostV`, `src/booster/adaboostv/adaboostv_algorithm.rs:109-138`. -/
structure AdaBoostV (H : Type*) where
  tolerance : ℝ
  rho : ℝ
  gamma : ℝ
  dist : List ℝ
  weights : List ℝ
  hypotheses : List H
  maxIter : Nat
  forceQuitAt : Option Nat
  terminated : Nat

namespace AdaBoostV

/-- `AdaBoostV::init`, `src/booster/adaboostv/adaboostv_algorithm.rs:146-165`. -/
noncomputable def init (S : Examples X ℝ) : AdaBoostV H :=
  { tolerance := 1 / (S.length : ℝ), rho := 1, gamma := 1, dist := [], weights := [],
    hypotheses := [], maxIter := AdaBoost.usizeMax, forceQuitAt := none,
    terminated := AdaBoost.usizeMax }

/-- `AdaBoostV::tolerance`, `src/booster/adaboostv/adaboostv_algorithm.rs:174-178`. -/
def setTolerance (s : AdaBoostV H) (t : ℝ) : AdaBoostV H := { s with tolerance := t }

/-- `AdaBoostV::force_quit_at`, `src/booster/adaboostv/adaboostv_algorithm.rs:212-215`. -/
def setForceQuitAt (s : AdaBoostV H) (it : Nat) : AdaBoostV H := { s with forceQuitAt := some it }

/-- `AdaBoostV::max_loop`, `src/booster/adaboostv/adaboostv_algorithm.rs:190-194`. -/
noncomputable def maxLoop (S : Examples X ℝ) (s : AdaBoostV H) : Nat :=
  ⌊2 * log (S.length : ℝ) / s.tolerance ^ 2⌋₊

/-- `AdaBoostV::update_params`, `src/booster/adaboostv/adaboostv_algorithm.rs:228-277`: returns the weight
and the updated state.  When the margin target `rho` leaves `(-1, 1)` the code takes the logarithm of a
non-positive number; the model reports `nonFinite`. -/
noncomputable def updateParams (s : AdaBoostV H) (margins : List ℝ) (edge : ℝ) :
    Except Panic (ℝ × AdaBoostV H) :=
  let gamma := min edge s.gamma
  let rho := gamma - s.tolerance
  if -1 < rho ∧ rho < 1 then
    let e := log ((1 + edge) / (1 - edge)) / 2
    let m := log ((1 + rho) / (1 - rho)) / 2
    let weight := e - m
    match reweight s.dist margins weight with
    | .error e => .error e
    | .ok dist' => .ok (weight, { s with gamma := gamma, rho := rho, dist := dist' })
  else .error .nonFinite

/-- `Booster::preprocess` of AdaBoostV, `src/booster/adaboostv/adaboostv_algorithm.rs:307-331`. -/
noncomputable def preprocess (S : Examples X ℝ) (s : AdaBoostV H) : Except Panic (AdaBoostV H) :=
  match checkBinary S with
  | .error e => .error e
  | .ok () =>
    .ok { s with
      dist := List.replicate S.length (1 / (S.length : ℝ))
      rho := 1
      gamma := 1
      weights := []
      hypotheses := []
      maxIter := match s.forceQuitAt with
        | some it => it
        | none => maxLoop S s }

/-- `Booster::boost` of AdaBoostV, `src/booster/adaboostv/adaboostv_algorithm.rs:334-373`. -/
noncomputable def boost [Classifier H X ℝ] (S : Examples X ℝ) (s : AdaBoostV H)
    (wl : WeakLearner ℝ H) (iteration : Nat) : Except Panic (BoostOut (AdaBoostV H) ℝ) :=
  if s.maxIter < iteration then
    .ok { state := s, flow := .brk s.maxIter, queries := [] }
  else
    let h := wl iteration s.dist
    let ms := margins S h
    let edge := innerProduct ms s.dist
    if 1 ≤ |edge| then
      .ok { state := { s with terminated := iteration, weights := [AdaBoost.signum edge],
                              hypotheses := [h] },
            flow := .brk iteration, queries := [s.dist] }
    else
      match updateParams s ms edge with
      | .error e => .error e
      | .ok (weight, s') =>
        .ok { state := { s' with weights := s'.weights ++ [weight],
                                 hypotheses := s'.hypotheses ++ [h] },
              flow := .cont, queries := [s.dist] }

/-- `Booster::postprocess` and `current_hypothesis` of AdaBoostV,
`src/booster/adaboostv/adaboostv_algorithm.rs:376-395`. -/
noncomputable def postprocess (s : AdaBoostV H) : Except Panic (WeightedMajority ℝ H) :=
  WeightedMajority.fromSlices s.weights s.hypotheses

/-- `impl Booster for AdaBoostV`, `src/booster/adaboostv/adaboostv_algorithm.rs:279-384`. -/
noncomputable def booster [Classifier H X ℝ] (S : Examples X ℝ) :
    Booster (AdaBoostV H) ℝ H (WeightedMajority ℝ H) where
  preprocess s _ := preprocess S s
  boost := boost S
  postprocess := postprocess

end AdaBoostV

end Miniboosts
