import Verif.Model.AdaBoost
import Mathlib.Analysis.SpecialFunctions.Pow.Real

/-! # `src/booster/madaboost/madaboost_algorithm.rs` -/

namespace Miniboosts

open Real

variable {H X : Type*}

/-- The fields of `MadaBoost`, `src/booster/madaboost/madaboost_algorithm.rs:86-119`. -/
structure MadaBoost (H : Type*) where
  betas : List ℝ
  tolerance : ℝ
  alphas : List ℝ
  hypotheses : List H
  maxIter : Nat
  forceQuitAt : Option Nat
  terminated : Nat

namespace MadaBoost

/-- `MadaBoost::init`, `src/booster/madaboost/madaboost_algorithm.rs:127-143`. -/
noncomputable def init (S : Examples X ℝ) : MadaBoost H :=
  { betas := [], tolerance := 1 / ((S.length : ℝ) + 1), alphas := [], hypotheses := [],
    maxIter := AdaBoost.usizeMax, forceQuitAt := none, terminated := AdaBoost.usizeMax }

/-- `MadaBoost::force_quit_at`, `src/booster/madaboost/madaboost_algorithm.rs:166-169`. -/
def setForceQuitAt (s : MadaBoost H) (it : Nat) : MadaBoost H := { s with forceQuitAt := some it }

/-- `MadaBoost::tolerance`, `src/booster/madaboost/madaboost_algorithm.rs:177-180`. -/
def setTolerance (s : MadaBoost H) (t : ℝ) : MadaBoost H := { s with tolerance := t }

/-- `MadaBoost::max_loop`, `src/booster/madaboost/madaboost_algorithm.rs:154-158`. -/
noncomputable def maxLoop (S : Examples X ℝ) (s : MadaBoost H) : Nat :=
  ⌈((S.length : ℝ) - 1) / s.tolerance ^ 2⌉₊

/-- `MadaBoost::update_params`, `src/booster/madaboost/madaboost_algorithm.rs:193-218`: returns `alpha` and
the new `betas`. -/
noncomputable def updateParams (betas margins : List ℝ) (edge : ℝ) : Except Panic (ℝ × List ℝ) :=
  let eps := 1 / 2 * (1 - edge)
  if 0 ≤ eps ∧ eps < 1 then
    let eps2 := √(1 / 2 * eps)
    let beta := √(eps2 / (1 - eps2))
    let alpha := log (1 / beta)
    .ok (alpha, updateZip (fun b yh => b + yh * beta) betas margins)
  else .error .assertion

/-- `MadaBoost::beta2distribution`, `src/booster/madaboost/madaboost_algorithm.rs:221-257`. -/
noncomputable def beta2distribution (betas : List ℝ) : Except Panic (List ℝ) :=
  let weights := betas.map fun b => min b 1
  match logSumExpSorted weights with
  | none => .error .outOfRange
  | some normalizer => .ok (weights.map fun b => exp (b - normalizer))

/-- `Booster::preprocess` of MadaBoost, `src/booster/madaboost/madaboost_algorithm.rs:290-311`. -/
noncomputable def preprocess (S : Examples X ℝ) (s : MadaBoost H) : Except Panic (MadaBoost H) :=
  match checkBinary S with
  | .error e => .error e
  | .ok () =>
    .ok { s with
      betas := List.replicate S.length (1 / (S.length : ℝ))
      alphas := []
      hypotheses := []
      maxIter := match s.forceQuitAt with
        | some it => it
        | none => maxLoop S s }

/-- `Booster::boost` of MadaBoost, `src/booster/madaboost/madaboost_algorithm.rs:314-355`. -/
noncomputable def boost [Classifier H X ℝ] (S : Examples X ℝ) (s : MadaBoost H)
    (wl : WeakLearner ℝ H) (iteration : Nat) : Except Panic (BoostOut (MadaBoost H) ℝ) :=
  if s.maxIter < iteration then
    .ok { state := s, flow := .brk s.maxIter, queries := [] }
  else
    match beta2distribution s.betas with
    | .error e => .error e
    | .ok dist =>
      let h := wl iteration dist
      let ms := margins S h
      let edge := innerProduct ms dist
      if 1 ≤ |edge| then
        .ok { state := { s with terminated := iteration, alphas := [AdaBoost.signum edge],
                                hypotheses := [h] },
              flow := .brk iteration, queries := [dist] }
      else
        match updateParams s.betas ms edge with
        | .error e => .error e
        | .ok (alpha, betas') =>
          .ok { state := { s with betas := betas', alphas := s.alphas ++ [alpha],
                                  hypotheses := s.hypotheses ++ [h] },
                flow := .cont, queries := [dist] }

/-- `Booster::postprocess` and `current_hypothesis` of MadaBoost,
`src/booster/madaboost/madaboost_algorithm.rs:358-365, 373-375`. -/
noncomputable def postprocess (s : MadaBoost H) : Except Panic (WeightedMajority ℝ H) :=
  WeightedMajority.fromSlices s.alphas s.hypotheses

/-- `impl Booster for MadaBoost`, `src/booster/madaboost/madaboost_algorithm.rs:261-366`. -/
noncomputable def booster [Classifier H X ℝ] (S : Examples X ℝ) :
    Booster (MadaBoost H) ℝ H (WeightedMajority ℝ H) where
  preprocess s _ := preprocess S s
  boost := boost S
  postprocess := postprocess

end MadaBoost

end Miniboosts
