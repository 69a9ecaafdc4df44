import Verif.Model.ERLPBoost
import Verif.Model.FrankWolfe

/-! # `src/booster/mlpboost/perturbed_lp_model.rs` and `src/booster/mlpboost/mlpboost_algorithm.rs` -/

namespace Miniboosts

open Real

variable {H X : Type*}

namespace MLP

/-- `LPModel`, `src/booster/mlpboost/perturbed_lp_model.rs:64-73`; `rows[i]` (`margins[i]` in the code) lists the
margins of example `i`; of the random number generator only the number `draws` of vectors drawn so far is kept. -/
structure LPModel where
  nExamples : Nat
  nHypotheses : Nat
  rows : List (List ℝ)
  weights : List ℝ
  draws : Nat
  dist : List ℝ
  capInv : ℝ
  eta : ℝ

namespace LPModel

/-- `LPModel::init`, `src/booster/mlpboost/perturbed_lp_model.rs:81-93`. -/
def init (eta : ℝ) (size : Nat) (upperBound : ℝ) : LPModel :=
  { nExamples := size, nHypotheses := 0, rows := List.replicate size [], weights := [], draws := 0, dist := [],
    capInv := upperBound, eta := eta }

/-- The arguments of `DefaultSolver::new`, `src/booster/mlpboost/perturbed_lp_model.rs:113-134`.  The random
perturbations `ln ln (1/r)` of line 150 are an arbitrary function `noise` of the draw and the example. -/
noncomputable def program (noise : Nat → Nat → ℝ) (m : LPModel) : Program ℝ :=
  { P := Csc.zeros (m.nExamples + 1)
    q := 1 :: (List.range m.nExamples).map fun i => noise m.draws i / m.eta
    A := gammaConstraintMatrix m.nExamples m.nHypotheses m.rows m.capInv
    b := rhsOf m.nExamples m.nHypotheses m.capInv 0
    cones := senseOf m.nExamples m.nHypotheses }

/-- `LPModel::update`, `src/booster/mlpboost/perturbed_lp_model.rs:99-142`: the new model and the returned
weights. -/
noncomputable def update [Classifier H X ℝ] (solver : Solver ℝ) (noise : Nat → Nat → ℝ) (S : Examples X ℝ)
    (m : LPModel) (optH : Option H) : Except Panic (LPModel × List ℝ) :=
  match optH with
  | none => .ok (m, m.weights)
  | some h =>
    let m := { m with nHypotheses := m.nHypotheses + 1, rows := pushMargins m.rows (margins S h) }
    let sol := solver (m.program noise)
    if sol.z.length < 2 * m.nExamples + 1 ∨ sol.x.length < 1 then .error .outOfRange
    else
      let m := { m with draws := m.draws + 1, weights := sol.z.drop (2 * m.nExamples + 1), dist := sol.x.drop 1 }
      .ok (m, m.weights)

end LPModel

end MLP

/-- The fields of `MLPBoost`, `src/booster/mlpboost/mlpboost_algorithm.rs:143-182`. -/
structure MLPBoost (H : Type*) where
  halfTolerance : ℝ
  nSample : Nat
  nu : ℝ
  eta : ℝ
  primary : FrankWolfe
  secondary : Option MLP.LPModel
  weights : List ℝ
  hypotheses : List H
  terminated : Nat
  maxIter : Nat
  gamma : ℝ

namespace MLPBoost

/-- `MLPBoost::init`, `src/booster/mlpboost/mlpboost_algorithm.rs:190-220`. -/
noncomputable def init (S : Examples X ℝ) : Except Panic (MLPBoost H) :=
  if S.length = 0 then .error .assertion
  else
    let eta := log ((S.length : ℝ) / 1) / (5 / 1000)
    .ok { halfTolerance := 5 / 1000, nSample := S.length, nu := 1, eta := eta,
          primary := { eta := eta, nu := 1, fwType := .shortStep }, secondary := none, weights := [], hypotheses := [],
          terminated := 2 ^ 64 - 1, maxIter := 2 ^ 64 - 1, gamma := 1 }

/-- `MLPBoost::nu`, `src/booster/mlpboost/mlpboost_algorithm.rs:227-233`. -/
noncomputable def setNu (s : MLPBoost H) (nu : ℝ) : Except Panic (MLPBoost H) :=
  if 1 ≤ nu ∧ nu ≤ (s.nSample : ℝ) then .ok { s with nu := nu, primary := { s.primary with nu := nu } }
  else .error .assertion

/-- `MLPBoost::frank_wolfe`, `src/booster/mlpboost/mlpboost_algorithm.rs:240-243`. -/
def setFwType (s : MLPBoost H) (t : FWType) : MLPBoost H := { s with primary := { s.primary with fwType := t } }

/-- `MLPBoost::tolerance`, `src/booster/mlpboost/mlpboost_algorithm.rs:250-253`. -/
noncomputable def setTolerance (s : MLPBoost H) (tolerance : ℝ) : MLPBoost H :=
  { s with halfTolerance := tolerance / 2 }

/-- `MLPBoost::eta`, `init_solver` and `init_params`, `src/booster/mlpboost/mlpboost_algorithm.rs:260-291`. -/
noncomputable def initParams (s : MLPBoost H) : MLPBoost H :=
  let eta := log ((s.nSample : ℝ) / s.nu) / s.halfTolerance
  { s with eta := eta, primary := { s.primary with eta := eta },
           secondary := some (MLP.LPModel.init eta s.nSample (1 / s.nu)) }

/-- `MLPBoost::max_loop`, `src/booster/mlpboost/mlpboost_algorithm.rs:298-301`. -/
noncomputable def maxLoop (s : MLPBoost H) : Nat :=
  ⌈8 * log ((s.nSample : ℝ) / s.nu) / s.halfTolerance ^ 2⌉₊

/-- `MLPBoost::objval`, `src/booster/mlpboost/mlpboost_algorithm.rs:338-352`. -/
noncomputable def objval [Classifier H X ℝ] (S : Examples X ℝ) (eta nu : ℝ) (hs : List H) (weights : List ℝ) :
    Except Panic ℝ :=
  match expDistribution eta nu S weights hs with
  | .error e => .error e
  | .ok dist => .ok (weightedEdge S dist weights hs + entropyFromUni dist / eta)

/-- `MLPBoost::better_weight`, `src/booster/mlpboost/mlpboost_algorithm.rs:359-366`. -/
noncomputable def betterWeight [Classifier H X ℝ] (S : Examples X ℝ) (eta nu : ℝ) (hs : List H) (w1 w2 : List ℝ) :
    Except Panic (List ℝ) :=
  match objval S eta nu hs w1 with
  | .error e => .error e
  | .ok v1 =>
    match objval S eta nu hs w2 with
    | .error e => .error e
    | .ok v2 => .ok (if v2 ≤ v1 then w1 else w2)

/-- `Booster::preprocess` of MLPBoost, `src/booster/mlpboost/mlpboost_algorithm.rs:397-417`.  With
`half_tolerance = 0` the code goes on with an infinity or NaN. -/
noncomputable def preprocess (S : Examples X ℝ) (s : MLPBoost H) : Except Panic (MLPBoost H) :=
  match checkBinary S with
  | .error e => .error e
  | .ok () =>
    if s.halfTolerance = 0 then .error .nonFinite
    else
      let s := initParams { s with nSample := S.length }
      .ok { s with maxIter := maxLoop s, terminated := maxLoop s, hypotheses := [], weights := [], gamma := 1 }

/-- `Booster::boost` of MLPBoost, `src/booster/mlpboost/mlpboost_algorithm.rs:420-515`.  `PartialEq` on hypotheses
is `BEq`. -/
noncomputable def boost [Classifier H X ℝ] [BEq H] (solver : Solver ℝ) (noise : Nat → Nat → ℝ) (S : Examples X ℝ)
    (s : MLPBoost H) (wl : WeakLearner ℝ H) (iteration : Nat) : Except Panic (BoostOut (MLPBoost H) ℝ) :=
  if s.maxIter < iteration then .ok { state := s, flow := .brk s.maxIter, queries := [] }
  else
    match expDistribution s.eta s.nu S s.weights s.hypotheses with
    | .error e => .error e
    | .ok dist =>
      let h := wl iteration dist
      let s := { s with gamma := min s.gamma (edge S dist h) }
      match s.secondary with
      | none => .error .unwrapNone
      | some m =>
        if iteration = 1 then
          match m.update solver noise S (some h) with
          | .error e => .error e
          | .ok (m, _) =>
            .ok { state := { s with hypotheses := s.hypotheses ++ [h], weights := s.weights ++ [1], secondary := some m }
                  flow := .cont, queries := [dist] }
        else
          match objval S s.eta s.nu s.hypotheses s.weights with
          | .error e => .error e
          | .ok v =>
            if s.gamma - v ≤ s.halfTolerance then
              .ok { state := { s with terminated := iteration }, flow := .brk iteration, queries := [dist] }
            else
              let pos := s.hypotheses.findIdx (fun f => f == h)
              let new := decide (pos = s.hypotheses.length)
              let hs := if new then s.hypotheses ++ [h] else s.hypotheses
              let ws := if new then s.weights ++ [0] else s.weights
              match s.primary.nextIterate iteration S dist hs pos ws with
              | .error e => .error e
              | .ok prim =>
                match m.update solver noise S (if new then some h else none) with
                | .error e => .error e
                | .ok (m, seco) =>
                  match betterWeight S s.eta s.nu hs prim seco with
                  | .error e => .error e
                  | .ok w =>
                    match checkCappedSimplex w 1 with
                    | .error e => .error e
                    | .ok () =>
                      .ok { state := { s with hypotheses := hs, weights := w, secondary := some m }
                            flow := .cont, queries := [dist] }

/-- `Booster::postprocess` and `current_hypothesis` of MLPBoost,
`src/booster/mlpboost/mlpboost_algorithm.rs:518-525, 534-536`. -/
noncomputable def postprocess (s : MLPBoost H) : Except Panic (WeightedMajority ℝ H) :=
  WeightedMajority.fromSlices s.weights s.hypotheses

/-- `impl Booster for MLPBoost`, `src/booster/mlpboost/mlpboost_algorithm.rs:370-526`. -/
noncomputable def booster [Classifier H X ℝ] [BEq H] (solver : Solver ℝ) (noise : Nat → Nat → ℝ)
    (S : Examples X ℝ) : Booster (MLPBoost H) ℝ H (WeightedMajority ℝ H) where
  preprocess s _ := preprocess S s
  boost := boost solver noise S
  postprocess := postprocess

end MLPBoost

end Miniboosts
