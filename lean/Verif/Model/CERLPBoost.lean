import Verif.Model.FrankWolfe

/-! # `src/booster/cerlpboost/cerlpboost_algorithm.rs` -/

namespace Miniboosts

open Real

variable {H X : Type*}

/-- The fields of `CERLPBoost`, `src/booster/cerlpboost/cerlpboost_algorithm.rs:120-137`. -/
structure CERLPBoost (H : Type*) where
  dist : List ℝ
  eta : ℝ
  halfTolerance : ℝ
  nu : ℝ
  frankWolfe : FrankWolfe
  weights : List ℝ
  hypotheses : List H
  maxIter : Nat
  terminated : Nat

namespace CERLPBoost

/-- `CERLPBoost::init`, `src/booster/cerlpboost/cerlpboost_algorithm.rs:143-171`. -/
noncomputable def init (S : Examples X ℝ) : CERLPBoost H :=
  let eta := log ((S.length : ℝ) / 1) / (5 / 1000)
  { dist := [], halfTolerance := 5 / 1000, eta := eta, nu := 1,
    frankWolfe := { eta := eta, nu := 1, fwType := .shortStep },
    weights := [], hypotheses := [], maxIter := 2 ^ 64 - 1, terminated := 2 ^ 64 - 1 }

/-- `CERLPBoost::regularization_param`, `src/booster/cerlpboost/cerlpboost_algorithm.rs:212-218`.
(With an empty `dist`, as before the first run, the code stores an infinity here; `preprocess` overwrites it
before it is read.) -/
noncomputable def regularizationParam (s : CERLPBoost H) : CERLPBoost H :=
  let eta := log ((s.dist.length : ℝ) / s.nu) / s.halfTolerance
  { s with eta := eta, frankWolfe := { s.frankWolfe with eta := eta } }

/-- `CERLPBoost::nu`, `src/booster/cerlpboost/cerlpboost_algorithm.rs:177-186`. -/
noncomputable def setNu (S : Examples X ℝ) (s : CERLPBoost H) (nu : ℝ) : Except Panic (CERLPBoost H) :=
  match checkNu nu S.length with
  | .error e => .error e
  | .ok () => .ok (regularizationParam { s with nu := nu, frankWolfe := { s.frankWolfe with nu := nu } })

/-- `CERLPBoost::tolerance`, `src/booster/cerlpboost/cerlpboost_algorithm.rs:193-196`. -/
noncomputable def setTolerance (s : CERLPBoost H) (tolerance : ℝ) : CERLPBoost H :=
  { s with halfTolerance := tolerance / 2 }

/-- `CERLPBoost::fw_type` and `CERLPBoost::variant`,
`src/booster/cerlpboost/cerlpboost_algorithm.rs:201-204, 240-243`. -/
def setFwType (s : CERLPBoost H) (t : FWType) : CERLPBoost H :=
  { s with frankWolfe := { s.frankWolfe with fwType := t } }

/-- `CERLPBoost::max_loop`, `src/booster/cerlpboost/cerlpboost_algorithm.rs:225-233`. -/
noncomputable def maxLoop (s : CERLPBoost H) : Nat :=
  ⌈8 * log ((s.dist.length : ℝ) / s.nu) / s.halfTolerance ^ 2⌉₊

/-- `Booster::preprocess` of CERLPBoost, `src/booster/cerlpboost/cerlpboost_algorithm.rs:287-307`. -/
noncomputable def preprocess (S : Examples X ℝ) (s : CERLPBoost H) : Except Panic (CERLPBoost H) :=
  match checkBinary S with
  | .error e => .error e
  | .ok () =>
    let s := regularizationParam { s with dist := List.replicate S.length (1 / (S.length : ℝ)) }
    .ok { s with maxIter := maxLoop s, terminated := maxLoop s, weights := [], hypotheses := [] }

/-- `Booster::boost` of CERLPBoost, `src/booster/cerlpboost/cerlpboost_algorithm.rs:310-382`.
`PartialEq` on hypotheses is `BEq`. -/
noncomputable def boost [Classifier H X ℝ] [BEq H] (S : Examples X ℝ) (s : CERLPBoost H)
    (wl : WeakLearner ℝ H) (iteration : Nat) : Except Panic (BoostOut (CERLPBoost H) ℝ) :=
  if s.maxIter < iteration then
    .ok { state := s, flow := .brk s.maxIter, queries := [] }
  else
    match expDistribution s.eta s.nu S s.weights s.hypotheses with
    | .error e => .error e
    | .ok dist =>
      let s := { s with dist := dist }
      let h := wl iteration dist
      let newEdge := edge S dist h
      let oldEdge := weightedEdge S dist s.weights s.hypotheses
      if newEdge - oldEdge ≤ s.halfTolerance then
        .ok { state := { s with terminated := iteration }, flow := .brk iteration, queries := [dist] }
      else
        let pos := s.hypotheses.findIdx (fun f => f == h)
        let s := if pos = s.hypotheses.length then
            { s with hypotheses := s.hypotheses ++ [h], weights := s.weights ++ [0] } else s
        match s.frankWolfe.nextIterate iteration S dist s.hypotheses pos s.weights with
        | .error e => .error e
        | .ok weights => .ok { state := { s with weights := weights }, flow := .cont, queries := [dist] }

/-- `Booster::postprocess` and `current_hypothesis` of CERLPBoost,
`src/booster/cerlpboost/cerlpboost_algorithm.rs:385-392, 400-402`. -/
noncomputable def postprocess (s : CERLPBoost H) : Except Panic (WeightedMajority ℝ H) :=
  WeightedMajority.fromSlices s.weights s.hypotheses

/-- `impl Booster for CERLPBoost`, `src/booster/cerlpboost/cerlpboost_algorithm.rs:259-393`. -/
noncomputable def booster [Classifier H X ℝ] [BEq H] (S : Examples X ℝ) :
    Booster (CERLPBoost H) ℝ H (WeightedMajority ℝ H) where
  preprocess s _ := preprocess S s
  boost := boost S
  postprocess := postprocess

end CERLPBoost

end Miniboosts
