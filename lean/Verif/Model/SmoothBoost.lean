import Verif.Model.AdaBoost
import Mathlib.Analysis.SpecialFunctions.Pow.Real

/-! # `src/booster/smoothboost/smoothboost_algorithm.rs` -/

namespace Miniboosts

open Real

variable {H X : Type*}

/-- The fields of `SmoothBoost`, `src/booster/smoothboost/smoothboost_algorithm.rs:93-126`. -/
structure SmoothBoost (H : Type*) where
  kappa : ℝ
  theta : ℝ
  gamma : ℝ
  nSample : Nat
  current : Nat
  terminated : Nat
  maxIter : Nat
  hypotheses : List H
  m : List ℝ
  n : List ℝ

namespace SmoothBoost

/-- `SmoothBoost::init`, `src/booster/smoothboost/smoothboost_algorithm.rs:131-156`. -/
noncomputable def init (S : Examples X ℝ) : SmoothBoost H :=
  { kappa := 1 / 2, theta := (1 / 2) / (2 + 1 / 2), gamma := 1 / 2, nSample := S.length, current := 0,
    terminated := AdaBoost.usizeMax, maxIter := AdaBoost.usizeMax, hypotheses := [], m := [], n := [] }

/-- `SmoothBoost::tolerance`, `src/booster/smoothboost/smoothboost_algorithm.rs:161-165`. -/
def setTolerance (s : SmoothBoost H) (kappa : ℝ) : SmoothBoost H := { s with kappa := kappa }

/-- `SmoothBoost::gamma`, `src/booster/smoothboost/smoothboost_algorithm.rs:176-182`. -/
noncomputable def setGamma (s : SmoothBoost H) (gamma : ℝ) : Except Panic (SmoothBoost H) :=
  if 0 ≤ gamma ∧ gamma < 1 / 2 then .ok { s with gamma := gamma } else .error .assertion

/-- `SmoothBoost::max_loop`, `src/booster/smoothboost/smoothboost_algorithm.rs:193-200`.
With a zero denominator the quotient is `+inf` and the cast saturates at `usize::MAX`. -/
noncomputable def maxLoop (s : SmoothBoost H) : Nat :=
  let denom := s.kappa * s.gamma ^ 2 * √(1 - s.gamma)
  if denom = 0 then AdaBoost.usizeMax else ⌈2 / denom⌉₊

/-- `SmoothBoost::check_preconditions`, `src/booster/smoothboost/smoothboost_algorithm.rs:203-219`. -/
noncomputable def checkPreconditions (s : SmoothBoost H) : Except Panic Unit :=
  if ¬ (0 ≤ s.kappa ∧ s.kappa < 1) ∨ s.kappa ≤ 0 then .error .assertion
  else if ¬ (s.theta ≤ s.gamma ∧ s.gamma < 1 / 2) then .error .assertion
  else .ok ()

/-- `Booster::preprocess` of SmoothBoost, `src/booster/smoothboost/smoothboost_algorithm.rs:249-273`
(with `theta()`, lines 186-188, inlined). -/
noncomputable def preprocess (S : Examples X ℝ) (s : SmoothBoost H) : Except Panic (SmoothBoost H) :=
  match checkBinary S with
  | .error e => .error e
  | .ok () =>
    let s := { s with nSample := S.length, theta := s.gamma / (2 + s.gamma) }
    match checkPreconditions s with
    | .error e => .error e
    | .ok () =>
      .ok { s with
        current := 0
        maxIter := maxLoop s
        terminated := maxLoop s
        hypotheses := []
        m := List.replicate S.length 1
        n := List.replicate S.length 1 }

/-- `Booster::boost` of SmoothBoost, `src/booster/smoothboost/smoothboost_algorithm.rs:276-338`.
`iteration - 1` is `usize` subtraction; `iteration` starts at 1. -/
noncomputable def boost [Classifier H X ℝ] (S : Examples X ℝ) (s : SmoothBoost H)
    (wl : WeakLearner ℝ H) (iteration : Nat) : Except Panic (BoostOut (SmoothBoost H) ℝ) :=
  if s.maxIter < iteration then
    .ok { state := s, flow := .brk s.maxIter, queries := [] }
  else
    let s := { s with current := iteration }
    let sum := s.m.sum
    if sum < (s.nSample : ℝ) * s.kappa then
      if iteration = 0 then .error .arith
      else .ok { state := { s with terminated := iteration - 1 }, flow := .brk iteration, queries := [] }
    else
      let dist := s.m.map fun mj => mj / sum
      let h := wl iteration dist
      let n' := updateZip (fun nj yh => nj + yh - s.theta) s.n (margins S h)
      let m' := updateZip (fun _ nj => if nj ≤ 0 then 1 else (1 - s.gamma) ^ (nj * (1 / 2))) s.m n'
      .ok { state := { s with hypotheses := s.hypotheses ++ [h], n := n', m := m' },
            flow := .cont, queries := [dist] }

/-- `Booster::postprocess` and `current_hypothesis` of SmoothBoost,
`src/booster/smoothboost/smoothboost_algorithm.rs:341-350, 358-362`.
`1.0 / 0` is an infinity in the code (`nonFinite` here). -/
noncomputable def postprocess (s : SmoothBoost H) : Except Panic (WeightedMajority ℝ H) :=
  if s.terminated = 0 then .error .nonFinite
  else
    let weight := 1 / (s.terminated : ℝ)
    WeightedMajority.fromSlices (List.replicate s.nSample weight) s.hypotheses

/-- `impl Booster for SmoothBoost`, `src/booster/smoothboost/smoothboost_algorithm.rs:224-351`. -/
noncomputable def booster [Classifier H X ℝ] (S : Examples X ℝ) :
    Booster (SmoothBoost H) ℝ H (WeightedMajority ℝ H) where
  preprocess s _ := preprocess S s
  boost := boost S
  postprocess := postprocess

end SmoothBoost

end Miniboosts
