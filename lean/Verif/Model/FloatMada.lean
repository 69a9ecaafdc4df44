import Verif.Model.FloatAdaBoostV
import Verif.Model.FloatSmooth

/-! # MadaBoost computed with `f64` -/

namespace Miniboosts

/-- The fields of `MadaBoost`, `src/booster/madaboost/madaboost_algorithm.rs:86-119`. -/
structure MadaBoostF (H : Type*) where
  betas : List F64
  tolerance : F64
  alphas : List F64
  hypotheses : List H
  maxIter : Nat
  forceQuitAt : Option Nat
  terminated : Nat

namespace MadaBoostF

open F64

variable {H X : Type*}

/-- `MadaBoost::init`, `src/booster/madaboost/madaboost_algorithm.rs:127-143`. -/
noncomputable def init (S : Examples X ℝ) : MadaBoostF H :=
  { betas := [], tolerance := div (fin 1) (add (fin S.length) (fin 1)), alphas := [], hypotheses := [], maxIter := 2 ^ 64 - 1, forceQuitAt := none,
    terminated := 2 ^ 64 - 1 }

/-- `MadaBoost::force_quit_at`, `src/booster/madaboost/madaboost_algorithm.rs:166-169`. -/
def setForceQuitAt (s : MadaBoostF H) (it : Nat) : MadaBoostF H := { s with forceQuitAt := some it }

/-- `MadaBoost::tolerance`, `src/booster/madaboost/madaboost_algorithm.rs:177-180`. -/
def setTolerance (s : MadaBoostF H) (t : F64) : MadaBoostF H := { s with tolerance := t }

/-- `MadaBoost::max_loop`, `src/booster/madaboost/madaboost_algorithm.rs:154-158`. -/
noncomputable def maxLoop (S : Examples X ℝ) (s : MadaBoostF H) : Nat := ceilUsize (div (sub (fin S.length) (fin 1)) (sq s.tolerance))

/-- `eps` of `MadaBoost::update_params`, `src/booster/madaboost/madaboost_algorithm.rs:201`. -/
noncomputable def eps (edge : F64) : F64 := mul (fin (1 / 2)) (sub (fin 1) edge)

/-- `eps2` of `MadaBoost::update_params`, `src/booster/madaboost/madaboost_algorithm.rs:203`. -/
noncomputable def eps2 (edge : F64) : F64 := F64.sqrt (mul (fin (1 / 2)) (eps edge))

/-- `beta` of `MadaBoost::update_params`, `src/booster/madaboost/madaboost_algorithm.rs:204`. -/
noncomputable def beta (edge : F64) : F64 := F64.sqrt (div (eps2 edge) (sub (fin 1) (eps2 edge)))

/-- `alpha` of `MadaBoost::update_params`, `src/booster/madaboost/madaboost_algorithm.rs:208`. -/
noncomputable def alpha (L : Libm) (edge : F64) : F64 := ln L (div (fin 1) (beta edge))

/-- `MadaBoost::update_params`, `src/booster/madaboost/madaboost_algorithm.rs:193-218`: the possible results, the vote and the new scores. -/
def UpdateParams (L : Libm) (betas margins : List F64) (edge : F64) (r : Except Panic (F64 × List F64)) : Prop :=
  (¬ (Le (fin 0) (eps edge) ∧ Lt (eps edge) (fin 1)) ∧ r = .error .assertion) ∨
  ((Le (fin 0) (eps edge) ∧ Lt (eps edge) (fin 1)) ∧
    ∃ new, ParUpdate (fun b yh => add b (mul yh (beta edge))) betas margins new ∧ r = .ok (alpha L edge, new))

open Classical in
/-- `MadaBoost::beta2distribution`, `src/booster/madaboost/madaboost_algorithm.rs:221-257`: the possible results.  The unstable sort may leave equal
entries in any order; the comparison with a NaN panics. -/
def Beta2Distribution (L : Libm) (betas : List F64) (r : Except Panic (List F64)) : Prop :=
  let weights := betas.map fun b => minNum b (fin 1)
  if 2 ≤ weights.length ∧ nan ∈ weights then r = .error .unwrapNone
  else ∃ idx, SortedIdx weights idx ∧
    match normalizer L weights idx with
    | none => r = .error .outOfRange
    | some z => r = .ok (weights.map fun b => exp L (sub b z))

/-- `Booster::preprocess` of MadaBoost, `src/booster/madaboost/madaboost_algorithm.rs:290-311`. -/
noncomputable def preprocess (S : Examples X ℝ) (s : MadaBoostF H) : Except Panic (MadaBoostF H) :=
  match checkBinary S with
  | .error e => .error e
  | .ok () =>
    .ok { s with
      betas := List.replicate S.length (div (fin 1) (fin S.length))
      alphas := []
      hypotheses := []
      maxIter := match s.forceQuitAt with
        | some it => it
        | none => maxLoop S s }

/-- `Booster::boost` of MadaBoost, `src/booster/madaboost/madaboost_algorithm.rs:314-355`: the possible results. -/
def Boost [Classifier H X F64] (L : Libm) (S : Examples X ℝ) (s : MadaBoostF H) (wl : WeakLearner F64 H) (iteration : Nat)
    (r : Except Panic (BoostOut (MadaBoostF H) F64)) : Prop :=
  if s.maxIter < iteration then r = .ok { state := s, flow := .brk s.maxIter, queries := [] }
  else
    ∃ d, Beta2Distribution L s.betas d ∧
      match d with
      | .error e => r = .error e
      | .ok dist =>
        let h := wl iteration dist
        ∃ edge, Inner (F64.margins S h) dist edge ∧
          ((Le (fin 1) edge.abs ∧
            r = .ok { state := { s with terminated := iteration, alphas := [AdaBoostF.signum edge], hypotheses := [h] },
                      flow := .brk iteration, queries := [dist] }) ∨
          (¬ Le (fin 1) edge.abs ∧
            ∃ p, UpdateParams L s.betas (F64.margins S h) edge p ∧
              r = p.map fun p => { state := { s with betas := p.2, alphas := s.alphas ++ [p.1], hypotheses := s.hypotheses ++ [h] }
                                   flow := .cont, queries := [dist] }))

/-- MadaBoost computed with `f64`; `postprocess` is `src/booster/madaboost/madaboost_algorithm.rs:358-365`. -/
noncomputable def booster [Classifier H X F64] (L : Libm) (S : Examples X ℝ) : ParBooster (MadaBoostF H) F64 H (WeightedMajority F64 H) where
  preprocess s _ := preprocess S s
  boost := Boost L S
  postprocess s := fromSlices s.alphas s.hypotheses

end MadaBoostF

end Miniboosts
