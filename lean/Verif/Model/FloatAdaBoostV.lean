import Verif.Model.FloatProject
import Verif.Model.FloatTree

/-! # AdaBoostV computed with `f64` -/

namespace Miniboosts

/-- `a as usize`, as in `src/booster/adaboostv/adaboostv_algorithm.rs:193`: truncated, saturated, and zero for NaN. -/
noncomputable def F64.asUsize : F64 → Nat
  | .nan => 0
  | .inf s => if s then 0 else 2 ^ 64 - 1
  | .fin x => min ⌊x⌋₊ (2 ^ 64 - 1)

/-- The fields of `AdaBoostV`, `src/booster/adaboostv/adaboostv_algorithm.rs:109-138`. -/
structure AdaBoostVF (H : Type*) where
  tolerance : F64
  rho : F64
  gamma : F64
  dist : List F64
  weights : List F64
  hypotheses : List H
  maxIter : Nat
  forceQuitAt : Option Nat
  terminated : Nat

namespace AdaBoostVF

open F64

variable {H X : Type*}

/-- `AdaBoostV::init`, `src/booster/adaboostv/adaboostv_algorithm.rs:146-165`. -/
noncomputable def init (S : Examples X ℝ) : AdaBoostVF H :=
  { tolerance := div (fin 1) (fin S.length), rho := fin 1, gamma := fin 1, dist := [], weights := [], hypotheses := [], maxIter := 2 ^ 64 - 1,
    forceQuitAt := none, terminated := 2 ^ 64 - 1 }

/-- `AdaBoostV::max_loop`, `src/booster/adaboostv/adaboostv_algorithm.rs:190-194`. -/
noncomputable def maxLoop (L : Libm) (S : Examples X ℝ) (s : AdaBoostVF H) : Nat :=
  asUsize (div (mul (fin 2) (ln L (fin S.length))) (sq s.tolerance))

/-- `AdaBoostV::preprocess`, `src/booster/adaboostv/adaboostv_algorithm.rs:307-331`. -/
noncomputable def preprocess (L : Libm) (S : Examples X ℝ) (s : AdaBoostVF H) : Except Panic (AdaBoostVF H) :=
  match checkBinary S with
  | .error e => .error e
  | .ok () =>
    .ok { s with
      dist := List.replicate S.length (div (fin 1) (fin S.length))
      rho := fin 1
      gamma := fin 1
      weights := []
      hypotheses := []
      maxIter := match s.forceQuitAt with
        | some it => it
        | none => maxLoop L S s }

/-- The vote for the new hypothesis, `e - m`, `src/booster/adaboostv/adaboostv_algorithm.rs:238-243`. -/
noncomputable def vote (L : Libm) (edge rho : F64) : F64 := sub (hypWeight L edge) (hypWeight L rho)

/-- `AdaBoostV::boost` with `update_params`, `src/booster/adaboostv/adaboostv_algorithm.rs:228-277,334-373`: the possible results. -/
def Boost [Classifier H X F64] (L : Libm) (S : Examples X ℝ) (s : AdaBoostVF H) (wl : WeakLearner F64 H) (iteration : Nat)
    (r : Except Panic (BoostOut (AdaBoostVF H) F64)) : Prop :=
  if s.maxIter < iteration then r = .ok { state := s, flow := .brk s.maxIter, queries := [] }
  else
    let h := wl iteration s.dist
    ∃ edge, Inner (F64.margins S h) s.dist edge ∧
      ((Le (fin 1) edge.abs ∧
        r = .ok { state := { s with terminated := iteration, weights := [AdaBoostF.signum edge], hypotheses := [h] },
                  flow := .brk iteration, queries := [s.dist] }) ∨
      (¬ Le (fin 1) edge.abs ∧
        let gamma := minNum edge s.gamma
        let rho := sub gamma s.tolerance
        ∃ d, Reweight L s.dist (F64.margins S h) (vote L edge rho) d ∧
          r = d.map fun dist' => { state := { s with gamma := gamma, rho := rho, dist := dist', weights := s.weights ++ [vote L edge rho]
                                                     hypotheses := s.hypotheses ++ [h] }
                                   flow := .cont, queries := [s.dist] }))

/-- AdaBoostV computed with `f64`; `postprocess` is `src/booster/adaboostv/adaboostv_algorithm.rs:376-384`. -/
noncomputable def booster [Classifier H X F64] (L : Libm) (S : Examples X ℝ) : ParBooster (AdaBoostVF H) F64 H (WeightedMajority F64 H) where
  preprocess s _ := preprocess L S s
  boost := Boost L S
  postprocess s := fromSlices s.weights s.hypotheses

end AdaBoostVF

end Miniboosts
