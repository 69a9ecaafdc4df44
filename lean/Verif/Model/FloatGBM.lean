import Verif.Model.FloatTreeBoost
import Verif.Model.FloatRegTree

/-! # Gradient boosting computed with `f64` -/

namespace Miniboosts

open F64

namespace GBMLoss

open Classical in
/-- The search of `weighted_median`, `src/common/loss_functions.rs:206-213`, in `f64`; running off the end is `unreachable!()`. -/
noncomputable def medianLoopF (half : F64) : List (F64 × F64) → F64 → Except Panic F64
  | [], _ => .error .assertion
  | (w, x) :: rest, partialSum => if Le half (add partialSum w) then .ok x else medianLoopF half rest (add partialSum w)

open Classical in
/-- `weighted_median`, `src/common/loss_functions.rs:190-216`, in `f64`.  The stable sort of two or more items compares every item with another one, and
the comparison with a NaN panics. -/
noncomputable def weightedMedianF (items : List (F64 × F64)) : Except Panic F64 :=
  match items with
  | [] => .error .assertion
  | [p] => .ok p.2
  | _ =>
    if nan ∈ items.map Prod.snd then .error .unwrapNone
    else
      let sorted := items.mergeSort fun a b => decide (Le a.2 b.2)
      let total := (sorted.map Prod.fst).foldl add (fin 0)
      medianLoopF (mul (fin (1 / 2)) total) sorted (fin 0)

open Classical in
/-- `GBMLoss::best_coefficient`, `src/common/loss_functions.rs:159-185`, in `f64`; the targets are finite numbers. -/
noncomputable def bestCoefficientF (loss : GBMLoss) (targets : List ℝ) (predictions : List F64) : Except Panic F64 :=
  match loss with
  | .L1 =>
    weightedMedianF ((List.zip targets predictions).filterMap fun rp => if rp.2 = fin 0 then none else some (rp.2.abs, div (fin rp.1) rp.2))
  | .L2 =>
    let ySum := (targets.map fin).foldl add (fin 0)
    let pSum := predictions.foldl add (fin 0)
    if pSum = fin 0 then .error .assertion else .ok (div ySum pSum)

end GBMLoss

/-- The fields of `GBM`, `src/booster/gradient_boost/gbm.rs:89-119`, without the sample. -/
structure GBMF (H : Type*) where
  tolerance : F64
  weights : List F64
  hypotheses : List H
  loss : GBMLoss
  maxIter : Nat
  terminated : Nat
  predictions : List F64

namespace GBMF

variable {H X : Type*}

/-- `GBM::init_with_loss`, `src/booster/gradient_boost/gbm.rs:128-148`. -/
noncomputable def init (S : Examples X ℝ) (loss : GBMLoss) : GBMF H :=
  { tolerance := fin 0, weights := [], hypotheses := [], loss := loss, maxIter := 100, terminated := 2 ^ 64 - 1,
    predictions := List.replicate S.length (fin 0) }

/-- `GBM::tolerance`, `src/booster/gradient_boost/gbm.rs:165-168`. -/
def setTolerance (s : GBMF H) (t : F64) : GBMF H := { s with tolerance := t }

/-- `GBM::loss`, `src/booster/gradient_boost/gbm.rs:172-175`. -/
def setLoss (s : GBMF H) (l : GBMLoss) : GBMF H := { s with loss := l }

/-- `Booster::preprocess` of GBM, `src/booster/gradient_boost/gbm.rs:204-220`. -/
noncomputable def preprocess (S : Examples X ℝ) (s : GBMF H) : Except Panic (GBMF H) :=
  .ok { s with weights := [], hypotheses := [], terminated := s.maxIter, predictions := List.replicate S.length (fin 0) }

open Classical in
/-- `Booster::boost` of GBM, `src/booster/gradient_boost/gbm.rs:222-260`: the possible results. -/
def Boost [Regressor H X F64] (S : Examples X ℝ) (s : GBMF H) (wl : WeakLearner F64 H) (iteration : Nat) (r : Except Panic (BoostOut (GBMF H) F64)) : Prop :=
  if s.maxIter < iteration then r = .ok { state := s, flow := .brk s.maxIter, queries := [] }
  else
    let h := wl iteration s.predictions
    let predictions := S.map fun e => Regressor.pred h e.1
    match s.loss.bestCoefficientF (S.map Prod.snd) predictions with
    | .error e => r = .error e
    | .ok coef =>
      if coef = fin 0 then
        r = .ok { state := { s with terminated := iteration }, flow := .brk iteration, queries := [s.predictions] }
      else
        ∃ new, ParUpdate (fun p q => add p (mul coef q)) s.predictions predictions new ∧
          r = .ok { state := { s with weights := s.weights ++ [coef], hypotheses := s.hypotheses ++ [h], predictions := new }
                    flow := .cont
                    queries := [s.predictions] }

/-- GBM computed with `f64`; `postprocess` is `src/booster/gradient_boost/gbm.rs:263-271`. -/
noncomputable def booster [Regressor H X F64] (S : Examples X ℝ) : ParBooster (GBMF H) F64 H (WeightedMajority F64 H) where
  preprocess s _ := preprocess S s
  boost := Boost S
  postprocess s := fromSlices s.weights s.hypotheses

end GBMF

/-- `impl Regressor for RegressionTreeRegressor`, `src/weak_learner/regression_tree/regression_tree_regressor.rs:30-34`, in `f64`.
Simplification: a panic is replaced by NaN; the theorems show that it does not occur on the training sample. -/
noncomputable instance floatTreeRegressor : Regressor (TreeNode F64) (Sample ℝ × Nat) F64 where
  pred t x := (FTree.confidence x.1 x.2 t).getD nan

/-- `impl WeakLearner for RegressionTree` (`src/weak_learner/regression_tree/regression_tree_algorithm.rs:184-209`) as GBM sees it: for every call one of
the trees that `produce` may return.  For predictions on which `produce` panics nothing is said. -/
def FReg.IsLearner (t : FReg.Tree) (s : Sample ℝ) (wl : WeakLearner F64 (TreeNode F64)) : Prop :=
  ∀ it d, (∃ tree, FReg.Produce t s d (some tree)) → FReg.Produce t s d (some (wl it d))

end Miniboosts
