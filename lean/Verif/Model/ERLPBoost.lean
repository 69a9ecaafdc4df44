import Verif.Model.Conic
import Verif.Model.Projection

/-! # `src/booster/erlpboost/qp_model.rs` and `src/booster/erlpboost/erlpboost_algorithm.rs` -/

namespace Miniboosts

open Real

variable {H X : Type*}

/-- `self.margins.iter_mut().zip(margins).for_each(|(mvec, yh)| { mvec.push(yh); })`,
`src/booster/erlpboost/qp_model.rs:123-126`, also `src/booster/softboost/qp_model.rs:116-119` and
`src/booster/mlpboost/perturbed_lp_model.rs:108-112`. -/
def pushMargins {K : Type*} (rows : List (List K)) (marg : List K) : List (List K) :=
  updateZip (fun row yh => row ++ [yh]) rows marg

namespace ERLP

/-- `EPS`, `src/booster/erlpboost/qp_model.rs:15`. -/
noncomputable def eps : ℝ := 1 / 10 ^ 100

/-- `QP_TOLERANCE`, `src/booster/erlpboost/qp_model.rs:16`. -/
noncomputable def qpTolerance : ℝ := 1 / 10 ^ 9

/-- `QPModel`, `src/booster/erlpboost/qp_model.rs:78-86`; `rows[i]` (`margins[i]` in the code) lists the margins of example `i`. -/
structure QPModel where
  nExamples : Nat
  nHypotheses : Nat
  rows : List (List ℝ)
  weights : List ℝ
  dist : List ℝ
  capInv : ℝ
  eta : ℝ

namespace QPModel

/-- `QPModel::init`, `src/booster/erlpboost/qp_model.rs:94-110`. -/
noncomputable def init (eta : ℝ) (size : Nat) (upperBound : ℝ) : QPModel :=
  { nExamples := size, nHypotheses := 0, rows := List.replicate size [], weights := [],
    dist := List.replicate size (1 / (size : ℝ)), capInv := upperBound, eta := eta }

/-- The arguments of `DefaultSolver::new`, `src/booster/erlpboost/qp_model.rs:127-150`: the objective is the
second-order expansion around `dist` (`build_linear_part_objective`, lines 183-195;
`build_quadratic_part_objective`, lines 198-213). -/
noncomputable def program (m : QPModel) (dist : List ℝ) : Program ℝ :=
  { P := gammaQuadratic (dist.map fun d => 1 / ((d + eps) * m.eta))
    q := 1 :: dist.map fun d => log (d + eps) / m.eta
    A := gammaConstraintMatrix m.nExamples m.nHypotheses m.rows 1
    b := rhsOf m.nExamples m.nHypotheses m.capInv 0
    cones := senseOf m.nExamples m.nHypotheses }

/-- The `loop` of `QPModel::update`, `src/booster/erlpboost/qp_model.rs:138-179`.  `fuel` bounds the number of
rounds.  The check that the linear part is finite (line 190) is the first test. -/
noncomputable def solveLoop (solver : Solver ℝ) : Nat → QPModel → ℝ → Except Panic QPModel
  | 0, _, _ => .error .diverges
  | fuel + 1, m, oldObjval =>
    if m.dist.any fun d => d + eps ≤ 0 then .error .assertion
    else
      let sol := solver (m.program m.dist)
      if sol.status = .other then .error .assertion
      else if oldObjval - sol.objVal < qpTolerance ∨ sol.status = .insufficientProgress then .ok m
      else if sol.x.length < 1 ∨ sol.z.length < 1 + 2 * m.nExamples then .error .outOfRange
      else
        solveLoop solver fuel
          { m with dist := (sol.x.drop 1).map fun d => max d 0
                   weights := (sol.z.drop (1 + 2 * m.nExamples)).map fun w => max w 0 } sol.objVal

/-- `QPModel::update`, `src/booster/erlpboost/qp_model.rs:115-180`. -/
noncomputable def update [Classifier H X ℝ] (solver : Solver ℝ) (fuel : Nat) (S : Examples X ℝ) (m : QPModel)
    (h : H) : Except Panic QPModel :=
  solveLoop solver fuel
    { m with nHypotheses := m.nHypotheses + 1
             rows := pushMargins m.rows (margins S h)
             dist := m.dist.map fun _ => 1 / (m.nExamples : ℝ) } 1000

end QPModel

end ERLP

/-- The fields of `ERLPBoost`, `src/booster/erlpboost/erlpboost_algorithm.rs:112-143`. -/
structure ERLPBoost (H : Type*) where
  dist : List ℝ
  gammaHat : ℝ
  gammaStar : ℝ
  eta : ℝ
  halfTolerance : ℝ
  qpModel : Option ERLP.QPModel
  hypotheses : List H
  weights : List ℝ
  nSample : Nat
  nu : ℝ
  terminated : Nat
  maxIter : Nat

namespace ERLPBoost

/-- `ERLPBoost::init`, `src/booster/erlpboost/erlpboost_algorithm.rs:150-190`. (`gamma_star` starts at `f64::MIN`,
here at 0; `preprocess` overwrites it before it is read.) -/
noncomputable def init (S : Examples X ℝ) : Except Panic (ERLPBoost H) :=
  if S.length = 0 then .error .assertion
  else .ok { dist := [], gammaHat := 1, gammaStar := 0, eta := max (1 / 2) (log (S.length : ℝ) / (5 / 1000)),
             halfTolerance := 5 / 1000, qpModel := none, hypotheses := [], weights := [], nSample := S.length, nu := 1,
             terminated := 2 ^ 64 - 1, maxIter := 2 ^ 64 - 1 }

/-- `ERLPBoost::regularization_param`, `src/booster/erlpboost/erlpboost_algorithm.rs:242-247`. -/
noncomputable def regularizationParam (s : ERLPBoost H) : ERLPBoost H :=
  { s with eta := max (1 / 2) (log ((s.nSample : ℝ) / s.nu) / s.halfTolerance) }

/-- `ERLPBoost::nu`, `src/booster/erlpboost/erlpboost_algorithm.rs:209-215`. -/
noncomputable def setNu (s : ERLPBoost H) (nu : ℝ) : Except Panic (ERLPBoost H) :=
  if 1 ≤ nu ∧ nu ≤ (s.nSample : ℝ) then .ok (regularizationParam { s with nu := nu }) else .error .assertion

/-- `ERLPBoost::tolerance`, `src/booster/erlpboost/erlpboost_algorithm.rs:232-235`. -/
noncomputable def setTolerance (s : ERLPBoost H) (tolerance : ℝ) : ERLPBoost H :=
  { s with halfTolerance := tolerance / 2 }

/-- `ERLPBoost::max_loop`, `src/booster/erlpboost/erlpboost_algorithm.rs:255-268`. -/
noncomputable def maxLoop (s : ERLPBoost H) : Nat :=
  ⌈max (4 / s.halfTolerance) (8 * log ((s.nSample : ℝ) / s.nu) / s.halfTolerance ^ 2)⌉₊

/-- `ERLPBoost::init_solver`, `src/booster/erlpboost/erlpboost_algorithm.rs:193-203`. -/
noncomputable def initSolver (s : ERLPBoost H) : Except Panic (ERLPBoost H) :=
  match checkNu s.nu s.nSample with
  | .error e => .error e
  | .ok () => .ok { s with qpModel := some (ERLP.QPModel.init s.eta s.nSample (1 / s.nu)) }

/-- `Booster::preprocess` of ERLPBoost, `src/booster/erlpboost/erlpboost_algorithm.rs:358-382`.  With
`half_tolerance = 0` the code goes on with infinities. -/
noncomputable def preprocess (S : Examples X ℝ) (s : ERLPBoost H) : Except Panic (ERLPBoost H) :=
  match checkBinary S with
  | .error e => .error e
  | .ok () =>
    let s := { s with dist := List.replicate S.length (1 / (S.length : ℝ)), maxIter := maxLoop s,
                      terminated := maxLoop s, hypotheses := [], gammaHat := 1, gammaStar := -1 }
    if 0 ≤ s.halfTolerance ∧ s.halfTolerance < 1 then
      if s.halfTolerance = 0 then .error .nonFinite else initSolver (regularizationParam s)
    else .error .assertion

/-- The smoothed objective `edge + entropy / eta` used in `update_gamma_hat_mut`,
`src/booster/erlpboost/erlpboost_algorithm.rs:280-288`. -/
noncomputable def objval [Classifier H X ℝ] (S : Examples X ℝ) (eta : ℝ) (dist : List ℝ) (h : H) : ℝ :=
  edge S dist h + entropyFromUni dist / eta

/-- `update_gamma_star_mut`, `src/booster/erlpboost/erlpboost_algorithm.rs:296-306`. -/
noncomputable def newGammaStar [Classifier H X ℝ] (S : Examples X ℝ) (eta : ℝ) (dist : List ℝ) (hs : List H) :
    Except Panic ℝ :=
  match hs.map fun h => edge S dist h with
  | [] => .error .unwrapNone
  | e :: es => .ok (es.foldl max e + entropyFromUni dist / eta)

/-- `Booster::boost` of ERLPBoost, `src/booster/erlpboost/erlpboost_algorithm.rs:385-425`
(`update_distribution_mut`, lines 317-328). -/
noncomputable def boost [Classifier H X ℝ] (solver : Solver ℝ) (fuel : Nat) (S : Examples X ℝ) (s : ERLPBoost H)
    (wl : WeakLearner ℝ H) (iteration : Nat) : Except Panic (BoostOut (ERLPBoost H) ℝ) :=
  if s.maxIter < iteration then .ok { state := s, flow := .brk s.maxIter, queries := [] }
  else
    let h := wl iteration s.dist
    let gammaHat := min s.gammaHat (objval S s.eta s.dist h)
    if gammaHat - s.gammaStar ≤ s.halfTolerance then
      .ok { state := { s with gammaHat := gammaHat, terminated := iteration }, flow := .brk iteration,
            queries := [s.dist] }
    else
      match s.qpModel with
      | none => .error .unwrapNone
      | some m =>
        match m.update solver fuel S h with
        | .error e => .error e
        | .ok m =>
          match newGammaStar S s.eta m.dist (s.hypotheses ++ [h]) with
          | .error e => .error e
          | .ok g =>
            .ok { state := { s with gammaHat := gammaHat, qpModel := some m, dist := m.dist,
                                    hypotheses := s.hypotheses ++ [h], gammaStar := g }
                  flow := .cont, queries := [s.dist] }

/-- `Booster::postprocess` and `current_hypothesis` of ERLPBoost,
`src/booster/erlpboost/erlpboost_algorithm.rs:428-441, 448-456`. -/
noncomputable def postprocess (s : ERLPBoost H) : Except Panic (WeightedMajority ℝ H) :=
  match s.qpModel with
  | none => .error .unwrapNone
  | some m => WeightedMajority.fromSlices m.weights s.hypotheses

/-- `impl Booster for ERLPBoost`, `src/booster/erlpboost/erlpboost_algorithm.rs:332-442`. -/
noncomputable def booster [Classifier H X ℝ] (solver : Solver ℝ) (fuel : Nat) (S : Examples X ℝ) :
    Booster (ERLPBoost H) ℝ H (WeightedMajority ℝ H) where
  preprocess s _ := preprocess S s
  boost := boost solver fuel S
  postprocess := postprocess

end ERLPBoost

end Miniboosts
