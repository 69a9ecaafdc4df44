import Verif.Model.ERLPBoost

/-! # `src/booster/softboost/qp_model.rs`, `src/booster/softboost/softboost_algorithm.rs` and
`src/booster/totalboost/totalboost_algorithm.rs` -/

namespace Miniboosts

open Real

variable {H X : Type*}

namespace SoftQP

/-- `QP_TOLERANCE`, `src/booster/softboost/qp_model.rs:15`. -/
noncomputable def qpTolerance : ℝ := 1 / 10 ^ 9

/-- `QPModel`, `src/booster/softboost/qp_model.rs:78-83`; `rows[i]` (`margins[i]` in the code) lists the margins of
example `i`. -/
structure QPModel where
  nExamples : Nat
  nHypotheses : Nat
  rows : List (List ℝ)
  capInv : ℝ

namespace QPModel

/-- `QPModel::init`, `src/booster/softboost/qp_model.rs:91-99`. -/
def init (size : Nat) (upperBound : ℝ) : QPModel :=
  { nExamples := size, nHypotheses := 0, rows := List.replicate size [], capInv := upperBound }

/-- The arguments of `DefaultSolver::new` in `QPModel::update`, `src/booster/softboost/qp_model.rs:120-140`
(`build_linear_part_objective`, lines 169-176; `build_quadratic_part_objective`, lines 188-212). -/
noncomputable def program (m : QPModel) (ghat : ℝ) (dist : List ℝ) : Program ℝ :=
  { P := distQuadratic m.nExamples (dist.map fun d => 1 / d)
    q := dist.map fun d => log d
    A := distConstraintMatrix m.nExamples m.nHypotheses m.rows m.capInv
    b := rhsOf m.nExamples m.nHypotheses m.capInv ghat
    cones := senseOf m.nExamples m.nHypotheses }

/-- The `loop` of `QPModel::update`, `src/booster/softboost/qp_model.rs:126-157`: the distribution left in `dist`
and whether `Some(())` is returned.  `fuel` bounds the number of rounds.  The logarithm of a non-positive number is
not finite. -/
noncomputable def solveLoop (solver : Solver ℝ) (m : QPModel) (ghat : ℝ) :
    Nat → List ℝ → ℝ → Except Panic (List ℝ × Bool)
  | 0, _, _ => .error .diverges
  | fuel + 1, dist, oldObjval =>
    if dist.any fun d => d ≤ 0 then .error .nonFinite
    else
      let sol := solver (m.program ghat dist)
      if ¬ sol.x.all fun d => 0 < d then .ok (dist, false)
      else
        let dist := updateZip (fun _ s => s) dist sol.x
        if oldObjval - sol.objVal < qpTolerance then .ok (dist, true)
        else solveLoop solver m ghat fuel dist sol.objVal

/-- The part of `QPModel::update` before the loop, `src/booster/softboost/qp_model.rs:115-119`. -/
noncomputable def addColumn [Classifier H X ℝ] (S : Examples X ℝ) (m : QPModel) (h : H) : QPModel :=
  { m with nHypotheses := m.nHypotheses + 1, rows := pushMargins m.rows (margins S h) }

/-- `QPModel::update`, `src/booster/softboost/qp_model.rs:105-158`. -/
noncomputable def update [Classifier H X ℝ] (solver : Solver ℝ) (fuel : Nat) (S : Examples X ℝ) (m : QPModel)
    (dist : List ℝ) (ghat : ℝ) (h : H) : Except Panic (QPModel × List ℝ × Bool) :=
  let m := m.addColumn S h
  match solveLoop solver m ghat fuel dist (10 ^ 9) with
  | .error e => .error e
  | .ok (dist, b) => .ok (m, dist, b)

/-- The arguments of `DefaultSolver::new` in `QPModel::weights`, `src/booster/softboost/qp_model.rs:354-374`. -/
noncomputable def lpProgram (m : QPModel) : Program ℝ :=
  { P := Csc.zeros (m.nExamples + 1)
    q := (List.replicate (1 + m.nExamples) 0).set 0 1
    A := gammaConstraintMatrix m.nExamples m.nHypotheses m.rows 1
    b := rhsOf m.nExamples m.nHypotheses m.capInv 0
    cones := senseOf m.nExamples m.nHypotheses }

/-- `QPModel::weights`, `src/booster/softboost/qp_model.rs:347-379`. -/
noncomputable def weights (solver : Solver ℝ) (m : QPModel) : Except Panic (List ℝ) :=
  let sol := solver m.lpProgram
  if sol.z.length < 1 + 2 * m.nExamples then .error .outOfRange else .ok (sol.z.drop (1 + 2 * m.nExamples))

end QPModel

end SoftQP

/-- The fields of `SoftBoost`, `src/booster/softboost/softboost_algorithm.rs:116-137`. -/
structure SoftBoost (H : Type*) where
  dist : List ℝ
  gammaHat : ℝ
  tolerance : ℝ
  subTolerance : ℝ
  nu : ℝ
  qpModel : Option SoftQP.QPModel
  hypotheses : List H
  maxIter : Nat
  terminated : Nat
  weights : List ℝ

namespace SoftBoost

/-- `SoftBoost::init`, `src/booster/softboost/softboost_algorithm.rs:145-175`. -/
noncomputable def init (S : Examples X ℝ) : Except Panic (SoftBoost H) :=
  if S.length = 0 then .error .assertion
  else .ok { dist := List.replicate S.length (1 / (S.length : ℝ)), gammaHat := 1, tolerance := 1 / (S.length : ℝ),
             subTolerance := 1 / 10 ^ 6, nu := 1, qpModel := none, hypotheses := [], weights := [],
             maxIter := 2 ^ 64 - 1, terminated := 2 ^ 64 - 1 }

/-- `SoftBoost::nu`, `src/booster/softboost/softboost_algorithm.rs:182-188`. -/
noncomputable def setNu (S : Examples X ℝ) (s : SoftBoost H) (nu : ℝ) : Except Panic (SoftBoost H) :=
  if 1 ≤ nu ∧ nu ≤ (S.length : ℝ) then .ok { s with nu := nu } else .error .assertion

/-- `SoftBoost::tolerance`, `src/booster/softboost/softboost_algorithm.rs:195-198`. -/
def setTolerance (s : SoftBoost H) (tolerance : ℝ) : SoftBoost H := { s with tolerance := tolerance }

/-- `SoftBoost::max_loop`, `src/booster/softboost/softboost_algorithm.rs:217-225`. -/
noncomputable def maxLoop (S : Examples X ℝ) (s : SoftBoost H) : Nat :=
  ⌈2 * log ((S.length : ℝ) / s.nu) / s.tolerance ^ 2⌉₊

/-- `SoftBoost::init_solver`, `src/booster/softboost/softboost_algorithm.rs:201-209`. -/
noncomputable def initSolver (S : Examples X ℝ) (s : SoftBoost H) : Except Panic (SoftBoost H) :=
  match checkNu s.nu S.length with
  | .error e => .error e
  | .ok () => .ok { s with qpModel := some (SoftQP.QPModel.init S.length (1 / s.nu)) }

/-- `Booster::preprocess` of SoftBoost, `src/booster/softboost/softboost_algorithm.rs:287-308`.  With a zero
tolerance the code goes on with an infinity or NaN. -/
noncomputable def preprocess (S : Examples X ℝ) (s : SoftBoost H) : Except Panic (SoftBoost H) :=
  match checkBinary S with
  | .error e => .error e
  | .ok () =>
    if s.tolerance = 0 then .error .nonFinite
    else
      initSolver S
        { s with dist := List.replicate S.length (1 / (S.length : ℝ)), subTolerance := s.tolerance / 10,
                 maxIter := maxLoop S s, terminated := maxLoop S s, hypotheses := [], gammaHat := 1 }

/-- `Booster::boost` of SoftBoost, `src/booster/softboost/softboost_algorithm.rs:311-344`
(`update_params_mut`, lines 250-256). -/
noncomputable def boost [Classifier H X ℝ] (solver : Solver ℝ) (fuel : Nat) (S : Examples X ℝ) (s : SoftBoost H)
    (wl : WeakLearner ℝ H) (iteration : Nat) : Except Panic (BoostOut (SoftBoost H) ℝ) :=
  if s.maxIter < iteration then .ok { state := s, flow := .brk s.maxIter, queries := [] }
  else
    let h := wl iteration s.dist
    let e := edge S s.dist h
    let gammaHat := if e < s.gammaHat then e else s.gammaHat
    match s.qpModel with
    | none => .error .unwrapNone
    | some m =>
      match m.update solver fuel S s.dist gammaHat h with
      | .error e => .error e
      | .ok (m, dist, some?) =>
        let s' := { s with gammaHat := gammaHat, hypotheses := s.hypotheses ++ [h], qpModel := some m, dist := dist }
        if some? then .ok { state := s', flow := .cont, queries := [s.dist] }
        else .ok { state := { s' with terminated := iteration }, flow := .brk iteration, queries := [s.dist] }

/-- `Booster::postprocess` and `current_hypothesis` of SoftBoost,
`src/booster/softboost/softboost_algorithm.rs:347-358, 368-372` (`set_weights`, lines 234-245). -/
noncomputable def postprocess (solver : Solver ℝ) (s : SoftBoost H) : Except Panic (WeightedMajority ℝ H) :=
  match s.qpModel with
  | none => .error .unwrapNone
  | some m =>
    match m.weights solver with
    | .error e => .error e
    | .ok w => WeightedMajority.fromSlices w s.hypotheses

/-- `impl Booster for SoftBoost`, `src/booster/softboost/softboost_algorithm.rs:260-359`. -/
noncomputable def booster [Classifier H X ℝ] (solver : Solver ℝ) (fuel : Nat) (S : Examples X ℝ) :
    Booster (SoftBoost H) ℝ H (WeightedMajority ℝ H) where
  preprocess s _ := preprocess S s
  boost := boost solver fuel S
  postprocess := postprocess solver

end SoftBoost

/-- `TotalBoost`, `src/booster/totalboost/totalboost_algorithm.rs:109-111`. -/
structure TotalBoost (H : Type*) where
  softboost : SoftBoost H

namespace TotalBoost

/-- `TotalBoost::init`, `src/booster/totalboost/totalboost_algorithm.rs:120-125`. -/
noncomputable def init (S : Examples X ℝ) : Except Panic (TotalBoost H) :=
  match SoftBoost.init S with
  | .error e => .error e
  | .ok s =>
    match SoftBoost.setNu S s 1 with
    | .error e => .error e
    | .ok s => .ok ⟨s⟩

/-- `TotalBoost::tolerance`, `src/booster/totalboost/totalboost_algorithm.rs:131-134`. -/
def setTolerance (s : TotalBoost H) (tol : ℝ) : TotalBoost H := ⟨s.softboost.setTolerance tol⟩

/-- `impl Booster for TotalBoost`, `src/booster/totalboost/totalboost_algorithm.rs:138-183`: everything is
delegated. -/
noncomputable def booster [Classifier H X ℝ] (solver : Solver ℝ) (fuel : Nat) (S : Examples X ℝ) :
    Booster (TotalBoost H) ℝ H (WeightedMajority ℝ H) where
  preprocess s wl := ((SoftBoost.booster solver fuel S).preprocess s.softboost wl).map TotalBoost.mk
  boost s wl iteration := ((SoftBoost.booster solver fuel S).boost s.softboost wl iteration).map fun o =>
    { state := ⟨o.state⟩, flow := o.flow, queries := o.queries }
  postprocess s := (SoftBoost.booster solver fuel S).postprocess s.softboost

end TotalBoost

end Miniboosts
