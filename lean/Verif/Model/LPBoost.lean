import Verif.Model.Conic
import Verif.Model.Label

/-! # `src/booster/lpboost/lp_model.rs` and `src/booster/lpboost/lpboost_algorithm.rs` -/

namespace Miniboosts

variable {K : Type*} [Field K] [LinearOrder K] {H X : Type*}

/-- `LPModel`, `src/booster/lpboost/lp_model.rs:59-72`.  The three vectors `nonzero`, `col_ptr` and `row_val`
are one buffer. -/
structure LPModel (K : Type*) where
  linObj : List K
  buf : CscBuf K
  nExamples : Nat
  nHypotheses : Nat
  weights : List K
  dist : List K

namespace LPModel

/-- `LPModel::init`, `src/booster/lpboost/lp_model.rs:80-112`. -/
def init (size : Nat) (upperBound : K) : LPModel K :=
  { linObj := (List.replicate (size + 1) (1 / upperBound)).set 0 (-1)
    buf := (List.range size).foldl (fun c r => (c.pushPtr.push r (-1)).push (size + 1 + r) (-1))
      { colPtr := [0], rowIdx := List.range size, nonzero := List.replicate size 1 }
    nExamples := size, nHypotheses := 0, weights := [], dist := [] }

/-- The part of `LPModel::update` that extends the stored columns and the objective,
`src/booster/lpboost/lp_model.rs:125-137, 171`. -/
def addColumn [Classifier H X K] (S : Examples X K) (m : LPModel K) (h : H) : LPModel K :=
  let nHyp := m.nHypotheses + 1
  { m with
    nHypotheses := nHyp
    buf := (((m.buf.pushPtr).pushAll 0 ((margins S h).map fun yh => -yh)).push m.nExamples 1).push
      (2 * m.nExamples + nHyp) (-1)
    linObj := m.linObj ++ [0] }

/-- The arguments of `DefaultSolver::new` in `LPModel::update`, `src/booster/lpboost/lp_model.rs:139-179`. -/
def program (m : LPModel K) : Program K :=
  { P := Csc.zeros (1 + m.nExamples + m.nHypotheses)
    q := m.linObj
    A := m.buf.pushPtr.toCsc (2 * m.nExamples + m.nHypotheses + 1) (m.nExamples + m.nHypotheses + 1)
    b := (List.replicate (2 * m.nExamples + m.nHypotheses + 1) 0).set m.nExamples 1
    cones := [.nonneg m.nExamples, .zero 1, .nonneg m.nExamples, .nonneg m.nHypotheses] }

/-- `LPModel::update`, `src/booster/lpboost/lp_model.rs:118-207`: the new model and the returned value.
The warnings of lines 190-201 only print. -/
def update [Classifier H X K] (solver : Solver K) (S : Examples X K) (m : LPModel K) (h : H) :
    Except Panic (LPModel K × K) :=
  let m := m.addColumn S h
  let sol := solver m.program
  if sol.x.length < 1 + m.nExamples ∨ sol.z.length < m.nExamples then .error .outOfRange
  else .ok ({ m with weights := sol.x.drop (1 + m.nExamples), dist := sol.z.take m.nExamples }, -sol.objVal)

end LPModel

/-- The fields of `LPBoost`, `src/booster/lpboost/lpboost_algorithm.rs:117-149`. -/
structure LPBoost (K H : Type*) where
  dist : List K
  gammaHat : K
  tolerance : K
  nSample : Nat
  nu : K
  lpModel : Option (LPModel K)
  hypotheses : List H
  weights : List K
  terminated : Nat

namespace LPBoost

/-- `LPBoost::init`, `src/booster/lpboost/lpboost_algorithm.rs:158-179`. -/
def init (S : Examples X K) : LPBoost K H :=
  { dist := [], gammaHat := 1, tolerance := 1 / (S.length : K), nSample := S.length, nu := 1, lpModel := none,
    hypotheses := [], weights := [], terminated := 2 ^ 64 - 1 }

/-- `LPBoost::nu`, `src/booster/lpboost/lpboost_algorithm.rs:186-191`. -/
def setNu (s : LPBoost K H) (nu : K) : Except Panic (LPBoost K H) :=
  match checkNu nu s.nSample with
  | .error e => .error e
  | .ok () => .ok { s with nu := nu }

/-- `LPBoost::tolerance`, `src/booster/lpboost/lpboost_algorithm.rs:214-217`. -/
def setTolerance (s : LPBoost K H) (tolerance : K) : LPBoost K H := { s with tolerance := tolerance }

/-- `LPBoost::init_solver`, `src/booster/lpboost/lpboost_algorithm.rs:195-204`. -/
def initSolver (S : Examples X K) (s : LPBoost K H) : Except Panic (LPBoost K H) :=
  if 1 ≤ s.nu ∧ s.nu ≤ (S.length : K) then
    .ok { s with lpModel := some (LPModel.init s.nSample (1 / s.nu)) }
  else .error .assertion

/-- `Booster::preprocess` of LPBoost, `src/booster/lpboost/lpboost_algorithm.rs:272-289`. -/
def preprocess [FloorRing K] (S : Examples X K) (s : LPBoost K H) : Except Panic (LPBoost K H) :=
  match checkBinary S with
  | .error e => .error e
  | .ok () =>
    match initSolver S s with
    | .error e => .error e
    | .ok s' =>
      .ok { s' with nSample := S.length, dist := List.replicate S.length (1 / (s.nSample : K)), gammaHat := 1,
                    hypotheses := [], terminated := 2 ^ 64 - 1 }

/-- `Booster::boost` of LPBoost, `src/booster/lpboost/lpboost_algorithm.rs:292-325`
(`update_distribution_mut`, lines 236-242). -/
def boost [Classifier H X K] (solver : Solver K) (S : Examples X K) (s : LPBoost K H) (wl : WeakLearner K H)
    (iteration : Nat) : Except Panic (BoostOut (LPBoost K H) K) :=
  let h := wl iteration s.dist
  let ghat := edge S s.dist h
  let gammaHat := min ghat s.gammaHat
  match s.lpModel with
  | none => .error .unwrapNone
  | some m =>
    match m.update solver S h with
    | .error e => .error e
    | .ok (m, gammaStar) =>
      let s' := { s with gammaHat := gammaHat, lpModel := some m, hypotheses := s.hypotheses ++ [h] }
      if gammaHat - s.tolerance ≤ gammaStar then
        .ok { state := { s' with terminated := s'.hypotheses.length }, flow := .brk iteration, queries := [s.dist] }
      else
        .ok { state := { s' with dist := m.dist }, flow := .cont, queries := [s.dist] }

/-- `Booster::postprocess` of LPBoost, `src/booster/lpboost/lpboost_algorithm.rs:328-341`.
(`self.weights` is written here and read nowhere else.) -/
def postprocess (s : LPBoost K H) : Except Panic (WeightedMajority K H) :=
  match s.lpModel with
  | none => .error .unwrapNone
  | some m => WeightedMajority.fromSlices m.weights s.hypotheses

/-- `impl Booster for LPBoost`, `src/booster/lpboost/lpboost_algorithm.rs:246-342`. -/
def booster [FloorRing K] [Classifier H X K] (solver : Solver K) (S : Examples X K) :
    Booster (LPBoost K H) K H (WeightedMajority K H) where
  preprocess s _ := preprocess S s
  boost := boost solver S
  postprocess := postprocess

end LPBoost

end Miniboosts
