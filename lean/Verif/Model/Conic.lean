import Verif.Model.Utils

/-! # Sparse matrices and the programs handed to the solver

The crate hands linear and quadratic programs to the external solver `clarabel`.  The solver itself is not
modelled: it is a parameter of the models, an arbitrary function from programs to solutions.  What is modelled
is the data the crate assembles for it. -/

namespace Miniboosts

variable {K : Type*}

/-- `clarabel::algebra::CscMatrix`, as constructed by `CscMatrix::new(n_rows, n_cols, col_ptr, row_val, nonzero)`,
e.g. `src/booster/lpboost/lp_model.rs:147-153`. -/
structure Csc (K : Type*) where
  nRows : Nat
  nCols : Nat
  colPtr : List Nat
  rowIdx : List Nat
  nonzero : List K

/-- `clarabel::solver::SupportedConeT`, the two kinds used in the crate. -/
inductive Cone where
  | zero (n : Nat)
  | nonneg (n : Nat)
  deriving DecidableEq, Repr

/-- The arguments of `DefaultSolver::new`: minimise `½ xᵀPx + qᵀx` subject to `Ax + s = b`, `s` in the cones. -/
structure Program (K : Type*) where
  P : Csc K
  q : List K
  A : Csc K
  b : List K
  cones : List Cone

/-- `SolverStatus`, as far as it is distinguished (`src/booster/erlpboost/qp_model.rs:152-165`). -/
inductive SolverStatus where
  | solved
  | almostSolved
  | insufficientProgress
  | other
  deriving DecidableEq, Repr

/-- The fields of `solver.solution` that are read. -/
structure Solution (K : Type*) where
  x : List K
  z : List K
  objVal : K
  status : SolverStatus

/-- The solver: any function. -/
abbrev Solver (K : Type*) := Program K → Solution K

/-- `CscMatrix::zeros`. -/
def Csc.zeros (n : Nat) : Csc K :=
  { nRows := n, nCols := n, colPtr := List.replicate (n + 1) 0, rowIdx := [], nonzero := [] }

/-- The three vectors a matrix is collected in. -/
structure CscBuf (K : Type*) where
  colPtr : List Nat
  rowIdx : List Nat
  nonzero : List K

namespace CscBuf

/-- `col_ptr.push(row_val.len())`. -/
def pushPtr (c : CscBuf K) : CscBuf K := { c with colPtr := c.colPtr ++ [c.rowIdx.length] }

/-- `row_val.push(r); nonzero.push(v)`. -/
def push (c : CscBuf K) (r : Nat) (v : K) : CscBuf K :=
  { c with rowIdx := c.rowIdx ++ [r], nonzero := c.nonzero ++ [v] }

/-- `for (i, v) in (start..).zip(vs) { row_val.push(i); nonzero.push(v); }`. -/
def pushAll (c : CscBuf K) (start : Nat) : List K → CscBuf K
  | [] => c
  | v :: vs => pushAll (c.push start v) (start + 1) vs

/-- `CscMatrix::new`. -/
def toCsc (c : CscBuf K) (nRows nCols : Nat) : Csc K :=
  { nRows := nRows, nCols := nCols, colPtr := c.colPtr, rowIdx := c.rowIdx, nonzero := c.nonzero }

end CscBuf

section qp

variable [Field K]

/-- The constraint matrix of ERLPBoost (`src/booster/erlpboost/qp_model.rs:217-261`), of the final program of
SoftBoost (`src/booster/softboost/qp_model.rs:260-304`) and of the perturbed program of MLPBoost
(`src/booster/mlpboost/perturbed_lp_model.rs:156-200`).  The three functions are the same text except for the
coefficient `capCoef` of the capping rows, which is 1 in the first two and `cap_inv = 1/ν` in the third. -/
def gammaConstraintMatrix (nExamples nHypotheses : Nat) (marg : List (List K)) (capCoef : K) : Csc K :=
  let nRows := 1 + 2 * nExamples + nHypotheses
  let gam := 1 + 2 * nExamples
  let buf : CscBuf K := { colPtr := [0], rowIdx := [], nonzero := [] }
  let buf := buf.pushAll gam (List.replicate (nRows - gam) (-1))
  let buf := (marg.zipIdx 1).foldl (fun buf p =>
    ((((buf.pushPtr).push 0 1).push p.2 (-1)).push (nExamples + p.2) capCoef).pushAll gam p.1) buf
  buf.pushPtr.toCsc nRows (1 + nExamples)

/-- `build_constraint_matrix` of SoftBoost, `src/booster/softboost/qp_model.rs:216-256`; note the coefficient
`cap_inv` in the capping rows. -/
def distConstraintMatrix (nExamples nHypotheses : Nat) (marg : List (List K)) (capInv : K) : Csc K :=
  let nRows := 1 + 2 * nExamples + nHypotheses
  let gam := 1 + 2 * nExamples
  let buf : CscBuf K := { colPtr := [], rowIdx := [], nonzero := [] }
  let buf := (marg.zipIdx 0).foldl (fun buf p =>
    ((((buf.pushPtr).push 0 1).push (p.2 + 1) (-1)).push (nExamples + p.2 + 1) capInv).pushAll gam p.1) buf
  buf.pushPtr.toCsc nRows nExamples

/-- `build_quadratic_part_objective` of ERLPBoost, `src/booster/erlpboost/qp_model.rs:198-213`: a diagonal matrix whose
first column (that of `γ`) is empty; `quad` lists the other diagonal entries. -/
def gammaQuadratic (quad : List K) : Csc K :=
  { nRows := quad.length + 1, nCols := quad.length + 1, colPtr := 0 :: List.range (quad.length + 1),
    rowIdx := List.range' 1 quad.length, nonzero := quad }

/-- `build_quadratic_part_objective` of SoftBoost, `src/booster/softboost/qp_model.rs:188-212`, with the diagonal
entries `quad` (one for each entry of `dist`). -/
def distQuadratic (nExamples : Nat) (quad : List K) : Csc K :=
  { nRows := nExamples, nCols := nExamples, colPtr := List.range quad.length ++ [quad.length],
    rowIdx := List.range quad.length, nonzero := quad }

/-- `build_sense`, `src/booster/erlpboost/qp_model.rs:264-270`, `src/booster/softboost/qp_model.rs:307-313`,
`src/booster/mlpboost/perturbed_lp_model.rs:203-209`. -/
def senseOf (nExamples nHypotheses : Nat) : List Cone :=
  [.zero 1, .nonneg (2 * nExamples + nHypotheses)]

/-- `build_rhs`, `src/booster/softboost/qp_model.rs:323-331`; with `ghat = 0` it is `build_rhs` of ERLPBoost
(`src/booster/erlpboost/qp_model.rs:274-282`), of MLPBoost (`perturbed_lp_model.rs:213-221`) and `build_rhs_lp`
of SoftBoost (`src/booster/softboost/qp_model.rs:335-343`). -/
def rhsOf (nExamples nHypotheses : Nat) (capInv ghat : K) : List K :=
  [1] ++ List.replicate nExamples 0 ++ List.replicate nExamples capInv ++ List.replicate nHypotheses ghat

end qp

end Miniboosts
