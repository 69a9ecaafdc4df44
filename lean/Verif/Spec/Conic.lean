import Verif.Model.Conic

/-! # What a sparse matrix denotes and what a solution of a conic program is

This is the documented semantics of `clarabel`: the compressed-sparse-column format, and the problem
`minimise ½ xᵀPx + qᵀx  subject to  Ax + s = b, s ∈ K` with dual variable `z`. -/

namespace Miniboosts

variable {K : Type*} [Field K] [LinearOrder K]

/-- The entries `(row, value)` of column `j`. -/
def Csc.col (A : Csc K) (j : Nat) : List (Nat × K) :=
  ((List.zip A.rowIdx A.nonzero).drop (A.colPtr.getD j 0)).take
    (A.colPtr.getD (j + 1) 0 - A.colPtr.getD j 0)

/-- Row `i` of `A x`. -/
def Csc.mulVec (A : Csc K) (x : List K) (i : Nat) : K :=
  ((List.range A.nCols).map fun j =>
    ((A.col j).map fun e => if e.1 = i then e.2 * x.getD j 0 else 0).sum).sum

/-- Entry `j` of `Aᵀ z`. -/
def Csc.tmulVec (A : Csc K) (z : List K) (j : Nat) : K :=
  ((A.col j).map fun e => e.2 * z.getD e.1 0).sum

/-- The format conditions checked by `CscMatrix::new` and `check_format`: one column pointer more than
columns, starting at 0, ending at the number of entries, never decreasing; as many row indices as values; the
rows of a column strictly increasing and in range. -/
structure Csc.WellFormed (A : Csc K) : Prop where
  ptrLen : A.colPtr.length = A.nCols + 1
  same : A.rowIdx.length = A.nonzero.length
  first : A.colPtr[0]? = some 0
  last : A.colPtr[A.nCols]? = some A.rowIdx.length
  mono : ∀ j, j < A.nCols → A.colPtr.getD j 0 ≤ A.colPtr.getD (j + 1) 0
  rows : ∀ j, j < A.nCols → ((A.col j).map Prod.fst).Pairwise (· < ·) ∧ ∀ e ∈ A.col j, e.1 < A.nRows

namespace Program

/-- For every row: `true` for an equality, `false` for an inequality. -/
def isEq (cones : List Cone) : List Bool :=
  cones.flatMap fun
    | .zero n => List.replicate n true
    | .nonneg n => List.replicate n false

/-- The slack `b - A x` of row `i`. -/
def slack (p : Program K) (x : List K) (i : Nat) : K := p.b.getD i 0 - p.A.mulVec x i

/-- `x` satisfies all constraints. -/
def Feasible (p : Program K) (x : List K) : Prop :=
  x.length = p.A.nCols ∧ ∀ i e, (isEq p.cones)[i]? = some e →
    (e = true → p.slack x i = 0) ∧ (e = false → 0 ≤ p.slack x i)

/-- The objective `½ xᵀPx + qᵀx`. -/
def objective (p : Program K) (x : List K) : K :=
  (List.zipWith (fun a b => a * b) p.q x).sum +
    ((List.range p.P.nCols).map fun j => x.getD j 0 * p.P.tmulVec x j).sum / 2

/-- The pair `(x, z)` satisfies the optimality conditions: `x` is feasible, `z` is non-negative on
inequality rows, the Lagrangian is stationary, and `z` is orthogonal to the slack; the reported value is the
objective at `x`. -/
structure Optimal (p : Program K) (s : Solution K) : Prop where
  feasible : p.Feasible s.x
  zlen : s.z.length = p.A.nRows
  dual : ∀ i, (isEq p.cones)[i]? = some false → 0 ≤ s.z.getD i 0
  stationary : ∀ j, j < p.A.nCols → p.P.tmulVec s.x j + p.q.getD j 0 + p.A.tmulVec s.z j = 0
  compl : ((List.range p.A.nRows).map fun i => s.z.getD i 0 * p.slack s.x i).sum = 0
  value : s.objVal = p.objective s.x

end Program

/-- A solver that does its job: whenever a program has an optimal primal-dual pair, the answer is one. -/
def Solver.Correct (solver : Solver K) : Prop :=
  ∀ (p : Program K) (s : Solution K), p.Optimal s → p.Optimal (solver p)

/-- The solver reports success whenever there is something to find. -/
def Solver.Reports (solver : Solver K) : Prop :=
  ∀ (p : Program K) (s : Solution K), p.Optimal s →
    (solver p).status = .solved ∨ (solver p).status = .almostSolved

/-- The solver does not return a positive vector when there is nothing to find. (`clarabel` fills the solution of an
infeasible program with NaN, which is not positive; in the model an entry that is not positive.) -/
def Solver.Signals (solver : Solver K) : Prop :=
  ∀ p : Program K, (∀ s, ¬ p.Optimal s) → ∃ q ∈ (solver p).x, q ≤ 0

end Miniboosts
