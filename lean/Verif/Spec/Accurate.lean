import Verif.Spec.Conic
import Verif.Spec.Basic

/-! # Solvers of finite accuracy

An interior-point solver does not return an optimal pair but one that satisfies the optimality conditions up to a
tolerance.  `ε` bounds every residual, in absolute terms. -/

namespace Miniboosts

variable {K : Type*} [Field K] [LinearOrder K]

namespace Program

/-- The data fit together. -/
structure WellFormed (p : Program K) : Prop where
  matrix : p.A.WellFormed
  qlen : p.q.length = p.A.nCols
  psize : p.P.nCols = p.A.nCols
  blen : p.b.length = p.A.nRows
  cones : (isEq p.cones).length = p.A.nRows

/-- The objective of the dual program at `(x, z)`: `-bᵀz - ½ xᵀPx`. -/
def dualObjective (p : Program K) (x z : List K) : K :=
  -((List.range p.A.nRows).map fun i => z.getD i 0 * p.b.getD i 0).sum -
    ((List.range p.P.nCols).map fun j => x.getD j 0 * p.P.tmulVec x j).sum / 2

/-- The answer `s` satisfies the optimality conditions up to `ε`: every equality holds up to `ε`, no inequality is
violated by more than `ε`, no multiplier of an inequality is below `-ε`, no entry of the gradient of the Lagrangian is
above `ε` in absolute value, and the reported value is within `ε` of the primal and of the dual objective. -/
structure Accurate (p : Program K) (ε : K) (s : Solution K) : Prop where
  xlen : s.x.length = p.A.nCols
  zlen : s.z.length = p.A.nRows
  equality : ∀ i, (isEq p.cones)[i]? = some true → |p.slack s.x i| ≤ ε
  inequality : ∀ i, (isEq p.cones)[i]? = some false → -ε ≤ p.slack s.x i
  dual : ∀ i, (isEq p.cones)[i]? = some false → -ε ≤ s.z.getD i 0
  stationary : ∀ j, j < p.A.nCols → |p.P.tmulVec s.x j + p.q.getD j 0 + p.A.tmulVec s.z j| ≤ ε
  value : |s.objVal - p.objective s.x| ≤ ε
  gap : |s.objVal - p.dualObjective s.x s.z| ≤ ε

end Program

/-- A solver of accuracy `ε`: whenever a well-formed program has an optimal primal-dual pair, the answer satisfies the
optimality conditions up to `ε`. -/
def Solver.Accurate (solver : Solver K) (ε : K) : Prop :=
  ∀ (p : Program K) (s : Solution K), p.WellFormed → p.Optimal s → p.Accurate ε (solver p)

/-- The solver answers with vectors of the right lengths; nothing else is assumed. -/
def Solver.Shaped (solver : Solver K) : Prop :=
  ∀ p : Program K, (solver p).x.length = p.A.nCols ∧ (solver p).z.length = p.A.nRows

/-- A probability vector up to `ε`: no entry below `-ε`, and the total within `ε` of 1. -/
def Spec.NearProb (ε : K) (d : List K) : Prop := (∀ p ∈ d, -ε ≤ p) ∧ |d.sum - 1| ≤ ε

end Miniboosts
