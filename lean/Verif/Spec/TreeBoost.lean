import Verif.Spec.Tree
import Mathlib.Analysis.SpecialFunctions.Log.Basic

/-! # Specification vocabulary for boosting decision trees -/

namespace Miniboosts.Spec

variable {K : Type*} [Field K] [LinearOrder K]

/-- The decision stump of a column and a threshold. -/
def stump (f : Feature K) (th : K) (i : Nat) : K := if f.val i < th then -1 else 1

/-- `th` is a boundary of a bin of the column `f`. -/
def IsBoundary (binsMap : List (String × List (Bin K))) (f : Feature K) (th : K) : Prop :=
  ∃ bins, HMap.get? binsMap f.name = some bins ∧ ∃ b ∈ bins, th = b.start ∨ th = b.stop

/-- Some weighted vote of decision stumps at bin boundaries, with weights of total absolute value at most one, has
margin at least `θ` on every row. -/
def StumpMargin (s : Sample K) (binsMap : List (String × List (Bin K))) (θ : K) : Prop :=
  ∃ v : List (K × Feature K × K), (∀ p ∈ v, p.2.1 ∈ s.features ∧ IsBoundary binsMap p.2.1 p.2.2) ∧
    (v.map (fun p => |p.1|)).sum ≤ 1 ∧
    ∀ i < s.nSample, θ ≤ s.target.getD i 0 * (v.map (fun p => p.1 * stump p.2.1 p.2.2 i)).sum

/-- The share of the squared stump edge a tree is guaranteed to reach. -/
noncomputable def treeFactor : Criterion → ℝ
  | .entropy => 1 / 2
  | .gini => 1
  | .edge => 1
  | .twoing => 1

end Miniboosts.Spec
