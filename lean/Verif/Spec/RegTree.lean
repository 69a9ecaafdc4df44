import Verif.Model.RegressionTree
import Verif.Spec.Tree

/-! # Specification vocabulary for regression trees -/

namespace Miniboosts.Spec

variable {K : Type*} [Field K] [LinearOrder K]

/-- The second-order objective of giving the value `v` to all of the rows: `∑ (gᵢ v + hᵢ v² / 2) + lam v² / 2`. -/
def leafObjective (lam : K) (g h : List K) (rows : List Nat) (v : K) : K :=
  (rows.map (fun i => g.getD i 0 * v + h.getD i 0 * v ^ 2 / 2)).sum + lam * v ^ 2 / 2

/-- The sum of the squared leaf values. -/
def leafSquares : TreeNode K → K
  | .leaf v => v ^ 2
  | .branch _ left right => leafSquares left + leafSquares right

/-- The second-order objective of a tree that gives the values `f`. -/
def treeObjective (lam : K) (g h : List K) (rows : List Nat) (f : Nat → K) (tree : TreeNode K) : K :=
  (rows.map (fun i => g.getD i 0 * f i + h.getD i 0 * f i ^ 2 / 2)).sum + lam * leafSquares tree / 2

/-- The gain of splitting the rows on the named column at `t`: `G²/(H + lam)` of the rows below plus that of the others. -/
def gain (lam : K) (g h : List K) (s : Sample K) (rows : List Nat) (name : String) (t : K) : K :=
  weightOf g (rows.filter (fun i => cell s name i < t)) ^ 2 / (weightOf h (rows.filter (fun i => cell s name i < t)) + lam)
    + weightOf g (rows.filter (fun i => ¬ cell s name i < t)) ^ 2 / (weightOf h (rows.filter (fun i => ¬ cell s name i < t)) + lam)

/-- No bin boundary of any column has a larger gain. -/
def MaxGain (lam : K) (g h : List K) (binsMap : List (String × List (Bin K))) (s : Sample K) (rows : List Nat) (name : String) (t : K) : Prop :=
  ∀ c ∈ s.features, ∀ bins, HMap.get? binsMap c.name = some bins → ∀ b ∈ bins, ∀ t', t' = b.start ∨ t' = b.stop →
    gain lam g h s rows c.name t' ≤ gain lam g h s rows name t

/-- The threshold divides the rows as some bin boundary of the column does. -/
def AtBoundary (binsMap : List (String × List (Bin K))) (s : Sample K) (rows : List Nat) (name : String) (t : K) : Prop :=
  ∃ bins b t', HMap.get? binsMap name = some bins ∧ b ∈ bins ∧ (t' = b.start ∨ t' = b.stop) ∧
    ∀ i ∈ rows, (cell s name i < t ↔ cell s name i < t')

/-- Every test of the tree is at a boundary and has maximal gain on the rows that reach it. -/
def TestsBest (lam : K) (g h : List K) (binsMap : List (String × List (Bin K))) (s : Sample K) : List Nat → TreeNode K → Prop
  | _, .leaf _ => True
  | rows, .branch rule left right =>
    AtBoundary binsMap s rows rule.feature rule.threshold ∧ MaxGain lam g h binsMap s rows rule.feature rule.threshold ∧
    TestsBest lam g h binsMap s (rows.filter (fun i => cell s rule.feature i < rule.threshold)) left ∧
    TestsBest lam g h binsMap s (rows.filter (fun i => ¬ cell s rule.feature i < rule.threshold)) right

/-- What training a regression tree needs: ordered extremes around zero, a well-formed sample with the number of rows the
learner was built for and at least one column, bins that tile the whole range for every column, and values inside the
range. -/
structure RegOk (env : TreeEnv K) (t : RegressionTree K) (s : Sample K) : Prop where
  ext : env.fmin < 0 ∧ 0 < env.fmax
  sample : SampleOk s
  size : t.nSample = s.nSample
  columns : s.features ≠ []
  bins : ∀ f ∈ s.features, ∃ bins, HMap.get? t.bins f.name = some bins ∧ Tiles env.fmin bins env.fmax
  values : ∀ f ∈ s.features, ∀ i < s.nSample, env.fmin ≤ f.val i ∧ f.val i < env.fmax

/-- The loss returns the given derivatives, one entry per row. -/
def Derivs (t : RegressionTree K) (s : Sample K) (predictions g h : List K) : Prop :=
  t.loss.gradient predictions s.target = .ok g ∧ t.loss.hessian predictions s.target = .ok h ∧
  g.length = s.nSample ∧ h.length = s.nSample

end Miniboosts.Spec
