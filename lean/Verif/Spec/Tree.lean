import Verif.Model.DecisionTree
import Verif.Spec.Sample
import Mathlib.Algebra.BigOperators.Group.Finset.Basic

/-! # Specification vocabulary for trees -/

namespace Miniboosts.Spec

variable {K : Type*} [Field K] [LinearOrder K]

/-- The bins tile the half-open interval from `a` to `z`: each starts where the previous one stops, none is
empty. -/
def Tiles : K → List (Bin K) → K → Prop
  | a, [], z => a = z
  | a, b :: l, z => b.start = a ∧ a < b.stop ∧ Tiles b.stop l z

/-- A row seen through one feature: value, label, weight. -/
structure Row (K : Type*) where
  x : K
  lab : Int
  w : K

/-- The weight of the rows with label `y` whose value is below the threshold. -/
def below (rows : List (Row K)) (t : K) (y : Int) : K :=
  (rows.map (fun r => if r.x < t ∧ r.lab = y then r.w else 0)).sum

/-- The weight of the rows with label `y` whose value is not below the threshold. -/
def above (rows : List (Row K)) (t : K) (y : Int) : K :=
  (rows.map (fun r => if t ≤ r.x ∧ r.lab = y then r.w else 0)).sum

/-- The labels that occur. -/
def labels (rows : List (Row K)) : Finset Int := (rows.map Row.lab).toFinset

/-- Entropy of label weights (zero without weight); the convention `0 ln 0 = 0`. -/
def entropyOf (ln : K → K) (Y : Finset Int) (w : Int → K) : K :=
  if ∑ y ∈ Y, w y ≤ 0 then 0
  else ∑ y ∈ Y, if w y / (∑ z ∈ Y, w z) ≤ 0 then 0 else -(w y / ∑ z ∈ Y, w z) * ln (w y / ∑ z ∈ Y, w z)

/-- Gini index of label weights. -/
def giniOf (Y : Finset Int) (w : Int → K) : K :=
  if ∑ y ∈ Y, w y ≤ 0 then 0 else 1 - ∑ y ∈ Y, (w y / ∑ z ∈ Y, w z) ^ 2

/-- The value of splitting the rows at `t` under the criterion, computed from the rows: the two weighted
impurities for entropy and Gini, the absolute edge of the best of the two stumps `±sign(x < t)` for edge, and
Breiman's twoing value for twoing. -/
def splitValue (ln : K → K) (rows : List (Row K)) (t : K) : Criterion → K
  | .entropy =>
    (∑ y ∈ labels rows, below rows t y) * entropyOf ln (labels rows) (below rows t)
      + (∑ y ∈ labels rows, above rows t y) * entropyOf ln (labels rows) (above rows t)
  | .gini =>
    (∑ y ∈ labels rows, below rows t y) * giniOf (labels rows) (below rows t)
      + (∑ y ∈ labels rows, above rows t y) * giniOf (labels rows) (above rows t)
  | .edge => |(rows.map (fun r => (if r.x < t then -1 else 1) * ((r.lab : K) * r.w))).sum|
  | .twoing =>
    let pl := ∑ y ∈ labels rows, below rows t y
    let pr := ∑ y ∈ labels rows, above rows t y
    if pl = 0 ∨ pr = 0 then 0
    else (∑ y ∈ labels rows, |below rows t y / pl - above rows t y / pr|) ^ 2 * pl * pr / (2 * (pl + pr)) ^ 2

/-- Entropy and Gini are minimised, edge and twoing are maximised. -/
def betterEq : Criterion → K → K → Prop
  | .entropy, a, b => a ≤ b
  | .gini, a, b => a ≤ b
  | .edge, a, b => b ≤ a
  | .twoing, a, b => b ≤ a

/-- The values of a column with `n` rows. -/
def ValueOf (n : Nat) (f : Feature K) (v : K) : Prop := ∃ i, i < n ∧ f.index i = .ok v

/-- Row `i` of a column with the labels (cast to `i32`, as the code reads them) and the weights. -/
def rowOf [FloorRing K] (f : Feature K) (y dist : List K) (i : Nat) : Row K :=
  ⟨f.val i, asI32 (y.getD i 0), dist.getD i 0⟩

/-- The value in row `i` of the column with the given name. -/
def cell (s : Sample K) (name : String) (i : Nat) : K :=
  ((s.features.find? (fun f => f.name = name)).map (fun f => f.val i)).getD 0

/-- The way of row `i` through a tree: `true` (left) exactly when the tested value is below the threshold. -/
def path (s : Sample K) (i : Nat) : TreeNode K → List Bool
  | .leaf _ => []
  | .branch rule left right =>
    if cell s rule.feature i < rule.threshold then true :: path s i left else false :: path s i right

/-- The weight of some rows. -/
def weightOf (dist : List K) (rows : List Nat) : K := (rows.map (fun i => dist.getD i 0)).sum

/-- The weighted sum of the labels of some rows. -/
def labelSum (s : Sample K) (dist : List K) (rows : List Nat) : K :=
  (rows.map (fun i => dist.getD i 0 * s.target.getD i 0)).sum

/-- The training rows: those with positive weight. -/
def trainRows (s : Sample K) (dist : List K) : List Nat :=
  (List.range s.nSample).filter (fun i => 0 < dist.getD i 0)

/-- `t` and `t'` divide the rows in the same way. -/
def SameSplit (rows : List (Row K)) (t t' : K) : Prop := ∀ r ∈ rows, (r.x < t ↔ r.x < t')

/-- What training a decision tree needs: the platform facts (ordered extremes, a map is traversed in some order of
its entries), a well-formed sample with at least one column, one weight per row, some row with positive weight, bins
that tile the whole range for every column, and values inside the range. -/
structure TrainOk (env : TreeEnv K) (t : DecisionTree K) (s : Sample K) (dist : List K) : Prop where
  ext : env.fmin < env.fmax
  order : ∀ m, (env.order m).Perm m
  sample : SampleOk s
  columns : s.features ≠ []
  weights : dist.length = s.nSample
  some_weight : ∃ i < s.nSample, 0 < dist.getD i 0
  bins : ∀ f ∈ s.features, ∃ bins, HMap.get? t.bins f.name = some bins ∧ Tiles env.fmin bins env.fmax
  values : ∀ f ∈ s.features, ∀ i < s.nSample, env.fmin ≤ f.val i ∧ f.val i < env.fmax

/-- Row `i` seen through the named column. -/
def rowAt [FloorRing K] (s : Sample K) (dist : List K) (name : String) (i : Nat) : Row K :=
  ⟨cell s name i, asI32 (s.target.getD i 0), dist.getD i 0⟩

/-- Splitting the rows `idx` at `t` on the named column is at least as good as splitting them on any column at any bin
boundary. -/
def OptimalSplit [FloorRing K] (ln : K → K) (c : Criterion) (binsMap : List (String × List (Bin K))) (s : Sample K) (dist : List K)
    (idx : List Nat) (name : String) (t : K) : Prop :=
  ∀ g ∈ s.features, ∀ bins, HMap.get? binsMap g.name = some bins → ∀ b ∈ bins, ∀ t', t' = b.start ∨ t' = b.stop →
    betterEq c (splitValue ln (idx.map (rowAt s dist name)) t c) (splitValue ln (idx.map (rowAt s dist g.name)) t' c)

/-- Every test of the tree is an optimal split of the rows that reach it. -/
def SplitsOptimal [FloorRing K] (ln : K → K) (c : Criterion) (binsMap : List (String × List (Bin K))) (s : Sample K) (dist : List K) :
    List Nat → TreeNode K → Prop
  | _, .leaf _ => True
  | idx, .branch rule left right =>
    OptimalSplit ln c binsMap s dist idx rule.feature rule.threshold ∧
    SplitsOptimal ln c binsMap s dist (idx.filter (fun i => cell s rule.feature i < rule.threshold)) left ∧
    SplitsOptimal ln c binsMap s dist (idx.filter (fun i => ¬ cell s rule.feature i < rule.threshold)) right

/-- The number of nodes of a tree. -/
def size : TreeNode K → Nat
  | .leaf _ => 1
  | .branch _ left right => 1 + size left + size right

/-- The node at the end of a way through the tree (`true` = left). -/
def subtree : TreeNode K → List Bool → Option (TreeNode K)
  | t, [] => some t
  | .leaf _, _ :: _ => none
  | .branch _ left _, true :: p => subtree left p
  | .branch _ _ right, false :: p => subtree right p

/-- Preorder numbering from `id` on. -/
def idAt : Nat → TreeNode K → List Bool → Nat
  | id, _, [] => id
  | id, .leaf _, _ :: _ => id
  | id, .branch _ left _, true :: p => idAt (id + 1) left p
  | id, .branch _ left right, false :: p => idAt (id + 1 + size left) right p

end Miniboosts.Spec
