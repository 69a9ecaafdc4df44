import Verif.Model.DecisionTree
import Verif.Model.GBM

/-! # The regression-tree weak learner: `src/weak_learner/regression_tree/*.rs`

`Bin`, `Bins::cut`, `cut_dense`, `cut_sparse` (`regression_tree/bin.rs:27-179`) have the same text as their
counterparts in `decision_tree/bin.rs` and are modelled by `Bins.cut`; `Node` (`regression_tree/node.rs:18-200`) differs
from the node of decision trees in the name of the leaf value (and the number of printed digits) and is modelled by
`TreeNode`, `Regressor::predict` by `TreeNode.confidence`, `to_dot_info` by `TreeNode.toDotInfo`.

Not modelled: `Display`/`Debug` output, serialisation, `info`.  Rayon's parallel iterators are modelled by their
sequential results (see `Model/ParTree.lean` and C89).  Where the code would compute a quotient by zero, see `term` and `predictionAndLoss`. -/

namespace Miniboosts

variable {K : Type*} [Field K] [LinearOrder K]

/-- `LossFunction::gradient` and `hessian`, `src/common/loss_functions.rs:25-38`: predictions, targets. -/
structure LossFn (K : Type*) where
  gradient : List K → List K → Except Panic (List K)
  hessian : List K → List K → Except Panic (List K)

/-- `impl LossFunction for GBMLoss`, `src/common/loss_functions.rs:94-157`. -/
def GBMLoss.toLossFn (l : GBMLoss) : LossFn K := ⟨l.gradient, l.hessian⟩

namespace RegBins

/-- The loop of `Bins::pack`, `src/weak_learner/regression_tree/bin.rs:209-222`; `grad_pack` and `hess_pack` are
zipped. -/
def packLoop (bins : List (Bin K)) (feat : Feature K) (gradient hessian : List K) :
    List Nat → List (K × K) → Except Panic (List (K × K))
  | [], packed => .ok packed
  | i :: is, packed =>
    match feat.index i with
    | .error e => .error e
    | .ok xi =>
      match Bins.position bins xi with
      | none => .error .unwrapNone
      | some pos =>
        match packed[pos]?, vecAt gradient i, vecAt hessian i with
        | some m, .ok g, .ok h => packLoop bins feat gradient hessian is (packed.set pos (m.1 + g, m.2 + h))
        | none, _, _ => .error .outOfRange
        | _, .error e, _ => .error e
        | _, _, .error e => .error e

/-- `*grad != 0.0 || *hess != 0.0`, `src/weak_learner/regression_tree/bin.rs:257-259`. -/
def nonzero (p : Bin K × K × K) : Bool := decide (p.2.1 ≠ 0 ∨ p.2.2 ≠ 0)

/-- The loop of `remove_zero_weight_pack_and_normalize`, `src/weak_learner/regression_tree/bin.rs:273-286`. -/
def mergeLoop : Bin K → K → K → List (Bin K × K × K) → List (Bin K × K × K)
  | prev, g, h, [] => [(prev, g, h)]
  | prev, g, h, (nb, ng, nh) :: rest =>
    (⟨prev.start, (prev.stop + nb.start) / 2⟩, g, h) :: mergeLoop ⟨(prev.stop + nb.start) / 2, nb.stop⟩ ng nh rest

/-- `Bins::remove_zero_weight_pack_and_normalize`, `src/weak_learner/regression_tree/bin.rs:246-289`. -/
def removeZero (bins : List (Bin K)) (packed : List (K × K)) : Except Panic (List (Bin K × K × K)) :=
  match bins.zip packed with
  | [] => .error .unwrapNone
  | (b, g, h) :: rest =>
    let rest := rest.filter nonzero
    if g = 0 ∧ h = 0 then
      match rest with
      | [] => .error .unwrapNone
      | (nb, ng, nh) :: rest => .ok (mergeLoop ⟨b.start, nb.stop⟩ ng nh rest)
    else .ok (mergeLoop b g h rest)

/-- `Bins::pack`, `src/weak_learner/regression_tree/bin.rs:196-224`. -/
def pack (bins : List (Bin K)) (indices : List Nat) (feat : Feature K) (gradient hessian : List K) :
    Except Panic (List (Bin K × K × K)) :=
  match packLoop bins feat gradient hessian indices (List.replicate bins.length (0, 0)) with
  | .error e => .error e
  | .ok packed => removeZero bins packed

end RegBins

namespace RegSplit

/-- One of the two quotients of the score, `src/weak_learner/regression_tree/regression_tree_algorithm.rs:313-315`.
With a zero denominator the code computes `0.0 / 0.0`, not a number (`none`), or an infinity, which is not modelled
further (`nonFinite`). -/
def term (lam g h : K) : Except Panic (Option K) :=
  if h + lam = 0 then (if g = 0 then .ok none else .error .nonFinite) else .ok (some (g ^ 2 / (h + lam)))

/-- The loop of `best_split_at`, `src/weak_learner/regression_tree/regression_tree_algorithm.rs:306-320`; arguments: the
left sums, the right sums, the best score and threshold.  A score that is not a number is never better. -/
def scan (lam : K) : List (Bin K × K × K) → K → K → K → K → K → K → Except Panic (K × K)
  | [], _, _, _, _, bs, bt => .ok (bs, bt)
  | (bin, g, h) :: rest, lg, lh, rg, rh, bs, bt =>
    match term lam (lg + g) (lh + h), term lam (rg - g) (rh - h) with
    | .ok (some a), .ok (some b) =>
      if bs < a + b then scan lam rest (lg + g) (lh + h) (rg - g) (rh - h) (a + b) bin.stop
      else scan lam rest (lg + g) (lh + h) (rg - g) (rh - h) bs bt
    | .error e, _ => .error e
    | _, .error e => .error e
    | _, _ => scan lam rest (lg + g) (lh + h) (rg - g) (rh - h) bs bt

/-- `best_split_at`, `src/weak_learner/regression_tree/regression_tree_algorithm.rs:285-323`: `(score, threshold)`. -/
def bestSplitAt (env : TreeEnv K) (lam : K) (pack : List (Bin K × K × K)) : Except Panic (K × K) :=
  scan lam pack 0 0 (pack.map (fun p => p.2.1)).sum (pack.map (fun p => p.2.2)).sum env.fmin env.fmin

/-- The closure of `best_split`, `src/weak_learner/regression_tree/regression_tree_algorithm.rs:267-276`. -/
def featureSplit (env : TreeEnv K) (binsMap : List (String × List (Bin K))) (gradient hessian : List K) (lam : K)
    (idx : List Nat) (f : Feature K) : Except Panic (K × String × K) :=
  match HMap.get? binsMap f.name with
  | none => .error .unwrapNone
  | some bins =>
    match RegBins.pack bins idx f gradient hessian with
    | .error e => .error e
    | .ok pack => (bestSplitAt env lam pack).map (fun r => (r.1, f.name, r.2))

/-- `best_split`, `src/weak_learner/regression_tree/regression_tree_algorithm.rs:257-280`. -/
def bestSplit (env : TreeEnv K) (binsMap : List (String × List (Bin K))) (s : Sample K) (gradient hessian : List K)
    (idx : List Nat) (lam : K) : Except Panic (String × K) :=
  match Sample.mapAll (featureSplit env binsMap gradient hessian lam idx) s.features with
  | .error e => .error e
  | .ok cands =>
    match Criterion.maxBy (fun p => p.1) cands with
    | none => .error .unwrapNone
    | some p => .ok p.2

end RegSplit

/-- `TrainNode`, `src/weak_learner/regression_tree/train_node.rs:20-60`. -/
inductive RegTrainNode (K : Type*) where
  | leaf (prediction lossAsLeaf : K)
  | branch (rule : Splitter K) (left right : RegTrainNode K) (prediction lossAsLeaf : K) (leaves : Nat)
  deriving Repr

namespace RegTrainNode

/-- `TrainNode::leaves`, `src/weak_learner/regression_tree/train_node.rs:121-126`. -/
def leavesOf : RegTrainNode K → Nat
  | leaf .. => 1
  | branch (leaves := n) .. => n

/-- `TrainNode::branch`, `src/weak_learner/regression_tree/train_node.rs:94-116`. -/
def mkBranch (rule : Splitter K) (left right : RegTrainNode K) (prediction lossAsLeaf : K) : RegTrainNode K :=
  branch rule left right prediction lossAsLeaf (left.leavesOf + right.leavesOf)

/-- `From<TrainNode> for Node`, `src/weak_learner/regression_tree/node.rs:79-122`. -/
def toNode : RegTrainNode K → TreeNode K
  | leaf p _ => .leaf p
  | branch rule left right _ _ _ => .branch rule left.toNode right.toNode

end RegTrainNode

/-- `indices.par_iter().map(|&i| v[i]).sum()`, `src/weak_learner/regression_tree/regression_tree_algorithm.rs:336-342`. -/
def sumAt (v : List K) : List Nat → Except Panic K
  | [] => .ok 0
  | i :: is =>
    match vecAt v i with
    | .error e => .error e
    | .ok d => (sumAt v is).map (fun r => d + r)

/-- `prediction_and_loss`, `src/weak_learner/regression_tree/regression_tree_algorithm.rs:329-348`.  When the denominator is
zero the code goes on with an infinity or a NaN, which is not modelled (`nonFinite`). -/
def predictionAndLoss (indices : List Nat) (gradient hessian : List K) (lam : K) : Except Panic (K × K) :=
  match sumAt gradient indices with
  | .error e => .error e
  | .ok g =>
    match sumAt hessian indices with
    | .error e => .error e
    | .ok h =>
      if h + lam = 0 then .error .nonFinite
      else .ok (-g / (h + lam), -(1 / 2) * g ^ 2 / (h + lam))

/-- `RegressionTree`, `src/weak_learner/regression_tree/regression_tree_algorithm.rs:69-84`. -/
structure RegressionTree (K : Type*) where
  bins : List (String × List (Bin K))
  maxDepth : Nat
  nSample : Nat
  lambdaL2 : K
  loss : LossFn K

namespace RegressionTree

/-- `RegressionTree::full_tree`, `src/weak_learner/regression_tree/regression_tree_algorithm.rs:101-155`. -/
def fullTree (env : TreeEnv K) (t : RegressionTree K) (s : Sample K) (gradient hessian : List K) :
    Nat → List Nat → Except Panic (RegTrainNode K)
  | depth, indices =>
    match predictionAndLoss indices gradient hessian t.lambdaL2 with
    | .error e => .error e
    | .ok (pred, loss) =>
      match depth with
      | 0 => .ok (.leaf pred loss)
      | depth + 1 =>
        if loss = 0 ∨ depth + 1 ≤ 1 then .ok (.leaf pred loss)
        else
          match RegSplit.bestSplit env t.bins s gradient hessian indices t.lambdaL2 with
          | .error e => .error e
          | .ok (feature, threshold) =>
            match DecisionTree.splitRows ⟨feature, threshold⟩ s indices with
            | .error e => .error e
            | .ok (l, r) =>
              if l = [] ∨ r = [] then .ok (.leaf pred loss)
              else
                match fullTree env t s gradient hessian depth l with
                | .error e => .error e
                | .ok ltree =>
                  match fullTree env t s gradient hessian depth r with
                  | .error e => .error e
                  | .ok rtree => .ok (RegTrainNode.mkBranch ⟨feature, threshold⟩ ltree rtree pred loss)

/-- `RegressionTree::produce`, `src/weak_learner/regression_tree/regression_tree_algorithm.rs:184-209`. -/
def produce (env : TreeEnv K) (t : RegressionTree K) (s : Sample K) (predictions : List K) : Except Panic (TreeNode K) :=
  match t.loss.gradient predictions s.target with
  | .error e => .error e
  | .ok gradient =>
    match t.loss.hessian predictions s.target with
    | .error e => .error e
    | .ok hessian => (fullTree env t s gradient hessian t.maxDepth (List.range t.nSample)).map RegTrainNode.toNode

end RegressionTree

/-- `RegressionTreeBuilder`, `src/weak_learner/regression_tree/builder.rs:32-46`. -/
structure RegressionTreeBuilder (K : Type*) where
  sample : Sample K
  nBins : List (String × Nat)
  maxDepth : Nat
  lambdaL2 : K
  loss : Option (LossFn K)

namespace RegressionTreeBuilder

/-- `RegressionTreeBuilder::new`, `src/weak_learner/regression_tree/builder.rs:56-72`. -/
def new (s : Sample K) : RegressionTreeBuilder K :=
  { sample := s, nBins := HMap.collect (s.features.map (fun f => (f.name, min f.distinctValueCount 255))), maxDepth := 2, lambdaL2 := 1 / 100, loss := none }

omit [Field K] [LinearOrder K] in
/-- `RegressionTreeBuilder::loss`, `src/weak_learner/regression_tree/builder.rs:76-79`. -/
def setLoss (b : RegressionTreeBuilder K) (l : LossFn K) : RegressionTreeBuilder K := { b with loss := some l }

omit [Field K] [LinearOrder K] in
/-- `RegressionTreeBuilder::lambda_l2`, `src/weak_learner/regression_tree/builder.rs:83-86`. -/
def setLambda (b : RegressionTreeBuilder K) (l : K) : RegressionTreeBuilder K := { b with lambdaL2 := l }

omit [Field K] [LinearOrder K] in
/-- `RegressionTreeBuilder::max_depth`, `src/weak_learner/regression_tree/builder.rs:91-96`. -/
def setMaxDepth (b : RegressionTreeBuilder K) (depth : Nat) : Except Panic (RegressionTreeBuilder K) :=
  if 0 < depth then .ok { b with maxDepth := depth } else .error .assertion

omit [Field K] [LinearOrder K] in
/-- `RegressionTreeBuilder::set_nbins`, `src/weak_learner/regression_tree/builder.rs:100-110`. -/
def setNbins (b : RegressionTreeBuilder K) (name : String) (n : Nat) : Except Panic (RegressionTreeBuilder K) :=
  match HMap.get? b.nBins name with
  | none => .error .assertion
  | some _ => .ok { b with nBins := HMap.insert b.nBins name n }

/-- The closure of `RegressionTreeBuilder::build`, `src/weak_learner/regression_tree/builder.rs:121-128`. -/
def cutFeature (env : TreeEnv K) (b : RegressionTreeBuilder K) (f : Feature K) : Except Panic (String × List (Bin K)) :=
  match HMap.get? b.nBins f.name with
  | none => .error .unwrapNone
  | some n => (Bins.cut env f n).map (fun bins => (f.name, bins))

/-- `RegressionTreeBuilder::build`, `src/weak_learner/regression_tree/builder.rs:120-141`. -/
def build (env : TreeEnv K) (b : RegressionTreeBuilder K) : Except Panic (RegressionTree K) :=
  match Sample.mapAll (cutFeature env b) b.sample.features with
  | .error e => .error e
  | .ok bins =>
    match b.loss with
    | none => .error .unwrapNone
    | some l => .ok { bins := HMap.collect bins, maxDepth := b.maxDepth, nSample := b.sample.nSample, lambdaL2 := b.lambdaL2, loss := l }

end RegressionTreeBuilder

end Miniboosts
