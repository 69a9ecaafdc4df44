import Verif.Model.FloatTree
import Verif.Model.RegressionTree

/-! # The regression-tree learner computed with `f64`

`Model/RegressionTree.lean` computes exactly; here `src/weak_learner/regression_tree/*.rs` is computed with binary64 numbers
(`Model/Float.lean`), for the two losses of `src/common/loss_functions.rs`.  The cells and targets of the sample are finite numbers, hence real
here.  A parallel sum divides its items arbitrarily; `none` stands for a panic.  Cutting the columns into bins, finding the bin of a value,
splitting the rows and answering are as for decision trees (`FTree.cutAll`, `FTree.position`, `FTree.splitRows`, `FTree.confidence`): the code
of `regression_tree/bin.rs:58-194`, 212-218 and `regression_tree/node.rs:125-148` has the same text. -/

namespace Miniboosts

namespace FReg

open F64

/-- `f64::signum`: the possible results.  Zeros have no sign in `F64`, so the result for a zero may be either. -/
def Signum : F64 → F64 → Prop
  | nan, r => r = nan
  | inf s, r => r = fin (if s then -1 else 1)
  | fin x, r => (0 ≤ x ∧ r = fin 1) ∨ (x ≤ 0 ∧ r = fin (-1))

/-- The entry of `gradient`, `src/common/loss_functions.rs:101-112`, for the prediction `p` and the target `y`. -/
def GradAt : GBMLoss → F64 → ℝ → F64 → Prop
  | .L1, p, y, g => Signum (sub (fin y) p) g
  | .L2, p, y, g => g = sub p (fin y)

/-- `<GBMLoss as LossFunction>::gradient`, `src/common/loss_functions.rs:94-130`; the closure is applied to the pairs of `zip` in order. -/
def Gradient (l : GBMLoss) (predictions : List F64) (target : List ℝ) (o : Option (List F64)) : Prop :=
  if predictions.length = target.length then
    ∃ g, List.Forall₂ (fun (q : F64 × ℝ) r => GradAt l q.1 q.2 r) (predictions.zip target) g ∧ o = some g
  else o = none

/-- `<GBMLoss as LossFunction>::hessian`, `src/common/loss_functions.rs:133-157`. -/
def hessian (l : GBMLoss) (predictions : List F64) (target : List ℝ) : Option (List F64) :=
  if predictions.length = target.length then
    some (List.replicate predictions.length (match l with | .L1 => fin 0 | .L2 => fin 1))
  else none

/-- `RegressionTree`, `src/weak_learner/regression_tree/regression_tree_algorithm.rs:69-84`. -/
structure Tree where
  bins : List (String × List (Bin F64))
  maxDepth : Nat
  nSample : Nat
  lambdaL2 : F64
  loss : GBMLoss

/-- `RegressionTreeBuilder`, `src/weak_learner/regression_tree/builder.rs:32-46`. -/
structure Builder where
  sample : Sample ℝ
  nBins : List (String × Nat)
  maxDepth : Nat
  lambdaL2 : F64
  loss : Option GBMLoss

/-- `RegressionTreeBuilder::new`, `src/weak_learner/regression_tree/builder.rs:56-72`; the defaults are `DEFAULT_MAX_DEPTH = 2` and
`DEFAULT_LAMBDA_L2 = 0.01`. -/
noncomputable def Builder.new (s : Sample ℝ) : Builder :=
  { sample := s, nBins := HMap.collect (s.features.map (fun f => (f.name, min f.distinctValueCount 255))), maxDepth := 2,
    lambdaL2 := rnd (1 / 100), loss := none }

/-- `RegressionTreeBuilder::loss`, `src/weak_learner/regression_tree/builder.rs:76-79`. -/
def Builder.setLoss (b : Builder) (l : GBMLoss) : Builder := { b with loss := some l }

/-- `RegressionTreeBuilder::lambda_l2`, `src/weak_learner/regression_tree/builder.rs:83-86`. -/
def Builder.setLambda (b : Builder) (l : F64) : Builder := { b with lambdaL2 := l }

/-- `RegressionTreeBuilder::max_depth`, `src/weak_learner/regression_tree/builder.rs:91-96`. -/
def Builder.setMaxDepth (b : Builder) (depth : Nat) : Except Panic Builder :=
  if 0 < depth then .ok { b with maxDepth := depth } else .error .assertion

/-- `RegressionTreeBuilder::build`, `src/weak_learner/regression_tree/builder.rs:120-141`; `none`: not over after `fuel` rounds of one of the
loops cutting a column. -/
noncomputable def Builder.build (fuel : Nat) (b : Builder) : Option (Except Panic Tree) :=
  (FTree.cutAll fuel b.nBins b.sample.features).map fun r =>
    match r, b.loss with
    | .error e, _ => .error e
    | .ok _, none => .error .unwrapNone
    | .ok bins, some l =>
      .ok { bins := HMap.collect bins, maxDepth := b.maxDepth, nSample := b.sample.nSample, lambdaL2 := b.lambdaL2, loss := l }

/-- The loop of `Bins::pack`, `src/weak_learner/regression_tree/bin.rs:209-222`; `grad_pack` and `hess_pack` are zipped. -/
noncomputable def packLoop (bins : List (Bin F64)) (feat : Feature ℝ) (gradient hessian : List F64) :
    List Nat → List (F64 × F64) → Option (List (F64 × F64))
  | [], packed => some packed
  | i :: is, packed =>
    match feat.index i with
    | .error _ => none
    | .ok xi =>
      match FTree.position bins xi with
      | none => none
      | some pos =>
        match packed[pos]?, gradient[i]?, hessian[i]? with
        | some m, some g, some h => packLoop bins feat gradient hessian is (packed.set pos (add m.1 g, add m.2 h))
        | _, _, _ => none

open Classical in
/-- `*grad != 0.0 || *hess != 0.0`, `src/weak_learner/regression_tree/bin.rs:257-259`; a NaN differs from zero. -/
noncomputable def nonzero (p : Bin F64 × F64 × F64) : Bool := decide (p.2.1 ≠ fin 0 ∨ p.2.2 ≠ fin 0)

/-- The loop of `remove_zero_weight_pack_and_normalize`, `src/weak_learner/regression_tree/bin.rs:273-286`. -/
noncomputable def mergeLoop : Bin F64 → F64 → F64 → List (Bin F64 × F64 × F64) → List (Bin F64 × F64 × F64)
  | prev, g, h, [] => [(prev, g, h)]
  | prev, g, h, (nb, ng, nh) :: rest =>
    (⟨prev.start, div (add prev.stop nb.start) (fin 2)⟩, g, h) :: mergeLoop ⟨div (add prev.stop nb.start) (fin 2), nb.stop⟩ ng nh rest

open Classical in
/-- `Bins::remove_zero_weight_pack_and_normalize`, `src/weak_learner/regression_tree/bin.rs:246-289`. -/
noncomputable def removeZero (bins : List (Bin F64)) (packed : List (F64 × F64)) : Option (List (Bin F64 × F64 × F64)) :=
  match bins.zip packed with
  | [] => none
  | (b, g, h) :: rest =>
    if g = fin 0 ∧ h = fin 0 then
      match rest.filter nonzero with
      | [] => none
      | (nb, ng, nh) :: rest => some (mergeLoop ⟨b.start, nb.stop⟩ ng nh rest)
    else some (mergeLoop b g h (rest.filter nonzero))

/-- `Bins::pack`, `src/weak_learner/regression_tree/bin.rs:196-224`. -/
noncomputable def pack (bins : List (Bin F64)) (indices : List Nat) (feat : Feature ℝ) (gradient hessian : List F64) :
    Option (List (Bin F64 × F64 × F64)) :=
  match packLoop bins feat gradient hessian indices (List.replicate bins.length (fin 0, fin 0)) with
  | none => none
  | some packed => removeZero bins packed

/-- The score of a split, `src/weak_learner/regression_tree/regression_tree_algorithm.rs:313-315`. -/
noncomputable def score (lam lg lh rg rh : F64) : F64 := add (div (sq lg) (add lh lam)) (div (sq rg) (add rh lam))

open Classical in
/-- The loop of `best_split_at`, `src/weak_learner/regression_tree/regression_tree_algorithm.rs:306-320`; arguments: the left sums, the right
sums, the best score and threshold. -/
noncomputable def scan (lam : F64) : List (Bin F64 × F64 × F64) → F64 → F64 → F64 → F64 → F64 → F64 → F64 × F64
  | [], _, _, _, _, bs, bt => (bs, bt)
  | (bin, g, h) :: rest, lg, lh, rg, rh, bs, bt =>
    if Lt bs (score lam (add lg g) (add lh h) (sub rg g) (sub rh h)) then
      scan lam rest (add lg g) (add lh h) (sub rg g) (sub rh h) (score lam (add lg g) (add lh h) (sub rg g) (sub rh h)) bin.stop
    else scan lam rest (add lg g) (add lh h) (sub rg g) (sub rh h) bs bt

/-- `best_split_at`, `src/weak_learner/regression_tree/regression_tree_algorithm.rs:285-323`: the possible results `(score, threshold)`. -/
def BestSplitAt (lam : F64) (pack : List (Bin F64 × F64 × F64)) (r : F64 × F64) : Prop :=
  ∃ rg rh, FTree.SumOf (pack.map fun p => p.2.1) rg ∧ FTree.SumOf (pack.map fun p => p.2.2) rh ∧
    r = scan lam pack (fin 0) (fin 0) rg rh (fin (-maxVal)) (fin (-maxVal))

/-- The closure of `best_split`, `src/weak_learner/regression_tree/regression_tree_algorithm.rs:267-276`. -/
def FeatureSplit (binsMap : List (String × List (Bin F64))) (gradient hessian : List F64) (lam : F64) (idx : List Nat) (f : Feature ℝ)
    (o : Option (F64 × String × F64)) : Prop :=
  match HMap.get? binsMap f.name with
  | none => o = none
  | some bins =>
    match pack bins idx f gradient hessian with
    | none => o = none
    | some p => ∃ r, BestSplitAt lam p r ∧ o = some (r.1, f.name, r.2)

/-- `best_split`, `src/weak_learner/regression_tree/regression_tree_algorithm.rs:257-280`. -/
def BestSplit (binsMap : List (String × List (Bin F64))) (s : Sample ℝ) (gradient hessian : List F64) (idx : List Nat) (lam : F64)
    (o : Option (String × F64)) : Prop :=
  ∃ os, List.Forall₂ (FeatureSplit binsMap gradient hessian lam idx) s.features os ∧
    match Par.allSome os with
    | none => o = none
    | some cands => ∃ x, FTree.Extremum false (fun p : F64 × String × F64 => p.1) cands x ∧ o = x.map Prod.snd

/-- `prediction_and_loss`, `src/weak_learner/regression_tree/regression_tree_algorithm.rs:329-348`, from the two sums. -/
noncomputable def leafValues (g h lam : F64) : F64 × F64 := (div (neg g) (add h lam), div (mul (fin (-(1 / 2))) (sq g)) (add h lam))

/-- `prediction_and_loss`, `src/weak_learner/regression_tree/regression_tree_algorithm.rs:329-348`: the possible results. -/
def PredLoss (indices : List Nat) (gradient hessian : List F64) (lam : F64) (o : Option (F64 × F64)) : Prop :=
  ∃ g h, FTree.SumAt gradient indices g ∧ FTree.SumAt hessian indices h ∧
    match g, h with
    | some g, some h => o = some (leafValues g h lam)
    | _, _ => o = none

/-- `RegressionTree::full_tree`, `src/weak_learner/regression_tree/regression_tree_algorithm.rs:101-155`; the counts of leaves are left out and
the finished tree (`From<TrainNode> for Node`, `src/weak_learner/regression_tree/node.rs:79-122`, keeps rules and predictions) is returned. -/
def FullTree (t : Tree) (s : Sample ℝ) (gradient hessian : List F64) : Nat → List Nat → Option (TreeNode F64) → Prop
  | 0, indices, o => ∃ c, PredLoss indices gradient hessian t.lambdaL2 c ∧ o = c.map fun p => .leaf p.1
  | depth + 1, indices, o => ∃ c, PredLoss indices gradient hessian t.lambdaL2 c ∧
    match c with
    | none => o = none
    | some (pred, loss) =>
      ((loss = fin 0 ∨ depth = 0) ∧ o = some (.leaf pred)) ∨
      (¬ (loss = fin 0 ∨ depth = 0) ∧ ∃ b, BestSplit t.bins s gradient hessian indices t.lambdaL2 b ∧
        match b with
        | none => o = none
        | some (feature, threshold) =>
          match FTree.splitRows ⟨feature, threshold⟩ s indices with
          | none => o = none
          | some (l, r) =>
            if l = [] ∨ r = [] then o = some (.leaf pred)
            else ∃ lt rt, FullTree t s gradient hessian depth l lt ∧ FullTree t s gradient hessian depth r rt ∧
              match lt, rt with
              | some ltree, some rtree => o = some (.branch ⟨feature, threshold⟩ ltree rtree)
              | _, _ => o = none)

/-- `RegressionTree::produce`, `src/weak_learner/regression_tree/regression_tree_algorithm.rs:184-209`: the trees that may be returned, `none`
for a panic. -/
def Produce (t : Tree) (s : Sample ℝ) (predictions : List F64) (o : Option (TreeNode F64)) : Prop :=
  ∃ g, Gradient t.loss predictions s.target g ∧
    match g, hessian t.loss predictions s.target with
    | some g, some h => FullTree t s g h t.maxDepth (List.range t.nSample) o
    | _, _ => o = none

end FReg

end Miniboosts
