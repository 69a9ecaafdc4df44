import Verif.Model.ParBoost
import Verif.Model.RegressionTree

/-! # The tree learners with rayon's parallelism and with randomised hash maps

For every function of the two tree learners that runs a parallel iterator or traverses a `HashMap`/`HashSet`, the relation between its
arguments and the results it may have: a parallel iterator divides its items arbitrarily, a traversal of a hash map visits the entries
in any order, chosen anew for every traversal (`std`'s hash maps are seeded at random).  `none` stands for a panic: when several
closures panic, which of the panics is propagated depends on the schedule.

The functions without parallelism and without traversals (`packLoop`, `countLabels`, `splitRows`, …) are those of
`Model/DecisionTree.lean` and `Model/RegressionTree.lean`. -/

namespace Miniboosts

namespace Par

variable {α β K : Type*}

/-- The results of the closures of a parallel iterator, or a panic when one of them panics. -/
def allSome : List (Option α) → Option (List α)
  | [] => some []
  | none :: _ => none
  | some a :: os => (allSome os).map fun l => a :: l

variable [Field K] [LinearOrder K]

/-- `v.par_iter().sum()`. -/
def SumOf (xs : List K) (r : K) : Prop := ∃ t : Split K, t.items = xs ∧ r = t.sum (fun a b => a + b) 0

/-- `indices.par_iter().map(|&i| v[i]).sum()`, `src/weak_learner/decision_tree/decision_tree_algorithm.rs:107-110` and
`src/weak_learner/regression_tree/regression_tree_algorithm.rs:336-342`. -/
def SumAt (v : List K) (idx : List Nat) (o : Option K) : Prop :=
  match allSome (idx.map fun i => v[i]?) with
  | none => o = none
  | some xs => ∃ r, SumOf xs r ∧ o = some r

/-- `map.values().sum()` on a hash map. -/
def Total (m : LabelMap K) (r : K) : Prop := ∃ l : LabelMap K, l.Perm m ∧ r = (l.map Prod.snd).sum

/-- `entropic_impurity`, `src/weak_learner/decision_tree/criterion.rs:358-368`. -/
def Entropy (env : TreeEnv K) (m : LabelMap K) (r : K) : Prop :=
  ∃ total : K, Total m total ∧
    if total ≤ 0 ∨ m.isEmpty = true then r = 0
    else ∃ l : LabelMap K, l.Perm m ∧ SumOf (l.map fun p => if p.2 / total ≤ 0 then 0 else -(p.2 / total) * env.ln (p.2 / total)) r

/-- `gini_impurity`, `src/weak_learner/decision_tree/criterion.rs:373-382`. -/
def Gini (m : LabelMap K) (r : K) : Prop :=
  ∃ total : K, Total m total ∧
    if total ≤ 0 ∨ m.isEmpty = true then r = 0
    else ∃ (l : LabelMap K) (correct : K), l.Perm m ∧ SumOf (l.map fun p => (p.2 / total) ^ 2) correct ∧ r = max (1 - correct) 0

/-- `twoing_score`, `src/weak_learner/decision_tree/criterion.rs:387-410`. -/
def Twoing (labels : List Int) (left right : LabelMap K) (o : Option K) : Prop :=
  ∃ pl pr, Total left pl ∧ Total right pr ∧
    if pl = 0 ∨ pr = 0 then o = some 0
    else if 0 < pl + pr then
      ∃ ys : List Int, ys.Perm labels ∧
        o = some ((ys.map fun y => |(HMap.get? left y).getD 0 / pl - (HMap.get? right y).getD 0 / pr|).sum ^ 2 * pl * pr
          / (2 * (pl + pr)) ^ 2)
    else o = none

/-- The loop of `remove_zero_weight_pack_and_normalize`, `src/weak_learner/decision_tree/bin.rs:278-291`; the division of the weights is
a parallel update of the values of a hash map. -/
def Merge (total : K) : Bin K → LabelMap K → List (Bin K × LabelMap K) → List (Bin K × LabelMap K) → Prop
  | prev, pw, [], res => res = [(prev, pw)]
  | prev, pw, (nb, nw) :: rest, res =>
    ∃ nw' res', ParMap (fun p => (p.1, p.2 / total)) nw nw' ∧
      Merge total ⟨(prev.stop + nb.start) / 2, nb.stop⟩ nw' rest res' ∧
      res = (⟨prev.start, (prev.stop + nb.start) / 2⟩, pw) :: res'

/-- `Bins::remove_zero_weight_pack_and_normalize`, `src/weak_learner/decision_tree/bin.rs:247-294`. -/
def RemoveZero (bins : List (Bin K)) (pack : List (LabelMap K)) (o : Option (List (Bin K × LabelMap K))) : Prop :=
  ∃ totals total, List.Forall₂ Total pack totals ∧ SumOf totals total ∧
    if 0 < total then
      match bins.zip pack with
      | [] => o = none
      | (b, w) :: rest =>
        if w.isEmpty then
          match rest.filter fun p => !p.2.isEmpty with
          | [] => o = none
          | (nb, nw) :: rest =>
            ∃ nw' res, ParMap (fun p => (p.1, p.2 / total)) nw nw' ∧ Merge total ⟨b.start, nb.stop⟩ nw' rest res ∧ o = some res
        else
          ∃ w' res, ParMap (fun p => (p.1, p.2 / total)) w w' ∧
            Merge total b w' (rest.filter fun p => !p.2.isEmpty) res ∧ o = some res
    else o = none

/-- `Bins::pack`, `src/weak_learner/decision_tree/bin.rs:197-225`. -/
def Pack [FloorRing K] (bins : List (Bin K)) (indices : List Nat) (feat : Feature K) (y dist : List K)
    (o : Option (List (Bin K × LabelMap K))) : Prop :=
  match Bins.packLoop bins feat y dist indices (List.replicate bins.length []) with
  | .error _ => o = none
  | .ok packed => RemoveZero bins packed o

/-- `weight_sum`, `src/weak_learner/decision_tree/criterion.rs:182-184` and 262-264. -/
def WeightSum (pack : List (Bin K × LabelMap K)) (r : K) : Prop :=
  ∃ totals, List.Forall₂ Total (pack.map Prod.snd) totals ∧ r = totals.sum

/-- All label weights of a pack, `src/weak_learner/decision_tree/criterion.rs:192-198`, 272-278, 318-325. -/
def AllWeights (pack : List (Bin K × LabelMap K)) (m : LabelMap K) : Prop :=
  ∃ ms : List (LabelMap K), List.Forall₂ List.Perm ms (pack.map Prod.snd) ∧ m = Criterion.collectWeights ms.flatten []

/-- The main loop of `split_by_entropy` / `split_by_gini`, `src/weak_learner/decision_tree/criterion.rs:203-224` and 283-307. -/
def ImpurityLoop (move : LabelMap K → Criterion.ScanState K → Except Panic (Criterion.ScanState K)) (Imp : LabelMap K → K → Prop)
    (weightSum : K) : List (Bin K × LabelMap K) → Criterion.ScanState K → Option (K × K) → Prop
  | [], st, o => o = some (st.bestThreshold, st.bestScore)
  | (bin, map) :: rest, st, o =>
    ∃ map' : LabelMap K, map'.Perm map ∧
      match move map' st with
      | .error _ => o = none
      | .ok st =>
        ∃ il ir, Imp st.left il ∧ Imp st.right ir ∧
          let lp := st.leftSum / weightSum
          let rp := max (1 - lp) 0
          let score := lp * il + rp * ir
          ImpurityLoop move Imp weightSum rest
            (if score < st.bestScore then { st with bestScore := score, bestThreshold := bin.stop } else st) o

/-- `split_by_entropy`, `src/weak_learner/decision_tree/criterion.rs:179-227`: `(threshold, score)`. -/
def SplitByEntropy (env : TreeEnv K) (pack : List (Bin K × LabelMap K)) (o : Option (K × K)) : Prop :=
  ∃ ws right e, WeightSum pack ws ∧ AllWeights pack right ∧ Entropy env right e ∧
    ImpurityLoop Criterion.moveEntropy (Entropy env) ws pack ⟨[], 0, right, e, env.fmin⟩ o

/-- `split_by_gini`, `src/weak_learner/decision_tree/criterion.rs:261-310`. -/
def SplitByGini (env : TreeEnv K) (pack : List (Bin K × LabelMap K)) (o : Option (K × K)) : Prop :=
  ∃ ws right e, WeightSum pack ws ∧ AllWeights pack right ∧ Gini right e ∧
    ImpurityLoop Criterion.moveGini Gini ws pack ⟨[], 0, right, e, env.fmin⟩ o

/-- `map.iter().map(|(y, d)| *y as f64 * d).sum()`. -/
def SignedSum (m : LabelMap K) (r : K) : Prop := ∃ l : LabelMap K, l.Perm m ∧ r = Criterion.signedSum l

/-- The loop of `split_by_edge`, `src/weak_learner/decision_tree/criterion.rs:245-255`. -/
def EdgeLoop : List (Bin K × LabelMap K) → K → K → K → K × K → Prop
  | [], _, be, bt, r => r = (bt, be)
  | (bin, map) :: rest, e, be, bt, r =>
    ∃ d, SignedSum map d ∧
      if be < |e - 2 * d| then EdgeLoop rest (e - 2 * d) |e - 2 * d| bin.stop r else EdgeLoop rest (e - 2 * d) be bt r

/-- `split_by_edge`, `src/weak_learner/decision_tree/criterion.rs:230-258`. -/
def SplitByEdge (env : TreeEnv K) (pack : List (Bin K × LabelMap K)) (r : K × K) : Prop :=
  ∃ ds, List.Forall₂ SignedSum (pack.map Prod.snd) ds ∧ EdgeLoop pack ds.sum |ds.sum| env.fmin r

/-- The main loop of `split_by_twoing`, `src/weak_learner/decision_tree/criterion.rs:330-350`. -/
def TwoingLoop (labels : List Int) : List (Bin K × LabelMap K) → LabelMap K × LabelMap K → K → K → Option (K × K) → Prop
  | [], _, bs, bt, o => o = some (bt, bs)
  | (bin, map) :: rest, st, bs, bt, o =>
    ∃ (map' : LabelMap K) (x : Option K), map'.Perm map ∧ Twoing labels (Criterion.moveTwoing map' st).1 (Criterion.moveTwoing map' st).2 x ∧
      match x with
      | none => o = none
      | some score =>
        if bs < score then TwoingLoop labels rest (Criterion.moveTwoing map' st) score bin.stop o
        else TwoingLoop labels rest (Criterion.moveTwoing map' st) bs bt o

/-- `split_by_twoing`, `src/weak_learner/decision_tree/criterion.rs:313-353`. -/
def SplitByTwoing (env : TreeEnv K) (pack : List (Bin K × LabelMap K)) (o : Option (K × K)) : Prop :=
  ∃ right, AllWeights pack right ∧ TwoingLoop (Criterion.labelSet pack) pack ([], right) 0 env.fmin o

/-- The search over one feature: `(threshold, score)`. -/
def SplitBy (env : TreeEnv K) : Criterion → List (Bin K × LabelMap K) → Option (K × K) → Prop
  | .entropy, pack, o => SplitByEntropy env pack o
  | .edge, pack, o => ∃ r, SplitByEdge env pack r ∧ o = some r
  | .gini, pack, o => SplitByGini env pack o
  | .twoing, pack, o => SplitByTwoing env pack o

/-- The closure mapped over the features in `Criterion::best_split`, `src/weak_learner/decision_tree/criterion.rs:104-175`. -/
def FeatureSplit [FloorRing K] (env : TreeEnv K) (c : Criterion) (binsMap : List (String × List (Bin K))) (s : Sample K) (dist : List K)
    (idx : List Nat) (f : Feature K) (o : Option (K × String × K)) : Prop :=
  match HMap.get? binsMap f.name with
  | none => o = none
  | some bins =>
    ∃ p, Pack bins idx f s.target dist p ∧
      match p with
      | none => o = none
      | some pack => ∃ r, SplitBy env c pack r ∧ o = r.map fun r => (r.2, f.name, r.1)

/-- `Criterion::best_split`, `src/weak_learner/decision_tree/criterion.rs:104-175`. -/
def BestSplit [FloorRing K] (env : TreeEnv K) (c : Criterion) (binsMap : List (String × List (Bin K))) (s : Sample K) (dist : List K)
    (idx : List Nat) (o : Option (String × K)) : Prop :=
  ∃ os, List.Forall₂ (FeatureSplit env c binsMap s dist idx) s.features os ∧
    match allSome os with
    | none => o = none
    | some cands =>
      ∃ t : Split (K × String × K), t.items = cands ∧
        o = (match c with
          | .entropy => t.minBy fun p => p.1
          | .gini => t.minBy fun p => p.1
          | .edge => t.maxBy fun p => p.1
          | .twoing => t.maxBy fun p => p.1 : Option (K × String × K)).map Prod.snd

/-- `confidence_and_loss`, `src/weak_learner/decision_tree/decision_tree_algorithm.rs:231-268`: the hash map is turned into a parallel
iterator. -/
def ConfLoss [FloorRing K] (s : Sample K) (dist : List K) (indices : List Nat) (o : Option (K × K)) : Prop :=
  if indices = [] then o = none
  else
    match countLabels s.target dist indices [] with
    | .error _ => o = none
    | .ok counter =>
      ∃ total, Total counter total ∧ ∃ t : Split (Int × K), t.items.Perm counter ∧
        o = (t.maxBy fun p => p.2).map fun q =>
          (if 0 < total then clamp1 ((q.1 : K) * (2 * (q.2 / total) - 1)) else clamp1 (q.1 : K),
            if 0 < total then total * (1 - q.2 / total) else 0)

/-- `DecisionTree::full_tree`, `src/weak_learner/decision_tree/decision_tree_algorithm.rs:98-160`. -/
def FullTree [FloorRing K] (env : TreeEnv K) (t : DecisionTree K) (s : Sample K) (dist : List K) :
    Nat → List Nat → Option (TrainNode K) → Prop
  | 0, indices, o => ∃ a c, SumAt dist indices a ∧ ConfLoss s dist indices c ∧
    match a, c with
    | some total, some (conf, loss) => o = some (.leaf conf total loss)
    | _, _ => o = none
  | depth + 1, indices, o => ∃ a c, SumAt dist indices a ∧ ConfLoss s dist indices c ∧
    match a, c with
    | some total, some (conf, loss) =>
      if loss = 0 then o = some (.leaf conf total loss)
      else ∃ b, BestSplit env t.criterion t.bins s dist indices b ∧
        match b with
        | none => o = none
        | some (feature, threshold) =>
          match DecisionTree.splitRows ⟨feature, threshold⟩ s indices with
          | .error _ => o = none
          | .ok (l, r) =>
            if l = [] ∨ r = [] then o = some (.leaf conf total loss)
            else ∃ lt rt, FullTree env t s dist depth l lt ∧ FullTree env t s dist depth r rt ∧
              match lt, rt with
              | some ltree, some rtree => o = some (TrainNode.mkBranch ⟨feature, threshold⟩ ltree rtree conf total loss)
              | _, _ => o = none
    | _, _ => o = none

/-- `DecisionTree::produce`, `src/weak_learner/decision_tree/decision_tree_algorithm.rs:192-220`: the trees that may be returned, `none`
for a panic. -/
def Produce [FloorRing K] (env : TreeEnv K) (t : DecisionTree K) (s : Sample K) (dist : List K) (o : Option (TreeNode K)) : Prop :=
  match DecisionTree.positiveRows dist (List.range s.nSample) with
  | .error _ => o = none
  | .ok indices =>
    if indices = [] then o = none
    else ∃ x, FullTree env t s dist t.maxDepth indices x ∧ o = x.map fun tree => TreeNode.ofTrain tree.removeRedundant

end Par

namespace ParReg

open Par

variable {K : Type*} [Field K] [LinearOrder K]

/-- `best_split_at`, `src/weak_learner/regression_tree/regression_tree_algorithm.rs:285-323`: `(score, threshold)`. -/
def BestSplitAt (env : TreeEnv K) (lam : K) (pack : List (Bin K × K × K)) (o : Option (K × K)) : Prop :=
  ∃ g h, SumOf (pack.map fun p => p.2.1) g ∧ SumOf (pack.map fun p => p.2.2) h ∧
    o = (RegSplit.scan lam pack 0 0 g h env.fmin env.fmin).toOption

/-- The closure of `best_split`, `src/weak_learner/regression_tree/regression_tree_algorithm.rs:267-276`. -/
def FeatureSplit (env : TreeEnv K) (binsMap : List (String × List (Bin K))) (gradient hessian : List K) (lam : K) (idx : List Nat)
    (f : Feature K) (o : Option (K × String × K)) : Prop :=
  match HMap.get? binsMap f.name with
  | none => o = none
  | some bins =>
    match RegBins.pack bins idx f gradient hessian with
    | .error _ => o = none
    | .ok pack => ∃ r, BestSplitAt env lam pack r ∧ o = r.map fun r => (r.1, f.name, r.2)

/-- `best_split`, `src/weak_learner/regression_tree/regression_tree_algorithm.rs:257-280`. -/
def BestSplit (env : TreeEnv K) (binsMap : List (String × List (Bin K))) (s : Sample K) (gradient hessian : List K) (idx : List Nat)
    (lam : K) (o : Option (String × K)) : Prop :=
  ∃ os, List.Forall₂ (FeatureSplit env binsMap gradient hessian lam idx) s.features os ∧
    match allSome os with
    | none => o = none
    | some cands => ∃ t : Split (K × String × K), t.items = cands ∧ o = (t.maxBy fun p => p.1).map Prod.snd

/-- `prediction_and_loss`, `src/weak_learner/regression_tree/regression_tree_algorithm.rs:329-348`. -/
def PredLoss (indices : List Nat) (gradient hessian : List K) (lam : K) (o : Option (K × K)) : Prop :=
  ∃ a b, SumAt gradient indices a ∧ SumAt hessian indices b ∧
    match a, b with
    | some g, some h => if h + lam = 0 then o = none else o = some (-g / (h + lam), -(1 / 2) * g ^ 2 / (h + lam))
    | _, _ => o = none

/-- `RegressionTree::full_tree`, `src/weak_learner/regression_tree/regression_tree_algorithm.rs:101-155`. -/
def FullTree (env : TreeEnv K) (t : RegressionTree K) (s : Sample K) (gradient hessian : List K) :
    Nat → List Nat → Option (RegTrainNode K) → Prop
  | 0, indices, o => ∃ c, PredLoss indices gradient hessian t.lambdaL2 c ∧ o = c.map fun c => .leaf c.1 c.2
  | depth + 1, indices, o => ∃ c, PredLoss indices gradient hessian t.lambdaL2 c ∧
    match c with
    | none => o = none
    | some (pred, loss) =>
      if loss = 0 ∨ depth + 1 ≤ 1 then o = some (.leaf pred loss)
      else ∃ b, BestSplit env t.bins s gradient hessian indices t.lambdaL2 b ∧
        match b with
        | none => o = none
        | some (feature, threshold) =>
          match DecisionTree.splitRows ⟨feature, threshold⟩ s indices with
          | .error _ => o = none
          | .ok (l, r) =>
            if l = [] ∨ r = [] then o = some (.leaf pred loss)
            else ∃ lt rt, FullTree env t s gradient hessian depth l lt ∧ FullTree env t s gradient hessian depth r rt ∧
              match lt, rt with
              | some ltree, some rtree => o = some (RegTrainNode.mkBranch ⟨feature, threshold⟩ ltree rtree pred loss)
              | _, _ => o = none

/-- `RegressionTree::produce`, `src/weak_learner/regression_tree/regression_tree_algorithm.rs:184-209`: the trees that may be returned. -/
def Produce (env : TreeEnv K) (t : RegressionTree K) (s : Sample K) (predictions : List K) (o : Option (TreeNode K)) : Prop :=
  match t.loss.gradient predictions s.target, t.loss.hessian predictions s.target with
  | .ok gradient, .ok hessian =>
    ∃ x, FullTree env t s gradient hessian t.maxDepth (List.range t.nSample) x ∧ o = x.map RegTrainNode.toNode
  | _, _ => o = none

end ParReg

end Miniboosts
