import Verif.Model.Sample

/-! # The decision-tree weak learner: `src/weak_learner/decision_tree/*.rs`,
`src/weak_learner/common/split_rule.rs`

Not modelled: `Display`/`Debug` output, serialisation, `info`.  Rayon's parallel iterators are modelled by
their sequential results (`min_by` keeps the first minimum, `max_by` the last maximum); `Model/ParTree.lean` has the possible
parallel executions, and C89 shows when they agree.  `Rc<RefCell<_>>`
nodes are owned by exactly one parent, hence plain trees. -/

namespace Miniboosts

/-- What the code takes from the platform: the extreme `f64` values, `f64::ln`, and the order in which a
`HashMap<i64, f64>` is traversed. -/
structure TreeEnv (K : Type*) where
  fmin : K
  fmax : K
  ln : K → K
  order : List (Int × K) → List (Int × K)

/-- `Bin`, `src/weak_learner/decision_tree/bin.rs:27-41`. -/
structure Bin (K : Type*) where
  start : K
  stop : K
  deriving DecidableEq, Repr

/-- `LabelToWeight`, `src/weak_learner/common/type_and_struct.rs:8`. -/
abbrev LabelMap (K : Type*) := List (Int × K)

variable {K : Type*} [Field K] [LinearOrder K]

/-- `v[i]` on a slice, with its panic. -/
def vecAt {A : Type*} (v : List A) (i : Nat) : Except Panic A :=
  match v[i]? with
  | some a => .ok a
  | none => .error .outOfRange

/-- `Bin::contains`, `src/weak_learner/decision_tree/bin.rs:39-41`. -/
def Bin.contains (b : Bin K) (x : K) : Bool := decide (b.start ≤ x ∧ x < b.stop)

namespace Bins

/-- `EPS`, `src/weak_learner/decision_tree/bin.rs:19`. -/
def eps : K := 1 / 1000

/-- `NUM_TOLERANCE`, `src/weak_learner/decision_tree/bin.rs:22`. -/
def numTolerance : K := 1 / 10 ^ 9

/-- Minimum and maximum of the values, `src/weak_learner/decision_tree/bin.rs:101-109` and 145-153. -/
def minMax (env : TreeEnv K) (l : List K) : K × K :=
  l.foldl (fun a v => (min a.1 v, max a.2 v)) (env.fmax, env.fmin)

/-- `if min == max { min -= EPS; max += EPS; }`, `src/weak_learner/decision_tree/bin.rs:114-117` and 168-171. -/
def perturb (mm : K × K) : K × K := if mm.1 = mm.2 then (mm.1 - eps, mm.2 + eps) else mm

/-- The `while left < max` loop, `src/weak_learner/decision_tree/bin.rs:125-134` and 179-188.
`fuel` bounds the iterations; `cut_no_diverge` shows that the bound given is never reached. -/
def cutLoop (mx intercept : K) : Nat → K → Except Panic (List (Bin K))
  | 0, _ => .error .diverges
  | fuel + 1, left =>
    if left < mx then
      if |left + intercept - mx| < numTolerance then .ok [⟨left, left + intercept⟩]
      else (cutLoop mx intercept fuel (left + intercept)).map (fun bs => ⟨left, left + intercept⟩ :: bs)
    else .ok []

/-- Cutting `[min, max)` into `n_bin` pieces, `src/weak_learner/decision_tree/bin.rs:120-139` and 174-193.
For `n_bin = 0` the quotient is an infinity in the code: one bin is pushed when `min < max` (and the
assertion fails), none otherwise. -/
def cutRange (n : Nat) (mm : K × K) : Except Panic (List (Bin K)) :=
  if n = 0 then (if mm.1 < mm.2 then .error .assertion else .ok [])
  else
    match cutLoop mm.2 ((mm.2 - mm.1) / (n : K)) (n + 1) mm.1 with
    | .error e => .error e
    | .ok bins => if bins.length = n then .ok bins else .error .assertion

/-- `Bins::cut_dense`, `src/weak_learner/decision_tree/bin.rs:99-140`. -/
def cutDense (env : TreeEnv K) (f : DenseFeature K) (n : Nat) : Except Panic (List (Bin K)) :=
  cutRange n (perturb (minMax env f.sample))

/-- Lines 156-163 of `Bins::cut_sparse`, `src/weak_learner/decision_tree/bin.rs:143-194`: absent rows are zeros. -/
def withZero (hasZero : Bool) (mm : K × K) : K × K :=
  (if 0 < mm.1 ∧ hasZero = true then 0 else mm.1, if mm.2 < 0 ∧ hasZero = true then 0 else mm.2)

/-- `Bins::cut_sparse`, `src/weak_learner/decision_tree/bin.rs:143-194`. -/
def cutSparse (env : TreeEnv K) (f : SparseFeature K) (n : Nat) : Except Panic (List (Bin K)) :=
  cutRange n (perturb (withZero f.hasZero (minMax env (f.sample.map Prod.snd))))

/-- `bins.0.last_mut().unwrap().0.end = v`. -/
def setLastStop (v : K) : List (Bin K) → List (Bin K)
  | [] => []
  | [b] => [{ b with stop := v }]
  | b :: l => b :: setLastStop v l

/-- `Bins::cut`, `src/weak_learner/decision_tree/bin.rs:58-71`. -/
def cut (env : TreeEnv K) (f : Feature K) (n : Nat) : Except Panic (List (Bin K)) :=
  match (match f with
    | .dense f => cutDense env f n
    | .sparse f => cutSparse env f n) with
  | .error e => .error e
  | .ok [] => .error .unwrapNone
  | .ok (b :: l) => .ok (setLastStop env.fmax ({ b with start := env.fmin } :: l))

/-- The `binary_search_by` of `Bins::pack`, `src/weak_learner/decision_tree/bin.rs:214-220`. -/
def position (bins : List (Bin K)) (x : K) : Option Nat :=
  binarySearchBy (fun b => if b.contains x then .eq else compare b.start x) bins

/-- The loop of `Bins::pack`, `src/weak_learner/decision_tree/bin.rs:208-223`. -/
def packLoop [FloorRing K] (bins : List (Bin K)) (feat : Feature K) (y dist : List K) :
    List Nat → List (LabelMap K) → Except Panic (List (LabelMap K))
  | [], packed => .ok packed
  | i :: is, packed =>
    match feat.index i, vecAt y i, vecAt dist i with
    | .ok xi, .ok yi, .ok di =>
      match position bins xi with
      | none => .error .unwrapNone
      | some pos =>
        match packed[pos]? with
        | none => .error .outOfRange
        | some m => packLoop bins feat y dist is (packed.set pos (HMap.addTo m (asI32 yi) di))
    | .error e, _, _ => .error e
    | _, .error e, _ => .error e
    | _, _, .error e => .error e

/-- `prev_weight.par_iter_mut().for_each(|(_, v)| { *v /= total_weight; })`. -/
def divide (total : K) (m : LabelMap K) : LabelMap K := m.map (fun p => (p.1, p.2 / total))

/-- The loop of `remove_zero_weight_pack_and_normalize`, `src/weak_learner/decision_tree/bin.rs:278-291`. -/
def mergeLoop (total : K) : Bin K → LabelMap K → List (Bin K × LabelMap K) → List (Bin K × LabelMap K)
  | prev, pw, [] => [(prev, pw)]
  | prev, pw, (nb, nw) :: rest =>
    (⟨prev.start, (prev.stop + nb.start) / 2⟩, pw)
      :: mergeLoop total ⟨(prev.stop + nb.start) / 2, nb.stop⟩ (divide total nw) rest

/-- `Bins::remove_zero_weight_pack_and_normalize`, `src/weak_learner/decision_tree/bin.rs:247-294`. -/
def removeZeroWeight (bins : List (Bin K)) (pack : List (LabelMap K)) :
    Except Panic (List (Bin K × LabelMap K)) :=
  let total := (pack.map HMap.total).sum
  if 0 < total then
    match bins.zip pack with
    | [] => .error .unwrapNone
    | (b, w) :: rest =>
      let rest := rest.filter (fun p => !p.2.isEmpty)
      if w.isEmpty then
        match rest with
        | [] => .error .unwrapNone
        | (nb, nw) :: rest => .ok (mergeLoop total ⟨b.start, nb.stop⟩ (divide total nw) rest)
      else .ok (mergeLoop total b (divide total w) rest)
  else .error .assertion

/-- `Bins::pack`, `src/weak_learner/decision_tree/bin.rs:197-225`. -/
def pack [FloorRing K] (bins : List (Bin K)) (indices : List Nat) (feat : Feature K) (y dist : List K) :
    Except Panic (List (Bin K × LabelMap K)) :=
  match packLoop bins feat y dist indices (List.replicate bins.length []) with
  | .error e => .error e
  | .ok packed => removeZeroWeight bins packed

end Bins

/-- `Criterion`, `src/weak_learner/decision_tree/criterion.rs:75-85`. -/
inductive Criterion where
  | entropy
  | edge
  | gini
  | twoing
  deriving DecidableEq, Repr

namespace Criterion

/-- `entropic_impurity`, `src/weak_learner/decision_tree/criterion.rs:358-368`. -/
def entropicImpurity (env : TreeEnv K) (m : LabelMap K) : K :=
  if HMap.total m ≤ 0 ∨ m.isEmpty = true then 0
  else (m.map (fun p => if p.2 / HMap.total m ≤ 0 then 0
    else -(p.2 / HMap.total m) * env.ln (p.2 / HMap.total m))).sum

/-- `gini_impurity`, `src/weak_learner/decision_tree/criterion.rs:373-382`. -/
def giniImpurity (m : LabelMap K) : K :=
  if HMap.total m ≤ 0 ∨ m.isEmpty = true then 0
  else max (1 - (m.map (fun p => (p.2 / HMap.total m) ^ 2)).sum) 0

/-- `twoing_score`, `src/weak_learner/decision_tree/criterion.rs:387-410`. -/
def twoingScore (labels : List Int) (left right : LabelMap K) : Except Panic K :=
  if HMap.total left = 0 ∨ HMap.total right = 0 then .ok 0
  else if 0 < HMap.total left + HMap.total right then
    .ok ((labels.map (fun y => |(HMap.get? left y).getD 0 / HMap.total left
        - (HMap.get? right y).getD 0 / HMap.total right|)).sum ^ 2
      * HMap.total left * HMap.total right / (2 * (HMap.total left + HMap.total right)) ^ 2)
  else .error .assertion

/-- The loop collecting all label weights, `src/weak_learner/decision_tree/criterion.rs:192-198`
(also 272-278, 318-325); the variable `right_weight_sum` is never read. -/
def collectWeights : List (Int × K) → LabelMap K → LabelMap K
  | [], m => m
  | p :: l, m => collectWeights l (HMap.addTo m p.1 p.2)

/-- All label weights of a pack. -/
def allWeights (pack : List (Bin K × LabelMap K)) : LabelMap K := collectWeights (pack.flatMap Prod.snd) []

/-- `weight_sum`, `src/weak_learner/decision_tree/criterion.rs:182-184` and 262-264. -/
def weightSum (pack : List (Bin K × LabelMap K)) : K := (pack.map (fun p => HMap.total p.2)).sum

/-- `let entry = right_weight.get_mut(&y).unwrap(); *entry -= w;`. -/
def subFrom (m : LabelMap K) (y : Int) (w : K) : Except Panic (LabelMap K) :=
  match HMap.get? m y with
  | none => .error .unwrapNone
  | some v => .ok (HMap.insert m y (v - w))

/-- The running state of the two impurity criteria. -/
structure ScanState (K : Type*) where
  left : LabelMap K
  leftSum : K
  right : LabelMap K
  bestScore : K
  bestThreshold : K

/-- Moving one bin's weights from right to left for the entropy criterion,
`src/weak_learner/decision_tree/criterion.rs:204-211`. -/
def moveEntropy : LabelMap K → ScanState K → Except Panic (ScanState K)
  | [], st => .ok st
  | (y, w) :: l, st =>
    match subFrom st.right y w with
    | .error e => .error e
    | .ok right => moveEntropy l { st with left := HMap.addTo st.left y w, leftSum := st.leftSum + w, right := right }

/-- Moving one bin's weights for the Gini criterion, `src/weak_learner/decision_tree/criterion.rs:284-294`. -/
def moveGini : LabelMap K → ScanState K → Except Panic (ScanState K)
  | [], st => .ok st
  | (y, w) :: l, st =>
    match HMap.get? st.right y with
    | none => .error .unwrapNone
    | some v =>
      moveGini l { st with
        left := HMap.addTo st.left y w
        leftSum := st.leftSum + w
        right := if v - w ≤ 0 then HMap.remove (HMap.insert st.right y (v - w)) y else HMap.insert st.right y (v - w) }

/-- The main loop of `split_by_entropy` / `split_by_gini`, `src/weak_learner/decision_tree/criterion.rs:203-224`
and 283-307: `move` and `impurity` are the parts in which the two differ. -/
def impurityLoop (move : LabelMap K → ScanState K → Except Panic (ScanState K)) (impurity : LabelMap K → K)
    (weightSum : K) : List (Bin K × LabelMap K) → ScanState K → Except Panic (ScanState K)
  | [], st => .ok st
  | (bin, map) :: rest, st =>
    match move map st with
    | .error e => .error e
    | .ok st =>
      let lp := st.leftSum / weightSum
      let rp := max (1 - lp) 0
      let score := lp * impurity st.left + rp * impurity st.right
      impurityLoop move impurity weightSum rest
        (if score < st.bestScore then { st with bestScore := score, bestThreshold := bin.stop } else st)

/-- `split_by_entropy`, `src/weak_learner/decision_tree/criterion.rs:179-227`: `(threshold, score)`. -/
def splitByEntropy (env : TreeEnv K) (pack : List (Bin K × LabelMap K)) : Except Panic (K × K) :=
  (impurityLoop moveEntropy (entropicImpurity env) (weightSum pack) pack
    ⟨[], 0, allWeights pack, entropicImpurity env (allWeights pack), env.fmin⟩).map
    (fun st => (st.bestThreshold, st.bestScore))

/-- `split_by_gini`, `src/weak_learner/decision_tree/criterion.rs:261-310`. -/
def splitByGini (env : TreeEnv K) (pack : List (Bin K × LabelMap K)) : Except Panic (K × K) :=
  (impurityLoop moveGini giniImpurity (weightSum pack) pack
    ⟨[], 0, allWeights pack, giniImpurity (allWeights pack), env.fmin⟩).map
    (fun st => (st.bestThreshold, st.bestScore))

/-- `map.iter().map(|(y, d)| *y as f64 * d).sum()`. -/
def signedSum (m : LabelMap K) : K := (m.map (fun p => (p.1 : K) * p.2)).sum

/-- The loop of `split_by_edge`, `src/weak_learner/decision_tree/criterion.rs:245-255`;
arguments: `edge`, `best_edge`, `best_threshold`. -/
def edgeLoop : List (Bin K × LabelMap K) → K → K → K → K × K
  | [], _, be, bt => (bt, be)
  | (bin, map) :: rest, e, be, bt =>
    if be < |e - 2 * signedSum map| then
      edgeLoop rest (e - 2 * signedSum map) |e - 2 * signedSum map| bin.stop
    else edgeLoop rest (e - 2 * signedSum map) be bt

/-- `split_by_edge`, `src/weak_learner/decision_tree/criterion.rs:230-258`. -/
def splitByEdge (env : TreeEnv K) (pack : List (Bin K × LabelMap K)) : K × K :=
  edgeLoop pack (pack.map (fun p => signedSum p.2)).sum |(pack.map (fun p => signedSum p.2)).sum| env.fmin

/-- The set of labels of a pack, `src/weak_learner/decision_tree/criterion.rs:317-325`. -/
def labelSet (pack : List (Bin K × LabelMap K)) : List Int := ((pack.flatMap Prod.snd).map Prod.fst).dedup

/-- Moving one bin's weights for the twoing criterion, `src/weak_learner/decision_tree/criterion.rs:332-340`.
The variable tested by `if *entry <= 0f64` is the entry of `left_weight`. -/
def moveTwoing : LabelMap K → LabelMap K × LabelMap K → LabelMap K × LabelMap K
  | [], st => st
  | (y, w) :: l, (left, right) =>
    let left := HMap.addTo left y w
    let right := match HMap.get? right y with
      | none => right
      | some v => HMap.insert right y (v - w)
    moveTwoing l (left, if (HMap.get? left y).getD 0 ≤ 0 then HMap.remove right y else right)

/-- The main loop of `split_by_twoing`, `src/weak_learner/decision_tree/criterion.rs:330-350`. -/
def twoingLoop (labels : List Int) : List (Bin K × LabelMap K) → LabelMap K × LabelMap K → K → K →
    Except Panic (K × K)
  | [], _, bs, bt => .ok (bt, bs)
  | (bin, map) :: rest, st, bs, bt =>
    match twoingScore labels (moveTwoing map st).1 (moveTwoing map st).2 with
    | .error e => .error e
    | .ok score =>
      if bs < score then twoingLoop labels rest (moveTwoing map st) score bin.stop
      else twoingLoop labels rest (moveTwoing map st) bs bt

/-- `split_by_twoing`, `src/weak_learner/decision_tree/criterion.rs:313-353`. -/
def splitByTwoing (env : TreeEnv K) (pack : List (Bin K × LabelMap K)) : Except Panic (K × K) :=
  twoingLoop (labelSet pack) pack ([], allWeights pack) 0 env.fmin

/-- The search over one feature: `(threshold, score)`. -/
def splitBy (env : TreeEnv K) : Criterion → List (Bin K × LabelMap K) → Except Panic (K × K)
  | entropy, pack => splitByEntropy env pack
  | edge, pack => .ok (splitByEdge env pack)
  | gini, pack => splitByGini env pack
  | twoing, pack => splitByTwoing env pack

/-- Rayon's `min_by`: the first minimum. -/
def minBy {A : Type*} (key : A → K) : List A → Option A
  | [] => none
  | a :: l => some (l.foldl (fun best x => if key x < key best then x else best) a)

/-- Rayon's `max_by`: the last maximum. -/
def maxBy {A : Type*} (key : A → K) : List A → Option A
  | [] => none
  | a :: l => some (l.foldl (fun best x => if key x < key best then best else x) a)

/-- The closure mapped over the features in `Criterion::best_split`,
`src/weak_learner/decision_tree/criterion.rs:104-175`: `(score, name, threshold)`. -/
def featureSplit [FloorRing K] (env : TreeEnv K) (c : Criterion) (binsMap : List (String × List (Bin K)))
    (s : Sample K) (dist : List K) (idx : List Nat) (f : Feature K) : Except Panic (K × String × K) :=
  match HMap.get? binsMap f.name with
  | none => .error .unwrapNone
  | some bins =>
    match Bins.pack bins idx f s.target dist with
    | .error e => .error e
    | .ok pack => (splitBy env c pack).map (fun r => (r.2, f.name, r.1))

/-- `Criterion::best_split`, `src/weak_learner/decision_tree/criterion.rs:104-175`. -/
def bestSplit [FloorRing K] (env : TreeEnv K) (c : Criterion) (binsMap : List (String × List (Bin K)))
    (s : Sample K) (dist : List K) (idx : List Nat) : Except Panic (String × K) :=
  match Sample.mapAll (featureSplit env c binsMap s dist idx) s.features with
  | .error e => .error e
  | .ok cands =>
    let best : Option (K × String × K) := match c with
      | entropy => minBy (fun p => p.1) cands
      | gini => minBy (fun p => p.1) cands
      | edge => maxBy (fun p => p.1) cands
      | twoing => maxBy (fun p => p.1) cands
    match best with
    | none => .error .unwrapNone
    | some p => .ok p.2

end Criterion

/-- `Splitter`, `src/weak_learner/common/split_rule.rs:16-20`. -/
structure Splitter (K : Type*) where
  feature : String
  threshold : K
  deriving DecidableEq, Repr

/-- `Splitter::split`, `src/weak_learner/common/split_rule.rs:36-42`; `true` stands for `LR::Left`. -/
def Splitter.goesLeft (r : Splitter K) (s : Sample K) (row : Nat) : Except Panic Bool :=
  match s.byName r.feature with
  | .error e => .error e
  | .ok f => (f.index row).map (fun v => decide (v < r.threshold))

/-- `TrainNode`, `src/weak_learner/decision_tree/train_node.rs:22-83`. -/
inductive TrainNode (K : Type*) where
  | leaf (confidence totalWeight lossAsLeaf : K)
  | branch (rule : Splitter K) (left right : TrainNode K) (confidence totalWeight lossAsLeaf : K) (leaves : Nat)
  deriving Repr

namespace TrainNode

/-- `TrainNode::leaves`, `src/weak_learner/decision_tree/train_node.rs:167-172`. -/
def leavesOf : TrainNode K → Nat
  | leaf .. => 1
  | branch (leaves := n) .. => n

/-- `TrainNode::branch`, `src/weak_learner/decision_tree/train_node.rs:129-153`. -/
def mkBranch (rule : Splitter K) (left right : TrainNode K) (confidence totalWeight lossAsLeaf : K) : TrainNode K :=
  branch rule left right confidence totalWeight lossAsLeaf (left.leavesOf + right.leavesOf)

/-- `TrainNode::is_leaf`, `src/weak_learner/decision_tree/train_node.rs:157-162`. -/
def isLeaf : TrainNode K → Bool
  | leaf .. => true
  | branch .. => false

/-- `TrainNode::node_misclassification_cost`, `src/weak_learner/decision_tree/train_node.rs:177-184`
(and 66-71, 86-91). -/
def cost : TrainNode K → K
  | leaf _ w l => l * w
  | branch _ _ _ _ w l _ => l * w

/-- `TrainNode::remove_redundant_nodes`, `src/weak_learner/decision_tree/train_node.rs:191-230`. -/
def removeRedundant : TrainNode K → TrainNode K
  | leaf c w l => leaf c w l
  | branch rule left right c w l n =>
    if left.isLeaf = false then branch rule left.removeRedundant right c w l n
    else if right.isLeaf = false then branch rule left right.removeRedundant c w l n
    else if l * w = left.cost + right.cost then leaf c w l
    else branch rule left.removeRedundant right.removeRedundant c w l n

end TrainNode

/-- `Node`, `src/weak_learner/decision_tree/node.rs:18-68`; also `DecisionTreeClassifier`
(`decision_tree_classifier.rs:15-17`), a wrapper. -/
inductive TreeNode (K : Type*) where
  | leaf (confidence : K)
  | branch (rule : Splitter K) (left right : TreeNode K)
  deriving DecidableEq, Repr

namespace TreeNode

/-- `From<TrainNode> for Node`, `src/weak_learner/decision_tree/node.rs:105-117` (and 72-102). -/
def ofTrain : TrainNode K → TreeNode K
  | .leaf c _ _ => leaf c
  | .branch rule left right _ _ _ _ => branch rule (ofTrain left) (ofTrain right)

/-- `Classifier for Node`, `src/weak_learner/decision_tree/node.rs:120-147`. -/
def confidence (s : Sample K) (row : Nat) : TreeNode K → Except Panic K
  | leaf c => .ok c
  | branch rule left right =>
    match rule.goesLeft s row with
    | .error e => .error e
    | .ok true => left.confidence s row
    | .ok false => right.confidence s row

/-- The lines of a DOT file, `src/weak_learner/decision_tree/node.rs:149-191`, before formatting. -/
inductive DotLine (K : Type*) where
  | test (id : Nat) (rule : Splitter K)
  | box (id : Nat) (confidence : K)
  | yes (parent child : Nat)
  | no (parent child : Nat)
  deriving DecidableEq, Repr

/-- `Node::to_dot_info`, `src/weak_learner/decision_tree/node.rs:149-191`: the lines and the next free id. -/
def toDotInfo (id : Nat) : TreeNode K → List (DotLine K) × Nat
  | leaf c => ([.box id c], id + 1)
  | branch rule left right =>
    let l := left.toDotInfo (id + 1)
    let r := right.toDotInfo l.2
    (l.1 ++ [.test id rule] ++ r.1 ++ [.yes id (id + 1), .no id l.2], r.2)

end TreeNode

/-- `target[i] as i64`, `src/weak_learner/decision_tree/decision_tree_algorithm.rs:240`. -/
def asI64 [FloorRing K] (y : K) : Int := max (-9223372036854775808) (min 9223372036854775807 (trunc y))

/-- The counting loop of `confidence_and_loss`, `src/weak_learner/decision_tree/decision_tree_algorithm.rs:239-243`. -/
def countLabels [FloorRing K] (target dist : List K) : List Nat → LabelMap K → Except Panic (LabelMap K)
  | [], m => .ok m
  | i :: is, m =>
    match vecAt target i, vecAt dist i with
    | .ok y, .ok d => countLabels target dist is (HMap.addTo m (asI64 y) d)
    | .error e, _ => .error e
    | _, .error e => .error e

/-- `f64::clamp(-1, 1)`. -/
def clamp1 (x : K) : K := max (-1) (min x 1)

/-- `confidence_and_loss`, `src/weak_learner/decision_tree/decision_tree_algorithm.rs:231-268`. -/
def confidenceAndLoss [FloorRing K] (env : TreeEnv K) (s : Sample K) (dist : List K) (indices : List Nat) :
    Except Panic (K × K) :=
  if indices = [] then .error .assertion
  else
    match countLabels s.target dist indices [] with
    | .error e => .error e
    | .ok counter =>
      let total := HMap.total counter
      match Criterion.maxBy (fun p => p.2) (env.order counter) with
      | none => .error .unwrapNone
      | some (label, p) =>
        .ok (if 0 < total then clamp1 ((label : K) * (2 * (p / total) - 1)) else clamp1 (label : K),
          if 0 < total then total * (1 - p / total) else 0)

/-- `DecisionTree`, `src/weak_learner/decision_tree/decision_tree_algorithm.rs:73-77`. -/
structure DecisionTree (K : Type*) where
  bins : List (String × List (Bin K))
  criterion : Criterion
  maxDepth : Nat

namespace DecisionTree

variable [FloorRing K]

/-- `indices.par_iter().map(|i| dist[i]).sum()`, `src/weak_learner/decision_tree/decision_tree_algorithm.rs:107-110`. -/
def sumDist (dist : List K) : List Nat → Except Panic K
  | [] => .ok 0
  | i :: is =>
    match vecAt dist i with
    | .error e => .error e
    | .ok d => (sumDist dist is).map (fun r => d + r)

omit [FloorRing K] in
/-- The loop splitting the rows, `src/weak_learner/decision_tree/decision_tree_algorithm.rs:139-144`. -/
def splitRows (rule : Splitter K) (s : Sample K) : List Nat → Except Panic (List Nat × List Nat)
  | [] => .ok ([], [])
  | i :: is =>
    match rule.goesLeft s i with
    | .error e => .error e
    | .ok b => (splitRows rule s is).map (fun r => if b then (i :: r.1, r.2) else (r.1, i :: r.2))

/-- `DecisionTree::full_tree`, `src/weak_learner/decision_tree/decision_tree_algorithm.rs:98-160`. -/
def fullTree (env : TreeEnv K) (t : DecisionTree K) (s : Sample K) (dist : List K) :
    Nat → List Nat → Except Panic (TrainNode K)
  | depth, indices =>
    match sumDist dist indices with
    | .error e => .error e
    | .ok total =>
      match confidenceAndLoss env s dist indices with
      | .error e => .error e
      | .ok (conf, loss) =>
        match depth with
        | 0 => .ok (.leaf conf total loss)
        | depth + 1 =>
          if loss = 0 then .ok (.leaf conf total loss)
          else
            match t.criterion.bestSplit env t.bins s dist indices with
            | .error e => .error e
            | .ok (feature, threshold) =>
              match splitRows ⟨feature, threshold⟩ s indices with
              | .error e => .error e
              | .ok (l, r) =>
                if l = [] ∨ r = [] then .ok (.leaf conf total loss)
                else
                  match fullTree env t s dist depth l with
                  | .error e => .error e
                  | .ok ltree =>
                    match fullTree env t s dist depth r with
                    | .error e => .error e
                    | .ok rtree => .ok (TrainNode.mkBranch ⟨feature, threshold⟩ ltree rtree conf total loss)

omit [FloorRing K] in
/-- `(0..n_sample).filter(|&i| dist[i] > 0f64)`, `src/weak_learner/decision_tree/decision_tree_algorithm.rs:197-198`. -/
def positiveRows (dist : List K) : List Nat → Except Panic (List Nat)
  | [] => .ok []
  | i :: is =>
    match vecAt dist i with
    | .error e => .error e
    | .ok d => (positiveRows dist is).map (fun r => if 0 < d then i :: r else r)

/-- `DecisionTree::produce`, `src/weak_learner/decision_tree/decision_tree_algorithm.rs:192-220`. -/
def produce (env : TreeEnv K) (t : DecisionTree K) (s : Sample K) (dist : List K) : Except Panic (TreeNode K) :=
  match positiveRows dist (List.range s.nSample) with
  | .error e => .error e
  | .ok indices =>
    if indices = [] then .error .assertion
    else
      match fullTree env t s dist t.maxDepth indices with
      | .error e => .error e
      | .ok tree => .ok (TreeNode.ofTrain tree.removeRedundant)

end DecisionTree

/-- `DecisionTreeBuilder`, `src/weak_learner/decision_tree/builder.rs:28-35`. -/
structure DecisionTreeBuilder (K : Type*) where
  sample : Sample K
  nBins : List (String × Nat)
  maxDepth : Nat
  criterion : Criterion

namespace DecisionTreeBuilder

/-- `DecisionTreeBuilder::new`, `src/weak_learner/decision_tree/builder.rs:46-60`. -/
def new (s : Sample K) : DecisionTreeBuilder K :=
  { sample := s, nBins := HMap.collect (s.features.map (fun f => (f.name, min f.distinctValueCount 255))), maxDepth := 2, criterion := .entropy }

omit [Field K] [LinearOrder K] in
/-- `DecisionTreeBuilder::max_depth`, `src/weak_learner/decision_tree/builder.rs:64-69`. -/
def setMaxDepth (b : DecisionTreeBuilder K) (depth : Nat) : Except Panic (DecisionTreeBuilder K) :=
  if 0 < depth then .ok { b with maxDepth := depth } else .error .assertion

omit [Field K] [LinearOrder K] in
/-- `DecisionTreeBuilder::criterion`, `src/weak_learner/decision_tree/builder.rs:76-79`. -/
def setCriterion (b : DecisionTreeBuilder K) (c : Criterion) : DecisionTreeBuilder K := { b with criterion := c }

omit [Field K] [LinearOrder K] in
/-- `DecisionTreeBuilder::set_nbins`, `src/weak_learner/decision_tree/builder.rs:84-94`. -/
def setNbins (b : DecisionTreeBuilder K) (name : String) (n : Nat) : Except Panic (DecisionTreeBuilder K) :=
  match HMap.get? b.nBins name with
  | none => .error .assertion
  | some _ => .ok { b with nBins := HMap.insert b.nBins name n }

/-- The closure of `DecisionTreeBuilder::build`, `src/weak_learner/decision_tree/builder.rs:99-116`. -/
def cutFeature (env : TreeEnv K) (b : DecisionTreeBuilder K) (f : Feature K) :
    Except Panic (String × List (Bin K)) :=
  match HMap.get? b.nBins f.name with
  | none => .error .unwrapNone
  | some n => (Bins.cut env f n).map (fun bins => (f.name, bins))

/-- `DecisionTreeBuilder::build`, `src/weak_learner/decision_tree/builder.rs:99-116`. -/
def build (env : TreeEnv K) (b : DecisionTreeBuilder K) : Except Panic (DecisionTree K) :=
  match Sample.mapAll (cutFeature env b) b.sample.features with
  | .error e => .error e
  | .ok bins => .ok { bins := HMap.collect bins, criterion := b.criterion, maxDepth := b.maxDepth }

end DecisionTreeBuilder

end Miniboosts
