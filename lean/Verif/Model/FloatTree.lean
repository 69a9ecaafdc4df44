import Verif.Model.Float
import Verif.Model.ParTree

/-! # The tree learners computed with `f64`

`Model/DecisionTree.lean` computes exactly; here the decision tree, from the cutting of the columns into bins to the finished tree, is
computed with binary64 numbers (`Model/Float.lean`).  The cells and labels of the sample are finite numbers, hence real here.  As in
`Model/ParTree.lean` a parallel iterator divides its items arbitrarily and a traversal of a hash map visits the entries in any order;
`none` stands for a panic. -/

namespace Miniboosts

namespace F64

/-- `f64::MAX`; `f64::MIN` is its negation. -/
noncomputable def maxVal : ℝ := (2 ^ 53 - 1) * 2 ^ 971

/-- `a.max(b)`: a NaN is ignored. -/
noncomputable def fmax : F64 → F64 → F64
  | nan, b => b
  | a, nan => a
  | fin a, fin b => fin (max a b)
  | inf s, inf t => inf (s && t)
  | inf s, fin b => if s then fin b else inf false
  | fin a, inf t => if t then fin a else inf false

/-- `a.partial_cmp(&b)`, `.unwrap()` fails when it is `none`. -/
noncomputable def partialCmp (a b : F64) : Option Ordering :=
  open Classical in if Lt a b then some .lt else if Lt b a then some .gt else if Le a b then some .eq else none

/-- `a.powi(2)`. -/
noncomputable def sq (a : F64) : F64 := mul a a

/-- `i as f64` for an integer. -/
noncomputable def ofInt (i : Int) : F64 := rnd (i : ℝ)

open Classical in
/-- `a.clamp(-1.0, 1.0)`: a NaN stays NaN. -/
noncomputable def clamp1 (a : F64) : F64 := if Lt a (fin (-1)) then fin (-1) else if Lt (fin 1) a then fin 1 else a

end F64

namespace FTree

open F64

/-- `EPS`, `src/weak_learner/decision_tree/bin.rs:19`: the literal `0.001`. -/
noncomputable def eps : F64 := rnd (1 / 1000)

/-- `NUM_TOLERANCE`, `src/weak_learner/decision_tree/bin.rs:22`: the literal `1e-9`. -/
noncomputable def numTolerance : F64 := rnd (1 / 10 ^ 9)

/-- Minimum and maximum of the values, `src/weak_learner/decision_tree/bin.rs:101-109` and 145-153; nothing is rounded. -/
noncomputable def minMax (l : List ℝ) : ℝ × ℝ := l.foldl (fun a v => (min a.1 v, max a.2 v)) (maxVal, -maxVal)

/-- `if min == max { min -= EPS; max += EPS; }`, `src/weak_learner/decision_tree/bin.rs:114-117` and 168-171. -/
noncomputable def perturb (mm : ℝ × ℝ) : F64 × F64 :=
  if mm.1 = mm.2 then (sub (fin mm.1) eps, add (fin mm.2) eps) else (fin mm.1, fin mm.2)

open Classical in
/-- The `while left < max` loop, `src/weak_learner/decision_tree/bin.rs:125-134` and 179-188.  `none`: it is not over after `fuel`
rounds. -/
noncomputable def cutLoop (mx intercept : F64) : Nat → F64 → Option (List (Bin F64))
  | 0, _ => none
  | fuel + 1, left =>
    if Lt left mx then
      let right := add left intercept
      if Lt (abs (sub right mx)) numTolerance then some [⟨left, right⟩]
      else (cutLoop mx intercept fuel right).map fun bs => ⟨left, right⟩ :: bs
    else some []

/-- Cutting `[min, max)` into `n_bin` pieces, `src/weak_learner/decision_tree/bin.rs:120-139` and 174-193. -/
noncomputable def cutRange (fuel n : Nat) (mm : F64 × F64) : Option (Except Panic (List (Bin F64))) :=
  (cutLoop mm.2 (div (sub mm.2 mm.1) (ofInt n)) fuel mm.1).map fun bins => if bins.length = n then .ok bins else .error .assertion

/-- `Bins::cut`, `src/weak_learner/decision_tree/bin.rs:58-71`, with `cut_dense` (99-140) and `cut_sparse` (143-194); the code of
`src/weak_learner/regression_tree/bin.rs:58-194` is the same. -/
noncomputable def cut (fuel : Nat) (f : Feature ℝ) (n : Nat) : Option (Except Panic (List (Bin F64))) :=
  (cutRange fuel n (perturb (match f with
    | .dense f => minMax f.sample
    | .sparse f => Bins.withZero f.hasZero (minMax (f.sample.map Prod.snd))))).map fun r =>
      match r with
      | .error e => .error e
      | .ok [] => .error .unwrapNone
      | .ok (b :: l) => .ok (Bins.setLastStop (fin maxVal) ({ b with start := fin (-maxVal) } :: l))

/-- `DecisionTree`, `src/weak_learner/decision_tree/decision_tree_algorithm.rs:73-77`. -/
structure Tree where
  bins : List (String × List (Bin F64))
  criterion : Criterion
  maxDepth : Nat

/-- All the features' bins; `none` as soon as one of the loops is not over, a panic when one of them panics. -/
noncomputable def cutAll (fuel : Nat) (nBins : List (String × Nat)) : List (Feature ℝ) → Option (Except Panic (List (String × List (Bin F64))))
  | [] => some (.ok [])
  | f :: fs =>
    match HMap.get? nBins f.name with
    | none => some (.error .unwrapNone)
    | some n =>
      match cut fuel f n with
      | none => none
      | some (.error e) => some (.error e)
      | some (.ok bins) => (cutAll fuel nBins fs).map fun r => r.map fun rest => (f.name, bins) :: rest

/-- `DecisionTreeBuilder::build`, `src/weak_learner/decision_tree/builder.rs:99-116`; `none`: not over after `fuel` rounds of one of the
loops cutting a column. -/
noncomputable def build (fuel : Nat) (b : DecisionTreeBuilder ℝ) : Option (Except Panic Tree) :=
  (cutAll fuel b.nBins b.sample.features).map fun r =>
    r.map fun bins => { bins := HMap.collect bins, criterion := b.criterion, maxDepth := b.maxDepth }

/-! ## Packing -/

open Classical in
/-- The `binary_search_by` of `Bins::pack`, `src/weak_learner/decision_tree/bin.rs:214-220`; the bounds of the bins are never NaN, so that
`partial_cmp(..).unwrap()` succeeds. -/
noncomputable def position (bins : List (Bin F64)) (x : ℝ) : Option Nat :=
  binarySearchBy (fun b => if Le b.start (fin x) ∧ Lt (fin x) b.stop then .eq else (partialCmp b.start (fin x)).getD .gt) bins

/-- `*map.entry(y).or_insert(0.0) += w`. -/
noncomputable def addTo (m : LabelMap F64) (y : Int) (w : F64) : LabelMap F64 :=
  match m with
  | [] => [(y, add (fin 0) w)]
  | (y', v) :: m => if y' = y then (y', add v w) :: m else (y', v) :: addTo m y w

/-- The loop of `Bins::pack`, `src/weak_learner/decision_tree/bin.rs:208-223`. -/
noncomputable def packLoop (bins : List (Bin F64)) (feat : Feature ℝ) (y : List ℝ) (dist : List F64) :
    List Nat → List (LabelMap F64) → Option (List (LabelMap F64))
  | [], packed => some packed
  | i :: is, packed =>
    match feat.index i, y[i]?, dist[i]? with
    | .ok xi, some yi, some di =>
      match position bins xi with
      | none => none
      | some pos =>
        match packed[pos]? with
        | none => none
        | some m => packLoop bins feat y dist is (packed.set pos (addTo m (asI32 yi) di))
    | _, _, _ => none

/-- `v.par_iter().sum()`. -/
def SumOf (xs : List F64) (r : F64) : Prop := ∃ t : Split F64, t.items = xs ∧ r = t.sum add (fin 0)

/-- `map.values().sum()` on a hash map. -/
def Total (m : LabelMap F64) (r : F64) : Prop := ∃ l : LabelMap F64, l.Perm m ∧ r = (l.map Prod.snd).foldl add (fin 0)

/-- `prev_weight.par_iter_mut().for_each(|(_, v)| { *v /= total_weight; })`. -/
def Divide (total : F64) (m m' : LabelMap F64) : Prop := ParMap (fun p => (p.1, div p.2 total)) m m'

/-- The loop of `remove_zero_weight_pack_and_normalize`, `src/weak_learner/decision_tree/bin.rs:278-291`. -/
def Merge (total : F64) : Bin F64 → LabelMap F64 → List (Bin F64 × LabelMap F64) → List (Bin F64 × LabelMap F64) → Prop
  | prev, pw, [], res => res = [(prev, pw)]
  | prev, pw, (nb, nw) :: rest, res =>
    ∃ nw' res', Divide total nw nw' ∧ Merge total ⟨div (add prev.stop nb.start) (fin 2), nb.stop⟩ nw' rest res' ∧
      res = (⟨prev.start, div (add prev.stop nb.start) (fin 2)⟩, pw) :: res'

/-- `Bins::remove_zero_weight_pack_and_normalize`, `src/weak_learner/decision_tree/bin.rs:247-294`. -/
def RemoveZero (bins : List (Bin F64)) (pack : List (LabelMap F64)) (o : Option (List (Bin F64 × LabelMap F64))) : Prop :=
  ∃ totals total, List.Forall₂ Total pack totals ∧ SumOf totals total ∧
    ((¬ Lt (fin 0) total ∧ o = none) ∨
      (Lt (fin 0) total ∧
        match bins.zip pack with
        | [] => o = none
        | (b, w) :: rest =>
          if w.isEmpty then
            match rest.filter fun p => !p.2.isEmpty with
            | [] => o = none
            | (nb, nw) :: rest => ∃ nw' res, Divide total nw nw' ∧ Merge total ⟨b.start, nb.stop⟩ nw' rest res ∧ o = some res
          else ∃ w' res, Divide total w w' ∧ Merge total b w' (rest.filter fun p => !p.2.isEmpty) res ∧ o = some res))

/-- `Bins::pack`, `src/weak_learner/decision_tree/bin.rs:197-225`. -/
def Pack (bins : List (Bin F64)) (indices : List Nat) (feat : Feature ℝ) (y : List ℝ) (dist : List F64)
    (o : Option (List (Bin F64 × LabelMap F64))) : Prop :=
  match packLoop bins feat y dist indices (List.replicate bins.length []) with
  | none => o = none
  | some packed => RemoveZero bins packed o

/-! ## The splitting criteria -/

open Classical in
/-- `entropic_impurity`, `src/weak_learner/decision_tree/criterion.rs:358-368`. -/
def Entropy (L : Libm) (m : LabelMap F64) (r : F64) : Prop :=
  ∃ total, Total m total ∧
    if Le total (fin 0) ∨ m.isEmpty = true then r = fin 0
    else ∃ l : LabelMap F64, l.Perm m ∧
      SumOf (l.map fun p => if Le (div p.2 total) (fin 0) then fin 0 else mul (neg (div p.2 total)) (ln L (div p.2 total))) r

open Classical in
/-- `gini_impurity`, `src/weak_learner/decision_tree/criterion.rs:373-382`. -/
def Gini (m : LabelMap F64) (r : F64) : Prop :=
  ∃ total, Total m total ∧
    if Le total (fin 0) ∨ m.isEmpty = true then r = fin 0
    else ∃ (l : LabelMap F64) (correct : F64), l.Perm m ∧ SumOf (l.map fun p => sq (div p.2 total)) correct ∧
      r = fmax (sub (fin 1) correct) (fin 0)

open Classical in
/-- `twoing_score`, `src/weak_learner/decision_tree/criterion.rs:387-410`. -/
def Twoing (labels : List Int) (left right : LabelMap F64) (o : Option F64) : Prop :=
  ∃ pl pr, Total left pl ∧ Total right pr ∧
    if pl = fin 0 ∨ pr = fin 0 then o = some (fin 0)
    else if Lt (fin 0) (add pl pr) then
      ∃ ys : List Int, ys.Perm labels ∧
        o = some (div (mul (mul (sq (ys.foldl (fun s y => add s (abs (sub (div ((HMap.get? left y).getD (fin 0)) pl)
          (div ((HMap.get? right y).getD (fin 0)) pr)))) (fin 0))) pl) pr) (sq (mul (fin 2) (add pl pr))))
    else o = none

/-- `weight_sum`, `src/weak_learner/decision_tree/criterion.rs:182-184` and 262-264. -/
def WeightSum (pack : List (Bin F64 × LabelMap F64)) (r : F64) : Prop :=
  ∃ totals, List.Forall₂ Total (pack.map Prod.snd) totals ∧ r = totals.foldl add (fin 0)

/-- The loop collecting all label weights, `src/weak_learner/decision_tree/criterion.rs:192-198`. -/
noncomputable def collectWeights (l : List (Int × F64)) (m : LabelMap F64) : LabelMap F64 := l.foldl (fun m p => addTo m p.1 p.2) m

/-- All label weights of a pack, `src/weak_learner/decision_tree/criterion.rs:192-198`, 272-278, 318-325. -/
def AllWeights (pack : List (Bin F64 × LabelMap F64)) (m : LabelMap F64) : Prop :=
  ∃ ms : List (LabelMap F64), List.Forall₂ List.Perm ms (pack.map Prod.snd) ∧ m = collectWeights ms.flatten []

/-- The running state of the two impurity criteria. -/
structure Scan where
  left : LabelMap F64
  leftSum : F64
  right : LabelMap F64
  bestScore : F64
  bestThreshold : F64

/-- Moving one bin's weights from right to left for the entropy criterion, `src/weak_learner/decision_tree/criterion.rs:204-211`. -/
noncomputable def moveEntropy : LabelMap F64 → Scan → Option Scan
  | [], st => some st
  | (y, w) :: l, st =>
    match HMap.get? st.right y with
    | none => none
    | some v => moveEntropy l { st with left := addTo st.left y w, leftSum := add st.leftSum w, right := HMap.insert st.right y (sub v w) }

open Classical in
/-- Moving one bin's weights for the Gini criterion, `src/weak_learner/decision_tree/criterion.rs:284-294`. -/
noncomputable def moveGini : LabelMap F64 → Scan → Option Scan
  | [], st => some st
  | (y, w) :: l, st =>
    match HMap.get? st.right y with
    | none => none
    | some v => moveGini l { st with
        left := addTo st.left y w
        leftSum := add st.leftSum w
        right := if Le (sub v w) (fin 0) then HMap.remove (HMap.insert st.right y (sub v w)) y else HMap.insert st.right y (sub v w) }

open Classical in
/-- The main loop of `split_by_entropy` / `split_by_gini`, `src/weak_learner/decision_tree/criterion.rs:203-224` and 283-307. -/
def ImpurityLoop (move : LabelMap F64 → Scan → Option Scan) (Imp : LabelMap F64 → F64 → Prop) (weightSum : F64) :
    List (Bin F64 × LabelMap F64) → Scan → Option (F64 × F64) → Prop
  | [], st, o => o = some (st.bestThreshold, st.bestScore)
  | (bin, map) :: rest, st, o =>
    ∃ map' : LabelMap F64, map'.Perm map ∧
      match move map' st with
      | none => o = none
      | some st =>
        ∃ il ir, Imp st.left il ∧ Imp st.right ir ∧
          let lp := div st.leftSum weightSum
          let rp := fmax (sub (fin 1) lp) (fin 0)
          let score := add (mul lp il) (mul rp ir)
          ImpurityLoop move Imp weightSum rest
            (if Lt score st.bestScore then { st with bestScore := score, bestThreshold := bin.stop } else st) o

/-- `split_by_entropy`, `src/weak_learner/decision_tree/criterion.rs:179-227`: `(threshold, score)`. -/
def SplitByEntropy (L : Libm) (pack : List (Bin F64 × LabelMap F64)) (o : Option (F64 × F64)) : Prop :=
  ∃ ws right e, WeightSum pack ws ∧ AllWeights pack right ∧ Entropy L right e ∧
    ImpurityLoop moveEntropy (Entropy L) ws pack ⟨[], fin 0, right, e, fin (-maxVal)⟩ o

/-- `split_by_gini`, `src/weak_learner/decision_tree/criterion.rs:261-310`. -/
def SplitByGini (pack : List (Bin F64 × LabelMap F64)) (o : Option (F64 × F64)) : Prop :=
  ∃ ws right e, WeightSum pack ws ∧ AllWeights pack right ∧ Gini right e ∧
    ImpurityLoop moveGini Gini ws pack ⟨[], fin 0, right, e, fin (-maxVal)⟩ o

/-- `map.iter().map(|(y, d)| *y as f64 * d).sum()`. -/
def SignedSum (m : LabelMap F64) (r : F64) : Prop :=
  ∃ l : LabelMap F64, l.Perm m ∧ r = (l.map fun p => mul (ofInt p.1) p.2).foldl add (fin 0)

open Classical in
/-- The loop of `split_by_edge`, `src/weak_learner/decision_tree/criterion.rs:245-255`. -/
def EdgeLoop : List (Bin F64 × LabelMap F64) → F64 → F64 → F64 → F64 × F64 → Prop
  | [], _, be, bt, r => r = (bt, be)
  | (bin, map) :: rest, e, be, bt, r =>
    ∃ d, SignedSum map d ∧
      let e' := sub e (mul (fin 2) d)
      if Lt be (abs e') then EdgeLoop rest e' (abs e') bin.stop r else EdgeLoop rest e' be bt r

/-- `split_by_edge`, `src/weak_learner/decision_tree/criterion.rs:230-258`. -/
def SplitByEdge (pack : List (Bin F64 × LabelMap F64)) (r : F64 × F64) : Prop :=
  ∃ ds, List.Forall₂ SignedSum (pack.map Prod.snd) ds ∧ EdgeLoop pack (ds.foldl add (fin 0)) (abs (ds.foldl add (fin 0))) (fin (-maxVal)) r

open Classical in
/-- Moving one bin's weights for the twoing criterion, `src/weak_learner/decision_tree/criterion.rs:332-340`; the variable tested by
`if *entry <= 0f64` is the entry of `left_weight`. -/
noncomputable def moveTwoing : LabelMap F64 → LabelMap F64 × LabelMap F64 → LabelMap F64 × LabelMap F64
  | [], st => st
  | (y, w) :: l, (left, right) =>
    let left := addTo left y w
    let right := match HMap.get? right y with
      | none => right
      | some v => HMap.insert right y (sub v w)
    moveTwoing l (left, if Le ((HMap.get? left y).getD (fin 0)) (fin 0) then HMap.remove right y else right)

/-- The set of labels of a pack, `src/weak_learner/decision_tree/criterion.rs:317-325`. -/
def labelSet (pack : List (Bin F64 × LabelMap F64)) : List Int := ((pack.flatMap Prod.snd).map Prod.fst).dedup

open Classical in
/-- The main loop of `split_by_twoing`, `src/weak_learner/decision_tree/criterion.rs:330-350`. -/
def TwoingLoop (labels : List Int) : List (Bin F64 × LabelMap F64) → LabelMap F64 × LabelMap F64 → F64 → F64 → Option (F64 × F64) → Prop
  | [], _, bs, bt, o => o = some (bt, bs)
  | (bin, map) :: rest, st, bs, bt, o =>
    ∃ (map' : LabelMap F64) (x : Option F64), map'.Perm map ∧ Twoing labels (moveTwoing map' st).1 (moveTwoing map' st).2 x ∧
      match x with
      | none => o = none
      | some score =>
        if Lt bs score then TwoingLoop labels rest (moveTwoing map' st) score bin.stop o
        else TwoingLoop labels rest (moveTwoing map' st) bs bt o

/-- `split_by_twoing`, `src/weak_learner/decision_tree/criterion.rs:313-353`. -/
def SplitByTwoing (pack : List (Bin F64 × LabelMap F64)) (o : Option (F64 × F64)) : Prop :=
  ∃ right, AllWeights pack right ∧ TwoingLoop (labelSet pack) pack ([], right) (fin 0) (fin (-maxVal)) o

/-- The search over one feature: `(threshold, score)`. -/
def SplitBy (L : Libm) : Criterion → List (Bin F64 × LabelMap F64) → Option (F64 × F64) → Prop
  | .entropy, pack, o => SplitByEntropy L pack o
  | .edge, pack, o => ∃ r, SplitByEdge pack r ∧ o = some r
  | .gini, pack, o => SplitByGini pack o
  | .twoing, pack, o => SplitByTwoing pack o

/-- The closure mapped over the features in `Criterion::best_split`, `src/weak_learner/decision_tree/criterion.rs:104-175`. -/
def FeatureSplit (L : Libm) (c : Criterion) (binsMap : List (String × List (Bin F64))) (s : Sample ℝ) (dist : List F64)
    (idx : List Nat) (f : Feature ℝ) (o : Option (F64 × String × F64)) : Prop :=
  match HMap.get? binsMap f.name with
  | none => o = none
  | some bins =>
    ∃ p, Pack bins idx f s.target dist p ∧
      match p with
      | none => o = none
      | some pack => ∃ r, SplitBy L c pack r ∧ o = r.map fun r => (r.2, f.name, r.1)

open Classical in
/-- `.min_by(|x, y| key(x).partial_cmp(&key(y)).unwrap())` and `.max_by(..)`: when there are two items every item is compared with another
one, and a comparison with a NaN panics. -/
def Extremum {α : Type*} (smallest : Bool) (key : α → F64) (items : List α) (o : Option α) : Prop :=
  if 2 ≤ items.length ∧ ∃ a ∈ items, key a = nan then o = none
  else ∃ t : Split α, t.items = items ∧
    o = t.reduceWith fun a b => if smallest then (if Lt (key b) (key a) then b else a) else (if Lt (key b) (key a) then a else b)

/-- Whether the criterion is minimised. -/
def minimised : Criterion → Bool
  | .entropy => true
  | .gini => true
  | .edge => false
  | .twoing => false

/-- `Criterion::best_split`, `src/weak_learner/decision_tree/criterion.rs:104-175`. -/
def BestSplit (L : Libm) (c : Criterion) (binsMap : List (String × List (Bin F64))) (s : Sample ℝ) (dist : List F64)
    (idx : List Nat) (o : Option (String × F64)) : Prop :=
  ∃ os, List.Forall₂ (FeatureSplit L c binsMap s dist idx) s.features os ∧
    match Par.allSome os with
    | none => o = none
    | some cands => ∃ x, Extremum (minimised c) (fun p : F64 × String × F64 => p.1) cands x ∧ o = x.map Prod.snd

/-! ## Growing the tree -/

/-- The counting loop of `confidence_and_loss`, `src/weak_learner/decision_tree/decision_tree_algorithm.rs:239-243`. -/
noncomputable def countLabels (target : List ℝ) (dist : List F64) : List Nat → LabelMap F64 → Option (LabelMap F64)
  | [], m => some m
  | i :: is, m =>
    match target[i]?, dist[i]? with
    | some y, some d => countLabels target dist is (addTo m (asI64 y) d)
    | _, _ => none

open Classical in
/-- The confidence and the loss for the label `q.1` of weight `q.2`, `src/weak_learner/decision_tree/decision_tree_algorithm.rs:254-263`. -/
noncomputable def leafValues (total : F64) (q : Int × F64) : F64 × F64 :=
  (if Lt (fin 0) total then F64.clamp1 (mul (ofInt q.1) (sub (mul (fin 2) (div q.2 total)) (fin 1))) else F64.clamp1 (ofInt q.1),
    if Lt (fin 0) total then mul total (sub (fin 1) (div q.2 total)) else fin 0)

/-- `confidence_and_loss`, `src/weak_learner/decision_tree/decision_tree_algorithm.rs:231-268`. -/
def ConfLoss (s : Sample ℝ) (dist : List F64) (indices : List Nat) (o : Option (F64 × F64)) : Prop :=
  if indices = [] then o = none
  else
    match countLabels s.target dist indices [] with
    | none => o = none
    | some counter =>
      ∃ total, Total counter total ∧ ∃ (l : LabelMap F64) (x : Option (Int × F64)), l.Perm counter ∧ Extremum false (fun p : Int × F64 => p.2) l x ∧
        o = x.map (leafValues total)

/-- `indices.par_iter().map(|i| dist[i]).sum()`, `src/weak_learner/decision_tree/decision_tree_algorithm.rs:107-110`. -/
def SumAt (v : List F64) (idx : List Nat) (o : Option F64) : Prop :=
  match Par.allSome (idx.map fun i => v[i]?) with
  | none => o = none
  | some xs => ∃ r, SumOf xs r ∧ o = some r

open Classical in
/-- `Splitter::split`, `src/weak_learner/common/split_rule.rs:36-42`; `true` stands for `LR::Left`. -/
noncomputable def goesLeft (r : Splitter F64) (s : Sample ℝ) (row : Nat) : Option Bool :=
  match s.byName r.feature with
  | .error _ => none
  | .ok f =>
    match f.index row with
    | .error _ => none
    | .ok v => some (decide (Lt (fin v) r.threshold))

/-- The loop splitting the rows, `src/weak_learner/decision_tree/decision_tree_algorithm.rs:139-144`. -/
noncomputable def splitRows (rule : Splitter F64) (s : Sample ℝ) : List Nat → Option (List Nat × List Nat)
  | [] => some ([], [])
  | i :: is =>
    match goesLeft rule s i with
    | none => none
    | some b => (splitRows rule s is).map fun r => if b then (i :: r.1, r.2) else (r.1, i :: r.2)

/-- `TrainNode::leaves`, `src/weak_learner/decision_tree/train_node.rs:167-172`. -/
def leavesOf : TrainNode F64 → Nat
  | .leaf .. => 1
  | .branch (leaves := n) .. => n

/-- `TrainNode::is_leaf`, `src/weak_learner/decision_tree/train_node.rs:157-162`. -/
def isLeaf : TrainNode F64 → Bool
  | .leaf .. => true
  | .branch .. => false

/-- `DecisionTree::full_tree`, `src/weak_learner/decision_tree/decision_tree_algorithm.rs:98-160`. -/
def FullTree (L : Libm) (t : Tree) (s : Sample ℝ) (dist : List F64) : Nat → List Nat → Option (TrainNode F64) → Prop
  | 0, indices, o => ∃ a c, SumAt dist indices a ∧ ConfLoss s dist indices c ∧
    match a, c with
    | some total, some (conf, loss) => o = some (.leaf conf total loss)
    | _, _ => o = none
  | depth + 1, indices, o => ∃ a c, SumAt dist indices a ∧ ConfLoss s dist indices c ∧
    match a, c with
    | some total, some (conf, loss) =>
      (loss = fin 0 ∧ o = some (.leaf conf total loss)) ∨
      (loss ≠ fin 0 ∧ ∃ b, BestSplit L t.criterion t.bins s dist indices b ∧
        match b with
        | none => o = none
        | some (feature, threshold) =>
          match splitRows ⟨feature, threshold⟩ s indices with
          | none => o = none
          | some (l, r) =>
            if l = [] ∨ r = [] then o = some (.leaf conf total loss)
            else ∃ lt rt, FullTree L t s dist depth l lt ∧ FullTree L t s dist depth r rt ∧
              match lt, rt with
              | some ltree, some rtree => o = some (.branch ⟨feature, threshold⟩ ltree rtree conf total loss (leavesOf ltree + leavesOf rtree))
              | _, _ => o = none)
    | _, _ => o = none

/-- `TrainNode::node_misclassification_cost`, `src/weak_learner/decision_tree/train_node.rs:177-184`. -/
noncomputable def cost : TrainNode F64 → F64
  | .leaf _ w l => mul l w
  | .branch _ _ _ _ w l _ => mul l w

open Classical in
/-- `TrainNode::remove_redundant_nodes`, `src/weak_learner/decision_tree/train_node.rs:191-230`. -/
noncomputable def removeRedundant : TrainNode F64 → TrainNode F64
  | .leaf c w l => .leaf c w l
  | .branch rule left right c w l n =>
    if isLeaf left = false then .branch rule (removeRedundant left) right c w l n
    else if isLeaf right = false then .branch rule left (removeRedundant right) c w l n
    else if partialCmp (mul l w) (add (cost left) (cost right)) = some .eq then .leaf c w l
    else .branch rule (removeRedundant left) (removeRedundant right) c w l n

/-- `From<TrainNode> for Node`, `src/weak_learner/decision_tree/node.rs:105-117`. -/
def ofTrain : TrainNode F64 → TreeNode F64
  | .leaf c _ _ => .leaf c
  | .branch rule left right _ _ _ _ => .branch rule (ofTrain left) (ofTrain right)

open Classical in
/-- `(0..n_sample).filter(|&i| dist[i] > 0f64)`, `src/weak_learner/decision_tree/decision_tree_algorithm.rs:197-198`. -/
noncomputable def positiveRows (dist : List F64) : List Nat → Option (List Nat)
  | [] => some []
  | i :: is =>
    match dist[i]? with
    | none => none
    | some d => (positiveRows dist is).map fun r => if Lt (fin 0) d then i :: r else r

/-- `DecisionTree::produce`, `src/weak_learner/decision_tree/decision_tree_algorithm.rs:192-220`: the trees that may be returned, `none`
for a panic. -/
def Produce (L : Libm) (t : Tree) (s : Sample ℝ) (dist : List F64) (o : Option (TreeNode F64)) : Prop :=
  match positiveRows dist (List.range s.nSample) with
  | none => o = none
  | some indices =>
    if indices = [] then o = none
    else ∃ x, FullTree L t s dist t.maxDepth indices x ∧ o = x.map fun tree => ofTrain (removeRedundant tree)

/-- `Classifier for Node`, `src/weak_learner/decision_tree/node.rs:120-147`. -/
noncomputable def confidence (s : Sample ℝ) (row : Nat) : TreeNode F64 → Option F64
  | .leaf c => some c
  | .branch rule left right =>
    match goesLeft rule s row with
    | none => none
    | some true => confidence s row left
    | some false => confidence s row right

end FTree

end Miniboosts
