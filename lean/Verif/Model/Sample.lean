import Verif.Model.Std
import Verif.Model.Utils
import Verif.Model.Label
import Mathlib.Data.List.SplitOn
import Mathlib.Data.List.Sort
import Mathlib.Algebra.Order.Floor.Semiring

/-! # `src/sample/feature_struct.rs`, `src/sample/sample_struct.rs`, `src/sample/sample_reader.rs`

Not modelled: reading from disk (a file is the list of its lines), `f64`/`usize` parsing (parameters
`parse`, `parseIx`: the result of `x.trim().parse()`), `from_dataframe` (polars). -/

namespace Miniboosts

/-- `DenseFeature`, `src/sample/feature_struct.rs:12-17`. -/
structure DenseFeature (K : Type*) where
  name : String
  sample : List K
  deriving DecidableEq, Repr

/-- `SparseFeature`, `src/sample/feature_struct.rs:22-30`. -/
structure SparseFeature (K : Type*) where
  name : String
  sample : List (Nat × K)
  nSample : Nat
  deriving DecidableEq, Repr

/-- `Feature`, `src/sample/feature_struct.rs:34-40`. -/
inductive Feature (K : Type*) where
  | dense (f : DenseFeature K)
  | sparse (f : SparseFeature K)
  deriving DecidableEq, Repr

variable {K : Type*} [Field K] [LinearOrder K]

/-- `Vec::sort_by(|a, b| a.partial_cmp(b).unwrap())`: any sorting algorithm yields this list. -/
def sortVec (l : List K) : List K := l.insertionSort (· ≤ ·)

/-- `Vec::dedup`: drops an element equal to its predecessor. -/
def dedupAdj : List K → List K
  | a :: b :: l => if a = b then dedupAdj (b :: l) else a :: dedupAdj (b :: l)
  | l => l

/-- The loop of `inner_distinct_value_count`, `src/sample/feature_struct.rs:528-545`. -/
def countChanges (value : K) : List K → Nat → Nat
  | [], cnt => cnt
  | v :: l, cnt => if v ≠ value then countChanges v l (cnt + 1) else countChanges value l cnt

/-- `inner_distinct_value_count`, `src/sample/feature_struct.rs:527-544`. -/
def innerDistinctValueCount (src : List K) : Nat :=
  match sortVec src with
  | [] => 0
  | v :: l => countChanges v l 1

/-- `MINIMAL_WEIGHT_SUM = 1e-100`, `src/sample/feature_struct.rs:8`. -/
def minimalWeightSum : K := 1 / 10 ^ 100

/-- `let mut total_weight = utils::total_weight_for_label(..); if total_weight == 0.0 { .. }`,
`src/sample/feature_struct.rs:314-315` (and 335-336, 450-451, 493-494). -/
def labelWeight (y : K) (target weight : List K) : K :=
  if totalWeightForLabel y target weight = 0 then minimalWeightSum else totalWeightForLabel y target weight

namespace DenseFeature

/-- `DenseFeature::new`, `src/sample/feature_struct.rs:217-222`. -/
def new (name : String) : DenseFeature K := { name := name, sample := [] }

/-- `DenseFeature::append`, `src/sample/feature_struct.rs:264-266`. -/
def append (f : DenseFeature K) (x : K) : DenseFeature K := { f with sample := f.sample ++ [x] }

/-- `DenseFeature::distinct_value_count`, `src/sample/feature_struct.rs:281-284`. -/
def distinctValueCount (f : DenseFeature K) : Nat := innerDistinctValueCount f.sample

/-- `DenseFeature::weighted_mean`, `src/sample/feature_struct.rs:287-292`. -/
def weightedMean (f : DenseFeature K) (weight : List K) : K :=
  (List.zipWith (fun x w => x * w) f.sample weight).sum

/-- `DenseFeature::weighted_variance`, `src/sample/feature_struct.rs:295-302`. -/
def weightedVariance (f : DenseFeature K) (mean : K) (weight : List K) : K :=
  (List.zipWith (fun x w => w * (x - mean) ^ 2) f.sample weight).sum

/-- `DenseFeature::weighted_mean_for_label`, `src/sample/feature_struct.rs:307-322`. -/
def weightedMeanForLabel (f : DenseFeature K) (y : K) (target weight : List K) : K :=
  (((f.sample.zip target).zip weight).map
    (fun p => if p.1.2 ≠ y then 0 else p.1.1 * p.2)).sum / labelWeight y target weight

/-- `DenseFeature::weighted_variance_for_label`, `src/sample/feature_struct.rs:327-345`. -/
def weightedVarianceForLabel (f : DenseFeature K) (mean y : K) (target weight : List K) : K :=
  (((f.sample.zip target).zip weight).map
    (fun p => if p.1.2 ≠ y then 0 else p.2 * (p.1.1 - mean) ^ 2)).sum / labelWeight y target weight

/-- `Index<usize> for DenseFeature`, `src/sample/feature_struct.rs:547-552`. -/
def index (f : DenseFeature K) (i : Nat) : Except Panic K :=
  match f.sample[i]? with
  | some x => .ok x
  | none => .error .outOfRange

end DenseFeature

namespace SparseFeature

/-- `SparseFeature::new`, `src/sample/feature_struct.rs:351-357`. -/
def new (name : String) : SparseFeature K := { name := name, sample := [], nSample := 0 }

/-- `SparseFeature::append`, `src/sample/feature_struct.rs:361-363`. -/
def append (f : SparseFeature K) (p : Nat × K) : SparseFeature K := { f with sample := f.sample ++ [p] }

/-- The loop `target[i] = x` of `SparseFeature::into_target`, `src/sample/feature_struct.rs:385-395`; it panics
out of range. -/
def fill : List (Nat × K) → List K → Except Panic (List K)
  | [], t => .ok t
  | p :: l, t => if p.1 < t.length then fill l (t.set p.1 p.2) else .error .outOfRange

/-- `SparseFeature::into_target`, `src/sample/feature_struct.rs:385-395`. -/
def intoTarget (f : SparseFeature K) : Except Panic (List K) := fill f.sample (List.replicate f.nSample 0)

/-- `SparseFeature::has_zero`, `src/sample/feature_struct.rs:405-407`. -/
def hasZero (f : SparseFeature K) : Bool := decide (f.sample.length < f.nSample)

/-- `SparseFeature::distinct_value_count`, `src/sample/feature_struct.rs:422-433`. -/
def distinctValueCount (f : SparseFeature K) : Nat :=
  innerDistinctValueCount (f.sample.map Prod.snd) + (if f.hasZero then 1 else 0)

/-- `weight[i]` with the panic of an index out of range. -/
def wAt (weight : List K) (i : Nat) : Except Panic K :=
  match weight[i]? with
  | some w => .ok w
  | none => .error .outOfRange

/-- The sum of `SparseFeature::weighted_mean`, `src/sample/feature_struct.rs:436-440`. -/
def meanSum (weight : List K) : List (Nat × K) → Except Panic K
  | [] => .ok 0
  | p :: l =>
    match wAt weight p.1 with
    | .error e => .error e
    | .ok w => (meanSum weight l).map (fun s => w * p.2 + s)

/-- `SparseFeature::weighted_mean`, `src/sample/feature_struct.rs:436-440`. -/
def weightedMean (f : SparseFeature K) (weight : List K) : Except Panic K := meanSum weight f.sample

/-- The sum of `SparseFeature::weighted_mean_for_label`, `src/sample/feature_struct.rs:443-459`.
Note the condition `t == y` and that the stored entries are zipped with `target` by position. -/
def labelMeanSum (y : K) (weight : List K) : List ((Nat × K) × K) → Except Panic K
  | [] => .ok 0
  | p :: l =>
    if p.2 = y then (labelMeanSum y weight l).map (fun s => 0 + s)
    else
      match wAt weight p.1.1 with
      | .error e => .error e
      | .ok w => (labelMeanSum y weight l).map (fun s => w * p.1.2 + s)

/-- `SparseFeature::weighted_mean_for_label`, `src/sample/feature_struct.rs:443-459`. -/
def weightedMeanForLabel (f : SparseFeature K) (y : K) (target weight : List K) : Except Panic K :=
  (labelMeanSum y weight (f.sample.zip target)).map (fun s => s / labelWeight y target weight)

/-- `weight[prev..i].iter().sum::<f64>()`; panics when `prev > i` or `i > len`. -/
def rangeSum (weight : List K) (prev i : Nat) : Except Panic K :=
  if prev ≤ i ∧ i ≤ weight.length then .ok ((weight.take i).drop prev).sum else .error .outOfRange

/-- State of the loops of `weighted_variance[_for_label]`: `variance`, `zero_weight`, `prev`. -/
structure VarState (K : Type*) where
  variance : K
  zeroWeight : K
  prev : Nat

/-- The loop of `SparseFeature::weighted_variance`, `src/sample/feature_struct.rs:462-482`. -/
def varLoop (mean : K) (weight : List K) : List (Nat × K) → VarState K → Except Panic (VarState K)
  | [], st => .ok st
  | p :: l, st =>
    match rangeSum weight st.prev p.1, wAt weight p.1 with
    | .ok z, .ok w =>
      varLoop mean weight l
        { variance := st.variance + w * (p.2 - mean) ^ 2, zeroWeight := st.zeroWeight + z, prev := p.1 + 1 }
    | .error e, _ => .error e
    | _, .error e => .error e

/-- `SparseFeature::weighted_variance`, `src/sample/feature_struct.rs:462-482`. -/
def weightedVariance (f : SparseFeature K) (mean : K) (weight : List K) : Except Panic K :=
  match varLoop mean weight f.sample { variance := 0, zeroWeight := 0, prev := 0 } with
  | .error e => .error e
  | .ok st =>
    match rangeSum weight st.prev weight.length with
    | .error e => .error e
    | .ok z => .ok (st.variance + (st.zeroWeight + z) * mean ^ 2)

/-- The loop of `SparseFeature::weighted_variance_for_label`, `src/sample/feature_struct.rs:485-511`.
Note that `zero_weight` collects the weight of all absent rows, whatever their label. -/
def labelVarLoop (mean y : K) (target weight : List K) :
    List (Nat × K) → VarState K → Except Panic (VarState K)
  | [], st => .ok st
  | p :: l, st =>
    match rangeSum weight st.prev p.1, wAt weight p.1, wAt target p.1 with
    | .ok z, .ok w, .ok t =>
      labelVarLoop mean y target weight l
        { variance := if t = y then st.variance + w * (p.2 - mean) ^ 2 else st.variance,
          zeroWeight := st.zeroWeight + z, prev := p.1 + 1 }
    | .error e, _, _ => .error e
    | _, .error e, _ => .error e
    | _, _, .error e => .error e

/-- `SparseFeature::weighted_variance_for_label`, `src/sample/feature_struct.rs:485-511`. -/
def weightedVarianceForLabel (f : SparseFeature K) (mean y : K) (target weight : List K) : Except Panic K :=
  match labelVarLoop mean y target weight f.sample { variance := 0, zeroWeight := 0, prev := 0 } with
  | .error e => .error e
  | .ok st =>
    match rangeSum weight st.prev weight.length with
    | .error e => .error e
    | .ok z => .ok ((st.variance + (st.zeroWeight + z) * mean ^ 2) / labelWeight y target weight)

/-- `Index<usize> for SparseFeature`, `src/sample/feature_struct.rs:555-564`. -/
def index (f : SparseFeature K) (idx : Nat) : K :=
  match f.sample[(binarySearchBy (fun p => compare p.1 idx) f.sample).getD f.sample.length]? with
  | some p => p.2
  | none => 0

end SparseFeature

namespace Feature

/-- `Feature::name`, `src/sample/feature_struct.rs:88-93`. -/
def name : Feature K → String
  | dense f => f.name
  | sparse f => f.name

/-- `Feature::is_sparse`, `src/sample/feature_struct.rs:55-60`. -/
def isSparse : Feature K → Bool
  | dense _ => false
  | sparse _ => true

/-- `Feature::set_n_sample`, `src/sample/feature_struct.rs:69-76`. -/
def setNSample (n : Nat) : Feature K → Feature K
  | dense f => dense f
  | sparse f => sparse { f with nSample := n }

/-- `Feature::append`, `src/sample/feature_struct.rs:79-84`. -/
def append (f : Feature K) (i : Nat) (x : K) : Feature K :=
  match f with
  | dense f => dense (f.append x)
  | sparse f => sparse (f.append (i, x))

/-- `Feature::replace_name`, `src/sample/feature_struct.rs:96-103`: the new feature and the old name. -/
def replaceName (new : String) : Feature K → Feature K × String
  | dense f => (dense { f with name := new }, f.name)
  | sparse f => (sparse { f with name := new }, f.name)

/-- `Feature::into_target`, `src/sample/feature_struct.rs:106-111`; dense: 258-260. -/
def intoTarget : Feature K → Except Panic (List K)
  | dense f => .ok f.sample
  | sparse f => f.intoTarget

/-- `Feature::is_empty`, `src/sample/feature_struct.rs:124-129`. -/
def isEmpty : Feature K → Bool
  | dense f => f.sample.isEmpty
  | sparse f => f.sample.isEmpty

/-- `Feature::distinct_value_count`, `src/sample/feature_struct.rs:132-137`. -/
def distinctValueCount : Feature K → Nat
  | dense f => f.distinctValueCount
  | sparse f => f.distinctValueCount

/-- `Feature::weighted_mean`, `src/sample/feature_struct.rs:141-152`. -/
def weightedMean (f : Feature K) (weight : List K) : Except Panic K :=
  match checkCappedSimplex weight 1 with
  | .error e => .error e
  | .ok () =>
    match f with
    | dense f => .ok (f.weightedMean weight)
    | sparse f => f.weightedMean weight

/-- `Feature::weighted_mean_and_variance`, `src/sample/feature_struct.rs:155-168`. -/
def weightedMeanAndVariance (f : Feature K) (weight : List K) : Except Panic (K × K) :=
  match f.weightedMean weight with
  | .error e => .error e
  | .ok mean =>
    match f with
    | dense f => .ok (mean, f.weightedVariance mean weight)
    | sparse f => (f.weightedVariance mean weight).map (fun v => (mean, v))

/-- `Feature::weighted_mean_for_label`, `src/sample/feature_struct.rs:172-188`. -/
def weightedMeanForLabel (f : Feature K) (y : K) (target weight : List K) : Except Panic K :=
  match f with
  | dense f => .ok (f.weightedMeanForLabel y target weight)
  | sparse f => f.weightedMeanForLabel y target weight

/-- `Feature::weighted_mean_and_variance_for_label`, `src/sample/feature_struct.rs:193-211`. -/
def weightedMeanAndVarianceForLabel (f : Feature K) (y : K) (target weight : List K) :
    Except Panic (K × K) :=
  match f.weightedMeanForLabel y target weight with
  | .error e => .error e
  | .ok mean =>
    match f with
    | dense f => .ok (mean, f.weightedVarianceForLabel mean y target weight)
    | sparse f => (f.weightedVarianceForLabel mean y target weight).map (fun v => (mean, v))

/-- `Index<usize> for Feature`, `src/sample/feature_struct.rs:514-522`. -/
def index (f : Feature K) (i : Nat) : Except Panic K :=
  match f with
  | dense f => f.index i
  | sparse f => .ok (f.index i)

end Feature

/-- `Sample`, `src/sample/sample_struct.rs:24-31`. -/
structure Sample (K : Type*) where
  nameToIndex : List (String × Nat)
  features : List (Feature K)
  target : List K
  nSample : Nat
  nFeature : Nat
  deriving DecidableEq, Repr

namespace Sample

/-- `features.iter().enumerate().map(|(i, f)| (f.name().to_string(), i)).collect::<HashMap<_, _>>()`,
`src/sample/sample_struct.rs:132-135` (also 168-171, 213-216, 284-287). -/
def indexNames (features : List (Feature K)) : List (String × Nat) :=
  HMap.collect ((features.map Feature.name).zipIdx)

/-- `Sample::dummy`, `src/sample/sample_struct.rs:37-51`. -/
def dummy (nSample : Nat) : Sample K :=
  { nameToIndex := [("dummy", 0)]
    features := [.sparse (SparseFeature.new "dummy")]
    target := List.replicate (nSample / 2) 1 ++ List.replicate (nSample - nSample / 2) (-1)
    nSample := nSample
    nFeature := 1 }

/-- One line of a csv file after the header is known: `src/sample/sample_struct.rs:111-117`.
`i` counts the cells already read. -/
def csvCells (parse : List Char → Option K) :
    List (List Char) → Nat → List (DenseFeature K) → Except Panic (List (DenseFeature K))
  | [], _, fs => .ok fs
  | cell :: cells, i, fs =>
    match parse cell with
    | none => .error .unwrapNone
    | some x =>
      match fs[i]? with
      | none => .error .outOfRange
      | some f => csvCells parse cells (i + 1) (fs.set i (f.append x))

/-- `line.split(',').map(|x| x.trim().parse::<f64>().unwrap_or_else(..)).collect()`,
`src/sample/sample_struct.rs:84-94`. -/
def parseCells (parse : List Char → Option K) : List (List Char) → Except Panic (List K)
  | [] => .ok []
  | cell :: cells =>
    match parse cell with
    | none => .error .assertion
    | some x => (parseCells parse cells).map (fun xs => x :: xs)

/-- `format!("Feat. [{i}]")`, `src/sample/sample_struct.rs:98` and `:265`. -/
def defaultName (i : Nat) : String := "Feat. [" ++ toString i ++ "]"

/-- The loop over the lines of a csv file, `src/sample/sample_struct.rs:77-120`;
the returned number is `n_sample`. -/
def csvLines (parse : List Char → Option K) :
    List (List Char) → Bool → List (DenseFeature K) → Nat → Except Panic (List (DenseFeature K) × Nat)
  | [], _, fs, n => .ok (fs, n)
  | line :: lines, hasHeader, fs, n =>
    if hasHeader = false then
      match parseCells parse (line.splitOn ',') with
      | .error e => .error e
      | .ok xs =>
        csvLines parse lines true
          ((xs.zipIdx).map (fun p => (DenseFeature.new (defaultName (p.2 + 1))).append p.1)) (n + 1)
    else
      match csvCells parse (line.splitOn ',') 0 fs with
      | .error e => .error e
      | .ok fs => csvLines parse lines true fs (n + 1)

/-- `Sample::from_csv`, `src/sample/sample_struct.rs:63-143`, on the lines of the file. -/
def fromCsv (parse : List Char → Option K) (lines : List (List Char)) (hasHeader : Bool) :
    Except Panic (Sample K) :=
  let start : Except Panic (List (DenseFeature K) × List (List Char)) :=
    if hasHeader then
      match lines with
      | [] => .error .unwrapNone
      | line :: rest => .ok ((line.splitOn ',').map (fun c => DenseFeature.new (String.ofList c)), rest)
    else .ok ([], lines)
  match start with
  | .error e => .error e
  | .ok (fs, rest) =>
    match csvLines parse rest hasHeader fs 0 with
    | .error e => .error e
    | .ok (fs, n) =>
      let features := fs.map Feature.dense
      .ok { nameToIndex := indexNames features, features := features, target := [], nSample := n,
            nFeature := features.length }

/-- `Sample::unique_target`, `src/sample/sample_struct.rs:184-190`. -/
def uniqueTarget (s : Sample K) : List K := dedupAdj (sortVec s.target)

/-- `Sample::set_target`, `src/sample/sample_struct.rs:201-219`. -/
def setTarget (s : Sample K) (target : String) : Except Panic (Sample K) :=
  match s.features.findIdx? (fun f => f.name == target) with
  | none => .error .unwrapNone
  | some pos =>
    match s.features[pos]? with
    | none => .error .outOfRange
    | some f =>
      match f.intoTarget with
      | .error e => .error e
      | .ok t =>
        if s.nFeature = 0 then .error .arith
        else
          .ok { s with features := s.features.eraseIdx pos, target := t, nFeature := s.nFeature - 1,
                       nameToIndex := indexNames (s.features.eraseIdx pos) }

/-- `index_and_feature`, `src/sample/sample_struct.rs:595-609`. -/
def indexAndFeature (parseIx : List Char → Option Nat) (parse : List Char → Option K) (word : List Char) :
    Except Panic (Nat × K) :=
  match word.splitOn ':' with
  | w1 :: w2 :: _ =>
    match parseIx w1, parse w2 with
    | some i, some x => .ok (i, x)
    | _, _ => .error .unwrapNone
  | _ => .error .unwrapNone

/-- `str::split_whitespace` (on ASCII white space): the maximal runs of non-blank characters. -/
def splitWhitespace (line : List Char) : List (List Char) :=
  (line.splitOnP Char.isWhitespace).filter (fun w => !w.isEmpty)

/-- `while features.len() <= i { .. features.push(SparseFeature::new(name)); }`,
`src/sample/sample_struct.rs:263-267`. -/
def growTo (i : Nat) (fs : List (SparseFeature K)) : List (SparseFeature K) :=
  fs ++ (List.range (i + 1 - fs.length)).map (fun j => SparseFeature.new (defaultName (fs.length + j + 1)))

/-- The words of one line after the label, `src/sample/sample_struct.rs:260-270`. -/
def svmWords (parseIx : List Char → Option Nat) (parse : List Char → Option K) (n : Nat) :
    List (List Char) → List (SparseFeature K) → Except Panic (List (SparseFeature K))
  | [], fs => .ok fs
  | word :: words, fs =>
    match indexAndFeature parseIx parse word with
    | .error e => .error e
    | .ok (i, x) =>
      match (growTo i fs)[i]? with
      | none => .error .outOfRange
      | some f => svmWords parseIx parse n words ((growTo i fs).set i (f.append (n, x)))

/-- The loop over the lines, `src/sample/sample_struct.rs:246-272`. -/
def svmLines (parseIx : List Char → Option Nat) (parse : List Char → Option K) :
    List (List Char) → List (SparseFeature K) → List K → Nat →
      Except Panic (List (SparseFeature K) × List K × Nat)
  | [], fs, t, n => .ok (fs, t, n)
  | line :: lines, fs, t, n =>
    match splitWhitespace line with
    | [] => .error .unwrapNone
    | w :: words =>
      match parse w with
      | none => .error .unwrapNone
      | some y =>
        match svmWords parseIx parse n words fs with
        | .error e => .error e
        | .ok fs => svmLines parseIx parse lines fs (t ++ [y]) (n + 1)

/-- `Sample::remove_allzero_features`, `src/sample/sample_struct.rs:300-318`. -/
def removeAllzeroFeatures (s : Sample K) : Sample K :=
  { s with
    nameToIndex := HMap.collect (((s.features.filter (fun f => !f.isEmpty)).map Feature.name).zipIdx)
    features := s.features.filter (fun f => !f.isEmpty)
    nFeature := (s.features.filter (fun f => !f.isEmpty)).length }

/-- `Sample::from_svmlight`, `src/sample/sample_struct.rs:236-296`. -/
def fromSvmlight (parseIx : List Char → Option Nat) (parse : List Char → Option K)
    (lines : List (List Char)) : Except Panic (Sample K) :=
  match svmLines parseIx parse lines [] [] 0 with
  | .error e => .error e
  | .ok (fs, t, n) =>
    let features := fs.map (fun f => Feature.sparse { f with nSample := n })
    .ok (removeAllzeroFeatures
      { nameToIndex := indexNames features, features := features, target := t, nSample := n,
        nFeature := features.length })

/-- `Sample::shape`, `src/sample/sample_struct.rs:323-325`. -/
def shape (s : Sample K) : Nat × Nat := (s.nSample, s.nFeature)

/-- `Sample::replace_names`, `src/sample/sample_struct.rs:331-356`: the new sample and the old names. -/
def replaceNames (s : Sample K) (names : List String) : Except Panic (Sample K × List String) :=
  if names.length ≠ s.nFeature then .error .assertion
  else
    let fs := List.zipWith (fun name f => (Feature.replaceName name f).1) names s.features
      ++ s.features.drop names.length
    .ok ({ s with features := fs, nameToIndex := indexNames fs },
      List.zipWith (fun name f => (Feature.replaceName name f).2) names s.features)

/-- `features.iter().map(f).collect::<Vec<_>>()` where `f` may panic. -/
def mapAll {A : Type*} (f : Feature K → Except Panic A) : List (Feature K) → Except Panic (List A)
  | [] => .ok []
  | c :: l =>
    match f c with
    | .error e => .error e
    | .ok a => (mapAll f l).map (fun as => a :: as)

/-- `Sample::at`, `src/sample/sample_struct.rs:360-367`. -/
def at' (s : Sample K) (idx : Nat) : Except Panic (List K × K) :=
  match mapAll (fun f => f.index idx) s.features with
  | .error e => .error e
  | .ok x =>
    match s.target[idx]? with
    | none => .error .outOfRange
    | some y => .ok (x, y)

/-- `Index<S> for Sample`, `src/sample/sample_struct.rs:613-625`. -/
def byName (s : Sample K) (name : String) : Except Panic (Feature K) :=
  match HMap.get? s.nameToIndex name with
  | none => .error .unwrapNone
  | some k =>
    match s.features[k]? with
    | none => .error .outOfRange
    | some f => .ok f

/-- `Sample::is_valid_binary_instance`, `src/sample/sample_struct.rs:384-444`. -/
def isValidBinaryInstance [FloorRing K] (s : Sample K) : Except Panic Unit :=
  isValidBinary s.nSample s.target

/-- `Sample::weighted_mean_and_variance`, `src/sample/sample_struct.rs:452-462`. -/
def weightedMeanAndVariance (s : Sample K) (weight : List K) : Except Panic (List (K × K)) :=
  mapAll (fun f => f.weightedMeanAndVariance weight) s.features

/-- `Sample::weighted_mean`, `src/sample/sample_struct.rs:469-477`. -/
def weightedMean (s : Sample K) (weight : List K) : Except Panic (List K) :=
  mapAll (fun f => f.weightedMean weight) s.features

/-- `Sample::weighted_mean_for_label`, `src/sample/sample_struct.rs:484-499`. -/
def weightedMeanForLabel (s : Sample K) (y : K) (weight : List K) : Except Panic (List K) :=
  mapAll (fun f => f.weightedMeanForLabel y s.target weight) s.features

/-- `Sample::weighted_mean_and_variance_for_label`, `src/sample/sample_struct.rs:506-521`. -/
def weightedMeanAndVarianceForLabel (s : Sample K) (y : K) (weight : List K) :
    Except Panic (List (K × K)) :=
  mapAll (fun f => f.weightedMeanAndVarianceForLabel y s.target weight) s.features

/-- `Sample::append`, `src/sample/sample_struct.rs:524-531`. -/
def append (s : Sample K) (row : Nat) (feat : List K) (y : K) : Sample K :=
  { s with features := updateZip (fun (col : Feature K) f => col.append row f) s.features feat
           target := s.target ++ [y] }

/-- One of the three copy loops of `split`, `src/sample/sample_struct.rs:536-590`: the rows `ii` of `s`,
given with their positions `i`, are appended to `dst`. -/
def copyRows (s : Sample K) : List (Nat × Nat) → Sample K → Except Panic (Sample K)
  | [], dst => .ok dst
  | (ii, i) :: rest, dst =>
    match s.at' ii with
    | .error e => .error e
    | .ok (x, y) => copyRows s rest (dst.append i x y)

/-- The loop creating the columns of one half of a split, `src/sample/sample_struct.rs:560-570`. -/
def freshColumns (src : List (Feature K)) (size : Nat) :
    List (String × Nat) → List (Feature K) → Except Panic (List (Feature K))
  | [], fs => .ok fs
  | p :: l, fs =>
    match src[p.2]? with
    | none => .error .outOfRange
    | some f =>
      freshColumns src size l
        (fs.set p.2 (if f.isSparse then (Feature.sparse (SparseFeature.new p.1)).setNSample size
          else Feature.dense (DenseFeature.new p.1)))

/-- The empty sample with the columns of `s`, `src/sample/sample_struct.rs:546-570` (for one of the two halves,
`size` rows). -/
def emptyLike (s : Sample K) (size : Nat) : Except Panic (Sample K) :=
  match freshColumns s.features size s.nameToIndex
      (List.replicate s.features.length (Feature.sparse (SparseFeature.new "dummy"))) with
  | .error e => .error e
  | .ok fs => .ok { nameToIndex := s.nameToIndex, features := fs, target := [], nSample := size,
                    nFeature := s.features.length }

/-- `Sample::split`, `src/sample/sample_struct.rs:536-590`: `(train, test)`. -/
def split (s : Sample K) (ix : List Nat) (start stop : Nat) : Except Panic (Sample K × Sample K) :=
  if stop < start then .error .arith
  else if s.nSample < stop - start then .error .arith
  else
    match s.emptyLike (s.nSample - (stop - start)), s.emptyLike (stop - start) with
    | .ok train₀, .ok test₀ =>
      match s.copyRows (ix.zipIdx.take start) train₀ with
      | .error e => .error e
      | .ok train₁ =>
        match s.copyRows ((ix.zipIdx.take stop).drop start) test₀ with
        | .error e => .error e
        | .ok test =>
          match s.copyRows ((ix.zipIdx.take s.nSample).drop stop) train₁ with
          | .error e => .error e
          | .ok train => .ok (train, test)
    | .error e, _ => .error e
    | _, .error e => .error e

end Sample

/-- `SampleReader`, `src/sample/sample_reader.rs:20-25`; the file is given by its extension and its lines. -/
structure SampleReader where
  file : Option (Option String × List (List Char)) := none
  hasHeader : Bool := false
  target : Option String := none

/-- `SampleReader::read`, `src/sample/sample_reader.rs:70-91` (I/O errors not modelled). -/
def SampleReader.read (parseIx : List Char → Option Nat) (parse : List Char → Option K) (r : SampleReader) :
    Except Panic (Sample K) :=
  match r.file with
  | none => .error .assertion
  | some (ext, lines) =>
    if ext = some "csv" then
      match r.target with
      | none => .error .assertion
      | some t =>
        match Sample.fromCsv parse lines r.hasHeader with
        | .error e => .error e
        | .ok s => s.setTarget t
    else Sample.fromSvmlight parseIx parse lines

/-- `CrossValidation`, `src/research/cross_validation.rs:59-67` (`seed`, `verbose` only steer the shuffle and
the printing; the shuffled index vector `ix` is part of the state). -/
structure CrossValidation (K : Type*) where
  trainSize : Nat
  currentFold : Nat
  nFolds : Nat
  sample : Sample K
  ix : List Nat

namespace CrossValidation

variable [FloorSemiring K]

/-- `CrossValidation::new`, `src/research/cross_validation.rs:73-86`. -/
def new (s : Sample K) : CrossValidation K :=
  { trainSize := ⌊(s.nSample : K) * (8 / 10)⌋₊, currentFold := 0, nFolds := 5, sample := s,
    ix := List.range s.nSample }

/-- `CrossValidation::train_ratio`, `src/research/cross_validation.rs:92-100`. -/
def trainRatio (c : CrossValidation K) (ratio : K) : Except Panic (CrossValidation K) :=
  if 0 < ratio ∧ ratio < 1 then .ok { c with trainSize := ⌊ratio * (c.sample.nSample : K)⌋₊ }
  else .error .assertion

omit [Field K] [LinearOrder K] [FloorSemiring K] in
/-- `CrossValidation::n_folds`, `src/research/cross_validation.rs:106-109`. -/
def setFolds (c : CrossValidation K) (n : Nat) : CrossValidation K := { c with nFolds := n }

omit [Field K] [LinearOrder K] [FloorSemiring K] in
/-- `CrossValidation::shuffle`, `src/research/cross_validation.rs:135-139`: the random shuffle is the parameter
`perm`; what is known about it is that it permutes the vector. -/
def shuffle (c : CrossValidation K) (perm : List Nat → List Nat) : CrossValidation K :=
  { c with ix := perm c.ix }

omit [FloorSemiring K] in
/-- `CrossValidation::fold_at`, `src/research/cross_validation.rs:145-150`. -/
def foldAt (c : CrossValidation K) (i : Nat) : Except Panic (Sample K × Sample K) :=
  if c.sample.nSample < c.trainSize then .error .arith
  else
    c.sample.split c.ix (i * (c.sample.nSample - c.trainSize))
      (min ((i + 1) * (c.sample.nSample - c.trainSize)) c.sample.nSample)

omit [FloorSemiring K] in
/-- `Iterator::next`, `src/research/cross_validation.rs:156-174`. -/
def next (c : CrossValidation K) : Except Panic (Option (Sample K × Sample K) × CrossValidation K) :=
  if c.nFolds ≤ c.currentFold then .ok (none, c)
  else
    match c.foldAt c.currentFold with
    | .error e => .error e
    | .ok out => .ok (some out, { c with currentFold := c.currentFold + 1 })

omit [FloorSemiring K] in
/-- `for (train, test) in cv { .. }`: the pairs the iterator yields (`src/research/cross_validation.rs:154-175`);
`fuel` bounds the number of calls of `next`. -/
def collect : Nat → CrossValidation K → Except Panic (List (Sample K × Sample K))
  | 0, _ => .ok []
  | fuel + 1, c =>
    match c.next with
    | .error e => .error e
    | .ok (none, _) => .ok []
    | .ok (some out, c') => (collect fuel c').map (fun l => out :: l)

end CrossValidation

end Miniboosts
