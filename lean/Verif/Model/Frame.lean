import Verif.Model.Sample

/-! # Data frames: `Sample::from_dataframe`

`polars` is modelled by what `from_dataframe` reads of it: a series has a name and either `f64` values, each possibly null, or another type; a data
frame is a list of series. -/

namespace Miniboosts

/-- The contents of a `polars` `Series`: `Series::f64` succeeds for the first kind only; `none` is a null.
Read by `src/sample/sample_struct.rs:153-157` and `src/sample/feature_struct.rs:248-252`. -/
inductive SeriesData (K : Type*) where
  | f64 (values : List (Option K))
  | other (len : Nat)
  deriving DecidableEq, Repr

/-- A `polars` `Series`, as read by `src/sample/feature_struct.rs:245-255`. -/
structure Series (K : Type*) where
  name : String
  data : SeriesData K
  deriving DecidableEq, Repr

namespace Series

variable {K : Type*}

/-- `Series::len` (polars). -/
def len (s : Series K) : Nat :=
  match s.data with
  | .f64 vs => vs.length
  | .other n => n

/-- `.into_iter().collect::<Option<Vec<_>>>()`, `src/sample/sample_struct.rs:155-156` and `src/sample/feature_struct.rs:250-251`. -/
def collect : List (Option K) → Option (List K)
  | [] => some []
  | none :: _ => none
  | some x :: l => (collect l).map (x :: ·)

/-- `series.f64().expect(..).into_iter().collect::<Option<Vec<_>>>().unwrap()`, `src/sample/sample_struct.rs:153-157` and
`src/sample/feature_struct.rs:248-252`. -/
def values (s : Series K) : Except Panic (List K) :=
  match s.data with
  | .other _ => .error .unwrapNone
  | .f64 vs =>
    match collect vs with
    | none => .error .unwrapNone
    | some l => .ok l

end Series

/-- A `polars` `DataFrame`: its columns, `DataFrame::get_columns`, read by `src/sample/sample_struct.rs:159-164`. -/
structure DataFrame (K : Type*) where
  columns : List (Series K)
  deriving DecidableEq, Repr

/-- `DataFrame::shape` (polars): the length of the first column, the number of columns; called by `src/sample/sample_struct.rs:152`. -/
def DataFrame.shape {K : Type*} (d : DataFrame K) : Nat × Nat :=
  (match d.columns with
    | [] => 0
    | c :: _ => c.len, d.columns.length)

variable {K : Type*}

/-- `DenseFeature::from_series`, `src/sample/feature_struct.rs:245-255`. -/
def DenseFeature.fromSeries (s : Series K) : Except Panic (DenseFeature K) := s.values.map fun l => { name := s.name, sample := l }

/-- The columns of `Sample::from_dataframe`, `src/sample/sample_struct.rs:159-164` (a parallel map that keeps the order). -/
def DataFrame.features : List (Series K) → Except Panic (List (Feature K))
  | [] => .ok []
  | c :: cs =>
    match DenseFeature.fromSeries c with
    | .error e => .error e
    | .ok f =>
      match DataFrame.features cs with
      | .error e => .error e
      | .ok fs => .ok (.dense f :: fs)

/-- `Sample::from_dataframe`, `src/sample/sample_struct.rs:149-175`. -/
def Sample.fromDataframe (data : DataFrame K) (target : Series K) : Except Panic (Sample K) :=
  match target.values with
  | .error e => .error e
  | .ok t =>
    match DataFrame.features data.columns with
    | .error e => .error e
    | .ok features =>
      .ok { nameToIndex := Sample.indexNames features, features := features, target := t, nSample := data.shape.1, nFeature := data.shape.2 }

end Miniboosts
