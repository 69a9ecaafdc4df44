import Verif.Model.Sample
import Mathlib.Data.Finset.Card

/-! # Specification vocabulary for samples -/

namespace Miniboosts.Spec

variable {K : Type*} [Field K] [LinearOrder K]

/-- A sparse column stores at most one value per row, in increasing row order, for rows below `n`. -/
def SparseOk (n : Nat) (f : SparseFeature K) : Prop :=
  f.nSample = n ∧ (f.sample.map Prod.fst).Pairwise (· < ·) ∧ ∀ p ∈ f.sample, p.1 < n

/-- A column of a sample with `n` rows. -/
def ColumnOk (n : Nat) : Feature K → Prop
  | .dense f => f.sample.length = n
  | .sparse f => SparseOk n f

/-- A well-formed sample: its columns have the right length and distinct names, the name table and the two
counters agree with the columns, and there is one label per row. -/
structure SampleOk (s : Sample K) : Prop where
  count : s.nFeature = s.features.length
  names : (s.features.map Feature.name).Nodup
  table : s.nameToIndex = (s.features.map Feature.name).zipIdx
  columns : ∀ f ∈ s.features, ColumnOk s.nSample f
  labels : s.target.length = s.nSample

/-- `v` is the value of the sparse column `f` in row `i`: the stored value, or zero when none is stored. -/
def SparseVal (f : SparseFeature K) (i : Nat) (v : K) : Prop :=
  (i, v) ∈ f.sample ∨ ((∀ p ∈ f.sample, p.1 ≠ i) ∧ v = 0)

/-- The dense column `g` has the same name and the same values as the sparse column `f`. -/
def SameColumn (f : SparseFeature K) (g : DenseFeature K) : Prop :=
  g.name = f.name ∧ g.sample.length = f.nSample ∧ ∀ i v, g.sample[i]? = some v → SparseVal f i v

/-- The number of different values in a list. -/
def distinct (l : List K) : Nat := l.toFinset.card

end Miniboosts.Spec

namespace Miniboosts

variable {K : Type*} [Field K] [LinearOrder K]

/-- The value of a column in row `i`: zero outside; for a sparse column what `SparseFeature.index` reads, which
is the stored value or zero (`Props.sparse_reads_back`). -/
def Feature.val (f : Feature K) (i : Nat) : K :=
  match f with
  | .dense f => f.sample.getD i 0
  | .sparse f => f.index i

end Miniboosts
