import Verif.Lemmas.Feature
import Verif.Lemmas.Basic
import Mathlib.Tactic.NormNum
import Mathlib.Tactic.IntervalCases
import Mathlib.Algebra.Order.Field.Rat

/-! # C44 (columns), C45: reading sparse columns; statistics of sparse and dense columns -/

set_option linter.unusedSectionVars false

namespace Miniboosts.Props

open Spec

variable {K : Type*} [Field K] [LinearOrder K] [IsStrictOrderedRing K]

/-- C44 (columns): a sparse column returns exactly the stored value where one is stored, zero elsewhere. -/
theorem sparse_reads_back {n : Nat} {f : SparseFeature K} (h : SparseOk n f) (i : Nat) :
    (∀ v, (i, v) ∈ f.sample → Feature.index (.sparse f) i = .ok v) ∧
    ((∀ p ∈ f.sample, p.1 ≠ i) → Feature.index (.sparse f) i = .ok 0) :=
  ⟨fun _ hv => by rw [Feature.index, sparse_index_mem h.2.1 hv],
   fun hx => by rw [Feature.index, sparse_index_absent hx]⟩

/-- A sparse and a dense column with the same values answer every row query alike. -/
theorem sparse_dense_index {n : Nat} {f : SparseFeature K} {g : DenseFeature K} (h : SparseOk n f)
    (hg : SameColumn f g) {i : Nat} (hi : i < n) :
    Feature.index (.sparse f) i = Feature.index (.dense g) i := by
  have hlt : i < g.sample.length := by rw [hg.2.1, h.1]; exact hi
  have e : g.sample[i]? = some g.sample[i] := List.getElem?_eq_getElem hlt
  rw [Feature.index, Feature.index, DenseFeature.index, e]
  simp only
  rw [sparseVal_eq h.2.1 (hg.2.2 i _ e)]

/-- Every well-formed sparse column has a dense counterpart. -/
theorem exists_dense {n : Nat} {f : SparseFeature K} (h : SparseOk n f) :
    ∃ g, SameColumn f g := by
  refine ⟨{ name := f.name, sample := (List.range n).map f.index }, rfl, by simp [h.1], ?_⟩
  intro i v hv
  simp only [List.getElem?_map, Option.map_eq_some_iff] at hv
  obtain ⟨j, hj, rfl⟩ := hv
  have : j = i := by
    have := List.getElem?_eq_some_iff.mp hj
    obtain ⟨h1, h2⟩ := this
    simpa using h2.symm
  subst this
  exact sparse_index_val h.2.1 j

theorem getD_same {n : Nat} {f : SparseFeature K} {g : DenseFeature K} (h : SparseOk n f) (hg : SameColumn f g)
    {i : Nat} (hi : i < n) : g.sample.getD i 0 = look f.sample i := by
  have hlt : i < g.sample.length := by rw [hg.2.1, h.1]; exact hi
  have e : g.sample[i]? = some g.sample[i] := List.getElem?_eq_getElem hlt
  rw [List.getD_eq_getElem?_getD, e, Option.getD_some, ← index_eq_look h.2.1,
    sparseVal_eq h.2.1 (hg.2.2 i _ e)]

theorem sum_same {n : Nat} {f : SparseFeature K} {g : DenseFeature K} (h : SparseOk n f) (hg : SameColumn f g)
    (G : Nat → K → K) : ∑ i ∈ Finset.range n, G i (g.sample.getD i 0)
      = (f.sample.map fun p => G p.1 p.2).sum
        + ∑ i ∈ Finset.range n, if i ∈ f.sample.map Prod.fst then 0 else G i 0 := by
  rw [← sum_look G n f.sample (nodup_keys h.2.1) h.2.2]
  exact Finset.sum_congr rfl fun i hi => by rw [getD_same h hg (Finset.mem_range.mp hi)]

/-- C45: the weighted mean of a sparse column is that of the dense column with the same values. -/
theorem mean_same {n : Nat} {f : SparseFeature K} {g : DenseFeature K} (h : SparseOk n f) (hg : SameColumn f g)
    {w : List K} (hw : w.length = n) : f.weightedMean w = .ok (g.weightedMean w) := by
  rw [SparseFeature.weightedMean, meanSum_ok w _ (fun p hp => by rw [hw]; exact h.2.2 p hp)]
  congr 1
  rw [DenseFeature.weightedMean, zipWith_sum_range _ 0 0 n g.sample w (by rw [hg.2.1, h.1]) hw,
    sum_same h hg (fun i x => x * w.getD i 0)]
  simp only [mul_comm]
  simp

/-- C45: the weighted variance likewise. -/
theorem variance_same {n : Nat} {f : SparseFeature K} {g : DenseFeature K} (h : SparseOk n f)
    (hg : SameColumn f g) {w : List K} (hw : w.length = n) (mean : K) :
    f.weightedVariance mean w = .ok (g.weightedVariance mean w) := by
  obtain ⟨st, h1, h2, h3, h4⟩ := varLoop_ok mean w f.sample { variance := 0, zeroWeight := 0, prev := 0 } h.2.1
    (fun p hp => ⟨Nat.zero_le _, by rw [hw]; exact h.2.2 p hp⟩) (Nat.zero_le _)
  rw [SparseFeature.weightedVariance, h1]
  simp only
  rw [rangeSum_ok h2 le_rfl]
  simp only
  congr 1
  rw [h4, h3, DenseFeature.weightedVariance, zipWith_sum_range _ 0 0 n g.sample w (by rw [hg.2.1, h.1]) hw,
    sum_same h hg (fun i x => w.getD i 0 * (x - mean) ^ 2), hw]
  simp only [zero_add, Nat.Ico_zero_eq_range]
  rw [Finset.sum_mul]
  congr 1
  refine Finset.sum_congr rfl fun i _ => ?_
  split <;> ring

/-- C45: mean and variance through the public entry point (which first checks that the weights form a
probability vector) agree for both representations, and so do the panics. -/
theorem mean_and_variance_same {n : Nat} {f : SparseFeature K} {g : DenseFeature K} (h : SparseOk n f)
    (hg : SameColumn f g) {w : List K} (hw : w.length = n) :
    (Feature.sparse f).weightedMeanAndVariance w = (Feature.dense g).weightedMeanAndVariance w := by
  unfold Feature.weightedMeanAndVariance Feature.weightedMean
  cases checkCappedSimplex w 1 with
  | error e => rfl
  | ok u =>
    simp only [mean_same h hg hw, variance_same h hg hw, Except.map]

/-- Number of distinct values of a dense column. -/
theorem dense_distinct (g : DenseFeature K) : g.distinctValueCount = distinct g.sample :=
  innerDistinct_eq g.sample

theorem values_same {n : Nat} {f : SparseFeature K} {g : DenseFeature K} (h : SparseOk n f) (hg : SameColumn f g)
    (v : K) : v ∈ g.sample ↔ v ∈ f.sample.map Prod.snd ∨ (f.sample.length < n ∧ v = 0) := by
  constructor
  · intro hv
    obtain ⟨i, hi, rfl⟩ := List.getElem_of_mem hv
    rcases hg.2.2 i _ (List.getElem?_eq_getElem hi) with hs | ⟨hs, h0⟩
    · left; exact List.mem_map.mpr ⟨_, hs, rfl⟩
    · right
      refine ⟨?_, h0⟩
      have hsub : f.sample.map Prod.fst ⊆ (List.range n).erase i := by
        intro j hj
        obtain ⟨p, hp, rfl⟩ := List.mem_map.mp hj
        rw [List.Nodup.mem_erase_iff List.nodup_range]
        exact ⟨hs p hp, List.mem_range.mpr (h.2.2 p hp)⟩
      have hlen := ((nodup_keys h.2.1).subperm hsub).length_le
      rw [List.length_map, List.length_erase_of_mem
        (List.mem_range.mpr (by rw [← h.1, ← hg.2.1]; exact hi)), List.length_range] at hlen
      have : i < n := by rw [← h.1, ← hg.2.1]; exact hi
      omega
  · rintro (hv | ⟨hlt, rfl⟩)
    · obtain ⟨⟨i, x⟩, hp, rfl⟩ := List.mem_map.mp hv
      have hi : i < g.sample.length := by rw [hg.2.1, h.1]; exact h.2.2 _ hp
      have e := sparseVal_eq h.2.1 (hg.2.2 i _ (List.getElem?_eq_getElem hi))
      rw [sparse_index_mem h.2.1 hp] at e
      simp only
      rw [e]; exact List.getElem_mem hi
    · have : ∃ i < n, i ∉ f.sample.map Prod.fst := by
        by_contra hcon
        simp only [not_exists, not_and, not_not] at hcon
        have hsub : List.range n ⊆ f.sample.map Prod.fst := fun i hi => hcon i (List.mem_range.mp hi)
        have := (List.nodup_range.subperm hsub).length_le
        rw [List.length_map, List.length_range] at this
        omega
      obtain ⟨i, hi, hni⟩ := this
      have hi' : i < g.sample.length := by rw [hg.2.1, h.1]; exact hi
      have e := sparseVal_eq h.2.1 (hg.2.2 i _ (List.getElem?_eq_getElem hi'))
      rw [sparse_index_absent (fun p hp hpi => hni (List.mem_map.mpr ⟨p, hp, hpi⟩))] at e
      rw [e]; exact List.getElem_mem hi'

/-- C45: the distinct-value counts agree exactly when the column does not both store a zero explicitly and
leave a row out; in that remaining case the sparse count is one too large. -/
theorem distinct_same_partial {n : Nat} {f : SparseFeature K} {g : DenseFeature K} (h : SparseOk n f)
    (hg : SameColumn f g) :
    f.distinctValueCount = g.distinctValueCount
      + (if f.sample.length < n ∧ (0 : K) ∈ f.sample.map Prod.snd then 1 else 0) := by
  rw [SparseFeature.distinctValueCount, dense_distinct, innerDistinct_eq, SparseFeature.hasZero, h.1]
  by_cases hz : f.sample.length < n
  · simp only [hz, decide_true, if_true, true_and]
    have hset : g.sample.toFinset = insert 0 (f.sample.map Prod.snd).toFinset := by
      ext v
      rw [List.mem_toFinset, values_same h hg, Finset.mem_insert, List.mem_toFinset]
      simp only [hz, true_and]; exact or_comm
    unfold distinct
    by_cases h0 : (0 : K) ∈ f.sample.map Prod.snd
    · rw [hset, Finset.insert_eq_of_mem (by rw [List.mem_toFinset]; exact h0), if_pos h0]
    · rw [hset, Finset.card_insert_of_notMem (by rw [List.mem_toFinset]; exact h0), if_neg h0]
  · have hset : g.sample.toFinset = (f.sample.map Prod.snd).toFinset := by
      ext v
      rw [List.mem_toFinset, values_same h hg, List.mem_toFinset]
      simp [hz]
    unfold distinct
    rw [hset]
    simp [hz]

/-- C45 fails per label: with at least one stored row and all labels equal to `y`, the sparse per-label mean is
`0`, whatever the values (the test in the code selects the rows of the *other* labels). -/
theorem sparse_label_mean_zero (f : SparseFeature K) (y : K) {target w : List K}
    (ht : ∀ t ∈ target, t = y) : f.weightedMeanForLabel y target w = .ok 0 := by
  rw [SparseFeature.weightedMeanForLabel]
  have : ∀ l : List ((Nat × K) × K), (∀ p ∈ l, p.2 = y) → SparseFeature.labelMeanSum y w l = .ok 0 := by
    intro l
    induction l with
    | nil => intro _; rfl
    | cons p l ih =>
      intro hl
      unfold SparseFeature.labelMeanSum
      rw [if_pos (hl p (by simp)), ih (fun q hq => hl q (List.mem_cons_of_mem _ hq))]
      simp [Except.map]
  rw [this _ (fun p hp => ht _ (List.of_mem_zip hp).2)]
  simp [Except.map]

/-- C45, per-label variance: the sparse value is the dense one plus `mean²` times the weight of the absent rows
carrying *another* label, divided by the weight of the label. -/
theorem label_variance_excess_partial {n : Nat} {f : SparseFeature K} {g : DenseFeature K} (h : SparseOk n f)
    (hg : SameColumn f g) {target w : List K} (hw : w.length = n) (ht : target.length = n) (mean y : K) :
    f.weightedVarianceForLabel mean y target w
      = .ok (g.weightedVarianceForLabel mean y target w
          + (∑ i ∈ Finset.range n, if i ∈ f.sample.map Prod.fst then 0
              else if target.getD i 0 = y then 0 else w.getD i 0) * mean ^ 2 / labelWeight y target w) := by
  obtain ⟨st, h1, h2, h3, h4⟩ := labelVarLoop_ok mean y target w (by rw [ht, hw]) f.sample
    { variance := 0, zeroWeight := 0, prev := 0 } h.2.1
    (fun p hp => ⟨Nat.zero_le _, by rw [hw]; exact h.2.2 p hp⟩) (Nat.zero_le _)
  rw [SparseFeature.weightedVarianceForLabel, h1]
  simp only
  rw [rangeSum_ok h2 le_rfl]
  simp only
  congr 1
  have hd : (((g.sample.zip target).zip w).map
      (fun p => if p.1.2 ≠ y then 0 else p.2 * (p.1.1 - mean) ^ 2)).sum
      = ∑ i ∈ Finset.range n, if target.getD i 0 = y then w.getD i 0 * (g.sample.getD i 0 - mean) ^ 2 else 0 := by
    have hgl : g.sample.length = n := by rw [hg.2.1, h.1]
    rw [List.zip_eq_zipWith (l₁ := g.sample.zip target) (l₂ := w), List.map_zipWith,
      zipWith_sum_range _ ((0 : K), (0 : K)) 0 n _ w (by rw [List.length_zip, hgl, ht, min_self]) hw]
    refine Finset.sum_congr rfl fun i hi => ?_
    have hi := Finset.mem_range.mp hi
    have e : (g.sample.zip target).getD i ((0 : K), (0 : K)) = (g.sample.getD i 0, target.getD i 0) := by
      have h1 : i < g.sample.length := by omega
      have h2 : i < target.length := by omega
      have h3 : i < (g.sample.zip target).length := by rw [List.length_zip]; omega
      simp [h1, h2, h3]
    rw [e]
    simp only [ne_eq, ite_not]
  rw [DenseFeature.weightedVarianceForLabel, hd, h4, h3,
    sum_same h hg (fun i x => if target.getD i 0 = y then w.getD i 0 * (x - mean) ^ 2 else 0), hw, ← add_div]
  simp only [zero_add, Nat.Ico_zero_eq_range]
  rw [add_assoc, Finset.sum_mul, Finset.sum_mul, ← Finset.sum_add_distrib]
  congr 2
  refine Finset.sum_congr rfl fun i _ => ?_
  split
  · simp
  · split <;> ring

/-- The sparse column with the single value `2` in row 1 of three rows, and its dense form. -/
def exSparse : SparseFeature ℚ := { name := "f", sample := [(1, 2)], nSample := 3 }
def exDense : DenseFeature ℚ := { name := "f", sample := [0, 2, 0] }

example : SparseOk 3 exSparse := by
  refine ⟨rfl, by decide, ?_⟩
  intro p hp
  simp only [exSparse, List.mem_singleton] at hp
  subst hp; decide

theorem exSame : SameColumn exSparse exDense := by
  refine ⟨rfl, rfl, ?_⟩
  intro i v hv
  have : i < 3 := (List.getElem?_eq_some_iff.mp hv).1
  unfold SparseVal
  interval_cases i <;> simp [exDense, exSparse] at hv ⊢ <;> exact hv.symm

/-- C45 fails per label: a concrete disagreement.  All three rows carry label `1`, weights `1/3`: the per-label
mean of the dense column is `2/3`, of the sparse one `0`. -/
theorem label_mean_differs :
    exSparse.weightedMeanForLabel 1 [1, 1, 1] [1 / 3, 1 / 3, 1 / 3] = .ok 0 ∧
    exDense.weightedMeanForLabel 1 [1, 1, 1] [1 / 3, 1 / 3, 1 / 3] = 2 / 3 := by
  constructor
  · exact sparse_label_mean_zero _ _ (by simp)
  · decide +kernel

/-- C45 fails per label: with labels `1, 1, -1` and the correct mean `1` of label `1`, the dense variance is `1`
and the sparse one `3/2`. -/
theorem label_variance_differs :
    exSparse.weightedVarianceForLabel 1 1 [1, 1, -1] [1 / 3, 1 / 3, 1 / 3] = .ok (3 / 2) ∧
    exDense.weightedVarianceForLabel 1 1 [1, 1, -1] [1 / 3, 1 / 3, 1 / 3] = 1 := by
  constructor <;> decide +kernel

/-- C45 fails for the distinct-value count when a zero is stored explicitly: values `0, 5, 0` with the first zero
stored count as three. -/
theorem distinct_differs :
    ({ name := "f", sample := [(0, 0), (1, 5)], nSample := 3 } : SparseFeature ℚ).distinctValueCount = 3 ∧
    ({ name := "f", sample := [0, 5, 0] } : DenseFeature ℚ).distinctValueCount = 2 := by
  constructor <;> decide +kernel

example : exSparse.weightedMean [1 / 3, 1 / 3, 1 / 3] = .ok (2 / 3) := by decide +kernel
example : exSparse.weightedVariance (2 / 3) [1 / 3, 1 / 3, 1 / 3] = .ok (8 / 9) := by decide +kernel
example : (Feature.sparse exSparse).index 1 = .ok 2 ∧ (Feature.sparse exSparse).index 2 = .ok 0 := by
  decide +kernel

end Miniboosts.Props
