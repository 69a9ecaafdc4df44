import Verif.Props.Feature
import Verif.Lemmas.Sample
import Verif.Spec.Basic

/-! # C87: the statistics of a sample are the weighted statistics of its columns -/

set_option linter.unusedSectionVars false

namespace Miniboosts.Props

open Spec Miniboosts

variable {K : Type*} [Field K] [LinearOrder K] [IsStrictOrderedRing K]

/-- The weighted mean `Σ_i w_i x_i` of the column `f` over the first `n` rows. -/
def columnMean (n : Nat) (w : List K) (f : Feature K) : K := ∑ i ∈ Finset.range n, w.getD i 0 * f.val i

/-- The weighted variance `Σ_i w_i (x_i - mean)²`. -/
def columnVar (n : Nat) (w : List K) (f : Feature K) : K :=
  ∑ i ∈ Finset.range n, w.getD i 0 * (f.val i - columnMean n w f) ^ 2

theorem val_same {n : Nat} {f : SparseFeature K} {g : DenseFeature K} (h : SparseOk n f) (hg : SameColumn f g) {i : Nat} (hi : i < n) :
    (Feature.sparse f).val i = (Feature.dense g).val i := by
  show f.index i = g.sample.getD i 0
  rw [getD_same h hg hi, ← index_eq_look h.2.1]

theorem column_mean_var {n : Nat} {f : Feature K} (hf : ColumnOk n f) {w : List K} (hw : w.length = n)
    (hok : checkCappedSimplex w 1 = .ok ()) :
    f.weightedMeanAndVariance w = .ok (columnMean n w f, columnVar n w f) ∧ f.weightedMean w = .ok (columnMean n w f) := by
  have dense : ∀ g : DenseFeature K, g.sample.length = n →
      (Feature.dense g).weightedMeanAndVariance w = .ok (columnMean n w (.dense g), columnVar n w (.dense g)) ∧
      (Feature.dense g).weightedMean w = .ok (columnMean n w (.dense g)) := by
    intro g hg
    have hm : g.weightedMean w = columnMean n w (.dense g) := by
      unfold DenseFeature.weightedMean columnMean
      rw [zipWith_sum_range _ 0 0 n g.sample w hg hw]
      exact Finset.sum_congr rfl fun i _ => mul_comm _ _
    have hv : ∀ m, g.weightedVariance m w = ∑ i ∈ Finset.range n, w.getD i 0 * ((Feature.dense g).val i - m) ^ 2 := by
      intro m
      unfold DenseFeature.weightedVariance
      rw [zipWith_sum_range _ 0 0 n g.sample w hg hw]
      rfl
    unfold Feature.weightedMeanAndVariance Feature.weightedMean
    rw [hok]
    simp only [hm, hv]
    exact ⟨rfl, trivial⟩
  cases f with
  | dense g => exact dense g hf
  | sparse f =>
    obtain ⟨g, hg⟩ := exists_dense (K := K) hf
    have hl : g.sample.length = n := by rw [hg.2.1, hf.1]
    obtain ⟨d1, d2⟩ := dense g hl
    have e1 : columnMean n w (.sparse f) = columnMean n w (.dense g) :=
      Finset.sum_congr rfl fun i hi => by rw [val_same hf hg (Finset.mem_range.1 hi)]
    have e2 : columnVar n w (.sparse f) = columnVar n w (.dense g) := by
      unfold columnVar
      rw [e1]
      exact Finset.sum_congr rfl fun i hi => by rw [val_same hf hg (Finset.mem_range.1 hi)]
    rw [e1, e2]
    refine ⟨by rw [mean_and_variance_same hf hg hw, d1], ?_⟩
    unfold Feature.weightedMean at d2 ⊢
    rw [hok] at d2 ⊢
    simp only [mean_same hf hg hw]
    exact d2

/-- C87: for every sample, with dense and sparse columns, and every probability distribution on its rows, the means and variances
reported are those of the columns' values, in the order of the columns. -/
theorem sample_statistics {s : Sample K} (hs : SampleOk s) {w : List K} (hw : w.length = s.nSample)
    (hp : Spec.IsProb w) :
    s.weightedMean w = .ok (s.features.map (fun f => ∑ i ∈ Finset.range s.nSample, w.getD i 0 * f.val i)) ∧
    s.weightedMeanAndVariance w = .ok (s.features.map (fun f =>
      let mean := ∑ i ∈ Finset.range s.nSample, w.getD i 0 * f.val i
      (mean, ∑ i ∈ Finset.range s.nSample, w.getD i 0 * (f.val i - mean) ^ 2))) := by
  have hok : checkCappedSimplex w 1 = .ok () := by
    have hne : w ≠ [] := by rintro rfl; simpa [Spec.IsProb] using hp.2
    have h1 : (1 : K) ≤ w.length := by exact_mod_cast List.length_pos_iff.2 hne
    unfold checkCappedSimplex checkNu
    have hle : ∀ a ∈ w, a ≤ 1 := by
      intro a ha
      rw [← hp.2]
      exact List.single_le_sum hp.1 a ha
    rw [if_pos ⟨le_rfl, h1⟩]
    simp only
    rw [if_pos ⟨by rw [hp.2]; simp, fun a ha => ⟨hp.1 a ha, by rw [div_one]; exact hle a ha⟩⟩]
  constructor
  · exact Sample.mapAll_ok _ _ _ fun f hf => (column_mean_var (hs.columns f hf) hw hok).2
  · exact Sample.mapAll_ok _ _ _ fun f hf => (column_mean_var (hs.columns f hf) hw hok).1

/-- C87: weights that are negative or do not sum to one (up to `1e-5`) make every sample with a column panic. -/
theorem sample_statistics_panics {s : Sample K} (hfe : s.features ≠ []) {w : List K}
    (hw : 1 / 100000 ≤ |w.sum - 1| ∨ ∃ a ∈ w, a < 0) :
    (∃ e, s.weightedMean w = .error e) ∧ ∃ e, s.weightedMeanAndVariance w = .error e := by
  have hbad : ∃ e, checkCappedSimplex w 1 = .error e := by
    unfold checkCappedSimplex
    cases checkNu (1 : K) w.length with
    | error e => exact ⟨e, rfl⟩
    | ok u =>
      refine ⟨.assertion, ?_⟩
      simp only
      rw [if_neg]
      rintro ⟨h1, h2⟩
      rcases hw with h | ⟨a, ha, h⟩
      · exact absurd h1 (not_lt.2 h)
      · exact absurd (h2 a ha).1 (not_le.2 h)
  obtain ⟨e, he⟩ := hbad
  obtain ⟨f, fs, hf⟩ := List.exists_cons_of_ne_nil hfe
  constructor
  · refine ⟨e, ?_⟩
    unfold Sample.weightedMean Sample.mapAll
    rw [hf]
    simp [Feature.weightedMean, he]
  · refine ⟨e, ?_⟩
    unfold Sample.weightedMeanAndVariance Sample.mapAll
    rw [hf]
    simp [Feature.weightedMeanAndVariance, Feature.weightedMean, he]

theorem map_zip_zip_sum (n : Nat) (a : List K) (t : List K) (w : List K) (ha : a.length = n) (ht : t.length = n)
    (hw : w.length = n) (F : K → K → K → K) :
    (((a.zip t).zip w).map (fun p => F p.1.1 p.1.2 p.2)).sum = ∑ i ∈ Finset.range n, F (a.getD i 0) (t.getD i 0) (w.getD i 0) := by
  have h1 : ((a.zip t).zip w).map (fun p => F p.1.1 p.1.2 p.2) = List.zipWith (fun p c => F p.1 p.2 c) (a.zip t) w := by
    rw [List.zip, List.map_zipWith]
  rw [h1, zipWith_sum_range (fun p c => F p.1 p.2 c) (0, 0) 0 n (a.zip t) w (by simp [ha, ht]) hw]
  refine Finset.sum_congr rfl fun i hi => ?_
  have hi' : i < n := Finset.mem_range.1 hi
  have : (a.zip t).getD i (0, 0) = (a.getD i 0, t.getD i 0) := by
    simp [List.getD_eq_getElem?_getD, List.getElem?_eq_getElem, hi', ha, ht]
  rw [this]

theorem totalWeight_sum (y : K) : ∀ (n : Nat) (t w : List K), t.length = n → w.length = n →
    totalWeightForLabel y t w = ∑ i ∈ Finset.range n, if t.getD i 0 = y then w.getD i 0 else 0 := by
  intro n t w ht hw
  rw [← zipWith_sum_range (fun a b => if a = y then b else 0) 0 0 n t w ht hw]
  unfold totalWeightForLabel
  clear ht hw
  induction t generalizing w with
  | nil => simp
  | cons a t ih =>
    cases w with
    | nil => simp
    | cons b w =>
      simp only [List.zip_cons_cons, List.zipWith_cons_cons, List.sum_cons, List.filterMap_cons]
      split_ifs with h
      · simp [ih]
      · simp [ih]

/-- C87: for a sample of dense columns and a label of non-zero total weight, the per-label means and variances are those of the rows
with that label (the variance of a label is taken around the label's mean). -/
theorem sample_label_statistics {s : Sample K} (hs : SampleOk s) (hd : ∀ f ∈ s.features, ∃ g, f = .dense g) {w : List K}
    (hw : w.length = s.nSample) (y : K) (hy : (∑ i ∈ Finset.range s.nSample, if s.target.getD i 0 = y then w.getD i 0 else 0) ≠ 0) :
    let W := ∑ i ∈ Finset.range s.nSample, if s.target.getD i 0 = y then w.getD i 0 else 0
    let mean := fun f : Feature K => (∑ i ∈ Finset.range s.nSample, if s.target.getD i 0 = y then w.getD i 0 * f.val i else 0) / W
    s.weightedMeanForLabel y w = .ok (s.features.map mean) ∧
    s.weightedMeanAndVarianceForLabel y w = .ok (s.features.map fun f =>
      (mean f, (∑ i ∈ Finset.range s.nSample, if s.target.getD i 0 = y then w.getD i 0 * (f.val i - mean f) ^ 2 else 0) / W)) := by
  intro W mean
  have hW : labelWeight y s.target w = W := by
    unfold labelWeight
    rw [totalWeight_sum y s.nSample s.target w hs.labels hw, if_neg hy]
  have hmean : ∀ g : DenseFeature K, g.sample.length = s.nSample → g.weightedMeanForLabel y s.target w = mean (.dense g) := by
    intro g hg
    unfold DenseFeature.weightedMeanForLabel
    rw [hW, map_zip_zip_sum s.nSample g.sample s.target w hg hs.labels hw (fun a t c => if t ≠ y then 0 else a * c)]
    show _ / W = _ / W
    congr 1
    refine Finset.sum_congr rfl fun i _ => ?_
    simp only [Feature.val, ne_eq, ite_not]
    split_ifs
    · ring
    · rfl
  have hvar : ∀ g : DenseFeature K, g.sample.length = s.nSample → ∀ m, g.weightedVarianceForLabel m y s.target w =
      (∑ i ∈ Finset.range s.nSample, if s.target.getD i 0 = y then w.getD i 0 * ((Feature.dense g).val i - m) ^ 2 else 0) / W := by
    intro g hg m
    unfold DenseFeature.weightedVarianceForLabel
    rw [hW, map_zip_zip_sum s.nSample g.sample s.target w hg hs.labels hw (fun a t c => if t ≠ y then 0 else c * (a - m) ^ 2)]
    congr 1
    refine Finset.sum_congr rfl fun i _ => ?_
    simp only [Feature.val, ne_eq, ite_not]
  constructor
  · refine Sample.mapAll_ok _ _ _ fun f hf => ?_
    obtain ⟨g, rfl⟩ := hd f hf
    show Except.ok _ = _
    rw [hmean g (hs.columns _ hf)]
  · refine Sample.mapAll_ok _ _ _ fun f hf => ?_
    obtain ⟨g, rfl⟩ := hd f hf
    unfold Feature.weightedMeanAndVarianceForLabel Feature.weightedMeanForLabel
    simp only [hmean g (hs.columns _ hf), hvar g (hs.columns _ hf)]

/-! ## The hypotheses are met -/

/-- Two rows, a dense and a sparse column. -/
def exStats : Sample ℚ :=
  { nameToIndex := [("x", 0), ("z", 1)], features := [.dense ⟨"x", [1, 3]⟩, .sparse ⟨"z", [(1, 4)], 2⟩], target := [1, -1], nSample := 2, nFeature := 2 }

theorem exStats_ok : SampleOk exStats := by
  refine ⟨rfl, by decide, by decide, ?_, rfl⟩
  intro f hf
  simp only [exStats, List.mem_cons, List.not_mem_nil, or_false] at hf
  rcases hf with rfl | rfl
  · rfl
  · exact ⟨rfl, by decide, by decide⟩

example : exStats.weightedMean [1 / 4, 3 / 4] = .ok [5 / 2, 3] := by
  rw [(sample_statistics exStats_ok rfl (w := [1 / 4, 3 / 4]) ⟨by decide +kernel, by norm_num⟩).1]
  simp [exStats, Feature.val, Finset.sum_range_succ, SparseFeature.index]
  decide +kernel

end Miniboosts.Props
