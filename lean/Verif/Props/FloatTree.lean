import Verif.Lemmas.FloatGrow
import Verif.Lemmas.TreeWeak
import Verif.Props.FloatCut
import Verif.Spec.Float

/-! # Training a decision tree in `f64` (C94)

In exact arithmetic training never panics (C71).  In `f64` the same is true for the criteria entropy, edge and twoing: whatever the
rounding, the order in which the hash maps are traversed and the way rayon divides the sums.  For the criterion Gini it is false: the
search may remove a label too early and then look for it. -/

namespace Miniboosts.Props

open Miniboosts Spec F64

/-- The columns of the sample are of moderate size: the conditions of C93, with at most `10⁵` bins. -/
def ModerateColumns (b : DecisionTreeBuilder ℝ) : Prop :=
  ∀ f ∈ b.sample.features, ∃ n lo hi M, HMap.get? b.nBins f.name = some n ∧ 1 ≤ n ∧ n ≤ 10 ^ 5 ∧ IsRange b.sample.nSample f lo hi ∧ 1 ≤ M ∧
    (∀ v, ValueOf b.sample.nSample f v → |v| ≤ M) ∧ ((n : ℝ) + 8) * M ≤ 2 ^ 21 ∧ (n = 1 ∨ 3 / 10 ^ 9 ≤ binWidth lo hi n)

theorem node_of_weights {s : Sample ℝ} {w : List ℝ} (hw : TreeWeights s.nSample w) (hn : s.nSample ≤ 10 ^ 5) :
    ∃ idx, FTree.positiveRows (w.map fin) (List.range s.nSample) = some idx ∧ idx ≠ [] ∧ FTree.Node s (w.map fin) (fun i => w.getD i 0) idx := by
  classical
  have hget : ∀ i, i < s.nSample → (w.map fin)[i]? = some (fin (w.getD i 0)) ∧ w.getD i 0 ∈ w := by
    intro i hi
    have hi' : i < w.length := by rw [hw.length]; exact hi
    rw [List.getElem?_map, List.getElem?_eq_getElem hi', List.getD_eq_getElem?_getD, List.getElem?_eq_getElem hi']
    exact ⟨rfl, List.getElem_mem hi'⟩
  have hsum : ((List.range s.nSample).map fun i => w.getD i 0).sum = w.sum := by
    congr 1
    refine List.ext_getElem (by simp [hw.length]) fun i h1 h2 => ?_
    simp [List.getD_eq_getElem?_getD, List.getElem?_eq_getElem h2]
  refine ⟨_, FTree.positiveRows_f64 (w := fun i => w.getD i 0) _ fun i hi => (hget i (List.mem_range.mp hi)).1, ?_, ?_⟩
  · obtain ⟨x, hx, hx0⟩ := hw.some_pos
    obtain ⟨i, hi, rfl⟩ := List.getElem_of_mem hx
    refine List.ne_nil_of_mem (a := i) (List.mem_filter.mpr ⟨List.mem_range.mpr (by rw [← hw.length]; exact hi), ?_⟩)
    rw [decide_eq_true_iff, List.getD_eq_getElem?_getD, List.getElem?_eq_getElem hi]
    exact hx0
  · refine ⟨fun i hi => List.mem_range.mp (List.mem_filter.mp hi).1, fun i hi => ?_, ?_, ?_⟩
    · obtain ⟨h1, h2⟩ := hget i (List.mem_range.mp (List.mem_filter.mp hi).1)
      have h3 : 0 < w.getD i 0 := by simpa using (List.mem_filter.mp hi).2
      refine ⟨h1, ?_, hw.double _ h2⟩
      obtain ⟨k, j, hk, hj, e⟩ := hw.double _ h2
      rw [e] at h3 ⊢
      have h2j : (0 : ℝ) < 2 ^ j := by positivity
      have hk0 : 0 < k := by
        have : (0 : ℝ) < k := (mul_pos_iff_of_pos_right h2j).mp h3
        exact_mod_cast this
      have hk1 : (1 : ℝ) ≤ k := by exact_mod_cast hk0
      rw [← two_eta]
      calc (2 : ℝ) ^ (-1074 : ℤ) ≤ 2 ^ j := zpow_le_zpow_right₀ (by norm_num) hj
        _ ≤ k * 2 ^ j := le_mul_of_one_le_left h2j.le hk1
    · exact (List.length_filter_le _ _).trans (by simpa using hn)
    · refine le_trans ?_ (hsum.le.trans hw.sum)
      have h0 : ∀ i ∈ List.range s.nSample, 0 ≤ w.getD i 0 := fun i hi => hw.nonneg _ (hget i (List.mem_range.mp hi)).2
      generalize List.range s.nSample = l at h0
      induction l with
      | nil => simp
      | cons i l ih =>
        have hi := h0 i (by simp)
        have := ih fun j hj => h0 j (List.mem_cons_of_mem _ hj)
        rw [List.filter_cons]
        split <;> simp only [List.map_cons, List.sum_cons] <;> linarith

/-- C94, positive part: the builder succeeds, training has an outcome, and every outcome — whatever the order of the hash maps and the
division of the parallel sums — is a tree, never a panic, which answers every row of the sample with a number in `[-1, 1]`.  Missing: the
criterion Gini, for which it is false (`tree_f64_gini_panics`), and samples that are larger than the conditions allow. -/
theorem tree_f64_trains_partial (L : Libm) (b : DecisionTreeBuilder ℝ) (hs : SampleOk b.sample) (hf : b.sample.features ≠ [])
    (hn : 0 < b.sample.nSample) (hn' : b.sample.nSample ≤ 10 ^ 5) (hcol : ModerateColumns b) (hc : b.criterion ≠ .gini)
    (w : List ℝ) (hw : TreeWeights b.sample.nSample w) :
    ∃ t : FTree.Tree, (∀ fuel, 10 ^ 5 ≤ fuel → FTree.build fuel b = some (.ok t)) ∧
      (∃ o, FTree.Produce L t b.sample (w.map fin) o) ∧
      ∀ o, FTree.Produce L t b.sample (w.map fin) o → ∃ tree, o = some tree ∧
        ∀ row < b.sample.nSample, ∃ x : ℝ, FTree.confidence b.sample row tree = some (fin x) ∧ |x| ≤ 1 := by
  obtain ⟨t, t1, t2, t3, t4⟩ := tree_build_f64_partial b hs hn (10 ^ 5) hcol
  refine ⟨t, t1, ?_⟩
  have hb : FTree.BinsOk t b.sample := by
    refine ⟨hs, hf, fun f hf i hi => ?_, fun f hf => ?_⟩
    · obtain ⟨n, lo, hi', M, h1, h2, h3, h4, h5, h6, h7, h8⟩ := hcol f hf
      have hM : M ≤ 2 ^ 21 := by
        have : (0 : ℝ) ≤ n := Nat.cast_nonneg n
        nlinarith
      exact big_lt ((h6 _ ⟨i, hi, Feature.index_val (hs.columns f hf) hi⟩).trans (hM.trans (by norm_num)))
    · obtain ⟨rb, r1, r2, r3, -⟩ := t4 f hf
      obtain ⟨n, lo, hi', M, h1, h2, h3, h4⟩ := hcol f hf
      rw [h1] at r2
      exact ⟨rb, r1, by rw [Option.some.inj r2]; exact h3, r3⟩
  obtain ⟨idx, i1, i2, i3⟩ := node_of_weights hw hn'
  obtain ⟨⟨x, hx⟩, hall⟩ := FTree.fullTree_ok L (by rw [t2]; exact hc) hb t.maxDepth idx i3 i2
  unfold FTree.Produce
  rw [i1]
  simp only [i2, if_false]
  refine ⟨⟨_, x, hx, rfl⟩, ?_⟩
  rintro o ⟨x, hx, rfl⟩
  obtain ⟨node, rfl, hg⟩ := hall x hx
  exact ⟨_, rfl, fun row hrow => FTree.confidence_good hs hrow _ (FTree.ofTrain_good _ (FTree.removeRedundant_good _ hg))⟩

/-! ## A sample for which the criterion Gini panics -/

/-- One column with the values `0`, `1`, `3`. -/
def giniSample : Sample ℝ := oneColumn [0, 1, 3] [1, -1, 1]

/-- The weights `1/2`, `1/2`, `2⁻⁶⁰`. -/
noncomputable def giniWeights : List ℝ := [1 / 2, 1 / 2, 1 / 2 ^ 60]

theorem giniWeights_ok : TreeWeights 3 giniWeights := by
  have h2 : Double (1 / 2) := ⟨1, -1, by norm_num, by norm_num, by norm_num⟩
  have h60 : Double (1 / 2 ^ 60) := ⟨1, -60, by norm_num, by norm_num, by norm_num⟩
  refine ⟨rfl, ?_, ?_, ⟨1 / 2, by simp [giniWeights], by norm_num⟩, by norm_num [giniWeights]⟩
  · intro x hx
    simp only [giniWeights, List.mem_cons, List.not_mem_nil, or_false] at hx
    rcases hx with rfl | rfl | rfl
    · exact h2
    · exact h2
    · exact h60
  · intro x hx
    simp only [giniWeights, List.mem_cons, List.not_mem_nil, or_false] at hx
    rcases hx with rfl | rfl | rfl <;> norm_num

theorem giniSample_distinct : distinct [(0 : ℝ), 1, 3] = 3 := by
  unfold distinct
  rw [List.toFinset_card_of_nodup]
  · rfl
  · norm_num [List.nodup_cons]

theorem giniSample_bins : (DecisionTreeBuilder.new giniSample).nBins = [("x", 3)] := by
  unfold DecisionTreeBuilder.new giniSample oneColumn
  simp only [List.map_cons, List.map_nil, Feature.name, Feature.distinctValueCount, dense_distinct, giniSample_distinct]
  rfl

theorem giniSample_columns (c : Criterion) : ModerateColumns ((DecisionTreeBuilder.new giniSample).setCriterion c) := by
  intro f hf
  have hf' : f ∈ [Feature.dense ⟨"x", [(0 : ℝ), 1, 3]⟩] := hf
  rw [List.mem_singleton] at hf'
  subst hf'
  have hv : ∀ v : ℝ, ValueOf 3 (.dense ⟨"x", [0, 1, 3]⟩) v ↔ v ∈ [(0 : ℝ), 1, 3] := fun v => valueOf_dense (n := 3) (f := ⟨"x", [0, 1, 3]⟩) rfl v
  refine ⟨3, 0, 3, 3, ?_, by norm_num, by norm_num, ⟨(hv _).mpr (by simp), (hv _).mpr (by simp), fun v h => ?_⟩, by norm_num, fun v h => ?_, by norm_num,
    Or.inr (by norm_num [binWidth])⟩
  · show HMap.get? (DecisionTreeBuilder.new giniSample).nBins _ = _
    rw [giniSample_bins]
    rfl
  · have := (hv v).mp h
    simp only [List.mem_cons, List.not_mem_nil, or_false] at this
    rcases this with rfl | rfl | rfl <;> norm_num
  · have := (hv v).mp h
    simp only [List.mem_cons, List.not_mem_nil, or_false] at this
    rcases this with rfl | rfl | rfl <;> norm_num

/-- The conditions of `tree_f64_trains_partial` are met by this sample and these weights, for the criterion twoing. -/
example (L : Libm) : ∃ t : FTree.Tree, (∀ fuel, 10 ^ 5 ≤ fuel → FTree.build fuel ((DecisionTreeBuilder.new giniSample).setCriterion .twoing) = some (.ok t)) ∧
    ∀ o, FTree.Produce L t giniSample (giniWeights.map fin) o → ∃ tree, o = some tree ∧
      ∀ row < 3, ∃ x : ℝ, FTree.confidence giniSample row tree = some (fin x) ∧ |x| ≤ 1 := by
  obtain ⟨t, h1, -, h2⟩ := tree_f64_trains_partial L ((DecisionTreeBuilder.new giniSample).setCriterion .twoing) (oneColumn_ok rfl)
    (by simp [DecisionTreeBuilder.setCriterion, DecisionTreeBuilder.new, giniSample, oneColumn]) (by decide)
    (by simp [DecisionTreeBuilder.setCriterion, DecisionTreeBuilder.new, giniSample, oneColumn]) (giniSample_columns _)
    (by simp [DecisionTreeBuilder.setCriterion]) giniWeights giniWeights_ok
  exact ⟨t, h1, h2⟩

theorem rnd_double {x : ℝ} (h : Double x) (hx : |x| ≤ 10 ^ 20) : rnd x = fin x := by rw [rnd_small hx, round_of_rep h]

theorem double_int {k : ℤ} (h : |k| < 2 ^ 53) : Double (k : ℝ) := ⟨k, 0, h, by norm_num, by simp⟩

theorem half_double : Double (1 / 2) := ⟨1, -1, by norm_num, by norm_num, by norm_num⟩

theorem tiny_double : Double (1 / 2 ^ 60) := ⟨1, -60, by norm_num, by norm_num, by norm_num⟩

theorem half_tiny : rnd (1 / 2 + 1 / 2 ^ 60) = fin (1 / 2) := by
  rw [rnd_small (by norm_num), round_lit (e := -53) (k := 2 ^ 52) (by norm_num) (by norm_num) (by norm_num) (by norm_num)]
  norm_num

theorem one_tiny : rnd (1 + 1 / 2 ^ 60) = fin 1 := by
  rw [rnd_small (by norm_num), round_lit (e := -52) (k := 2 ^ 52) (by norm_num) (by norm_num) (by norm_num) (by norm_num)]
  norm_num

/-- The bins of the column. -/
noncomputable def giniBins : List (Bin F64) := [⟨fin (-maxVal), fin 1⟩, ⟨fin 1, fin 2⟩, ⟨fin 2, fin maxVal⟩]

theorem giniCut {fuel : ℕ} (hf : 3 ≤ fuel) : FTree.cut fuel (.dense ⟨"x", [0, 1, 3]⟩) 3 = some (.ok giniBins) := by
  obtain ⟨fuel, rfl⟩ : ∃ k, fuel = k + 3 := ⟨fuel - 3, by omega⟩
  have hbig := FTree.maxVal_big
  have d1 : ∀ k : ℤ, |k| < 2 ^ 53 → rnd (k : ℝ) = fin k := fun k hk => rnd_double (double_int hk) (by
    have : |(k : ℝ)| < 2 ^ 53 := by exact_mod_cast hk
    exact this.le.trans (by norm_num))
  have hsub : sub (fin 3) (fin 0) = fin 3 := by
    simp only [sub, neg, add]
    rw [show (3 : ℝ) + -0 = ((3 : ℤ) : ℝ) by norm_num, d1 3 (by norm_num)]; norm_num
  have hdiv : div (fin 3) (ofInt 3) = fin 1 := by
    have : ofInt 3 = fin 3 := FTree.ofInt_nat (n := 3) (by norm_num)
    rw [this]
    simp only [div]
    rw [if_neg (by norm_num), show (3 : ℝ) / 3 = ((1 : ℤ) : ℝ) by norm_num, d1 1 (by norm_num)]; norm_num
  have a1 : add (fin 0) (fin 1) = fin 1 := by
    simp only [add]; rw [show (0 : ℝ) + 1 = ((1 : ℤ) : ℝ) by norm_num, d1 1 (by norm_num)]; norm_num
  have a2 : add (fin 1) (fin 1) = fin 2 := by
    simp only [add]; rw [show (1 : ℝ) + 1 = ((2 : ℤ) : ℝ) by norm_num, d1 2 (by norm_num)]; norm_num
  have a3 : add (fin 2) (fin 1) = fin 3 := by
    simp only [add]; rw [show (2 : ℝ) + 1 = ((3 : ℤ) : ℝ) by norm_num, d1 3 (by norm_num)]; norm_num
  have s1 : sub (fin 1) (fin 3) = fin (-2) := by
    simp only [sub, neg, add]; rw [show (1 : ℝ) + -3 = ((-2 : ℤ) : ℝ) by norm_num, d1 (-2) (by norm_num)]; norm_num
  have s2 : sub (fin 2) (fin 3) = fin (-1) := by
    simp only [sub, neg, add]; rw [show (2 : ℝ) + -3 = ((-1 : ℤ) : ℝ) by norm_num, d1 (-1) (by norm_num)]; norm_num
  have s3 : sub (fin 3) (fin 3) = fin 0 := by
    simp only [sub, neg, add]; rw [show (3 : ℝ) + -3 = ((0 : ℤ) : ℝ) by norm_num, d1 0 (by norm_num)]; norm_num
  have htol : Lt (F64.abs (fin 0)) FTree.numTolerance := by
    obtain ⟨t, ht, ht2⟩ := FTree.tol_eq
    rw [ht]
    show |(0 : ℝ)| < t
    rw [abs_le] at ht2
    norm_num at ht2 ⊢
    linarith
  rw [FTree.cut_eq]
  have hr : Bins.range FTree.realEnv (Feature.dense ⟨"x", [(0 : ℝ), 1, 3]⟩) = (0, 3) := by
    show FTree.minMax _ = _
    simp only [FTree.minMax, List.foldl_cons, List.foldl_nil]
    rw [min_eq_right (a := maxVal) (by linarith), max_eq_right (a := -maxVal) (by linarith)]
    norm_num
  rw [hr]
  unfold FTree.ends FTree.perturb FTree.cutRange
  rw [if_neg (by norm_num)]
  have h3 : ((3 : ℕ) : ℤ) = 3 := rfl
  simp only [h3, hsub, hdiv]
  rw [FTree.cutLoop_next (show Lt (fin _) (fin _) from (by norm_num : (0 : ℝ) < 3)) a1 (by rw [s1]; exact not_tol (by norm_num)),
    FTree.cutLoop_next (show Lt (fin _) (fin _) from (by norm_num : (1 : ℝ) < 3)) a2 (by rw [s2]; exact not_tol (by norm_num)),
    FTree.cutLoop_last (show Lt (fin _) (fin _) from (by norm_num : (2 : ℝ) < 3)) a3 (by rw [s3]; exact htol)]
  rfl

theorem giniBuild {fuel : ℕ} (hf : 3 ≤ fuel) :
    FTree.build fuel ((DecisionTreeBuilder.new giniSample).setCriterion .gini) = some (.ok ⟨[("x", giniBins)], .gini, 2⟩) := by
  unfold FTree.build
  have h : ((DecisionTreeBuilder.new giniSample).setCriterion .gini).nBins = [("x", 3)] := giniSample_bins
  have hf' : ((DecisionTreeBuilder.new giniSample).setCriterion .gini).sample.features = [.dense ⟨"x", [0, 1, 3]⟩] := rfl
  rw [h, hf']
  simp only [FTree.cutAll, Feature.name, HMap.get?, if_true, giniCut hf]
  rfl

theorem giniPosition {x : ℝ} (h1 : -maxVal ≤ x) (h2 : x < maxVal) :
    FTree.position giniBins x = some (if x < 1 then 0 else if x < 2 then 1 else 2) := by
  have hbig := FTree.maxVal_big
  have ht : Tiles (-maxVal) [⟨-maxVal, 1⟩, ⟨1, 2⟩, ⟨2, maxVal⟩] maxVal := by
    refine ⟨rfl, ?_, rfl, ?_, rfl, ?_, rfl⟩
    · show -maxVal < 1
      linarith
    · show (1 : ℝ) < 2
      norm_num
    · show 2 < maxVal
      linarith
  obtain ⟨pos, b, e1, e2, e3⟩ := position_ok ht h1 h2
  have := FTree.position_eq ht x
  rw [show giniBins = ([⟨-maxVal, 1⟩, ⟨1, 2⟩, ⟨2, maxVal⟩] : List (Bin ℝ)).map FTree.toF from rfl, this, e1]
  have hp : pos < 3 := (List.getElem?_eq_some_iff.mp e2).1
  congr 1
  unfold Bin.contains at e3
  interval_cases pos
  · obtain rfl : b = ⟨-maxVal, 1⟩ := (Option.some.inj e2).symm
    simp at e3
    rw [if_pos e3.2]
  · obtain rfl : b = ⟨1, 2⟩ := (Option.some.inj e2).symm
    simp at e3
    rw [if_neg (not_lt.mpr e3.1), if_pos e3.2]
  · obtain rfl : b = ⟨2, maxVal⟩ := (Option.some.inj e2).symm
    simp at e3
    rw [if_neg (by linarith [e3.1]), if_neg (not_lt.mpr e3.1)]

theorem gini_asI32 : asI32 (1 : ℝ) = 1 ∧ asI32 (-1 : ℝ) = -1 := by
  constructor
  · rcases asI32_pm' (K := ℝ) (y := 1) (Or.inl rfl) with ⟨-, h⟩ | ⟨h, -⟩
    · exact h
    · norm_num at h
  · rcases asI32_pm' (K := ℝ) (y := -1) (Or.inr rfl) with ⟨h, -⟩ | ⟨-, h⟩
    · norm_num at h
    · exact h

theorem gini_add0 {x : ℝ} (h : Double x) (hx : |x| ≤ 10 ^ 20) : add (fin 0) (fin x) = fin x := by
  simp only [add, zero_add]
  exact rnd_double h hx

theorem gini_zero_half : add (fin 0) (fin (1 / 2)) = fin (1 / 2) := gini_add0 half_double (by norm_num)

theorem gini_zero_tiny : add (fin 0) (fin (1 / 2 ^ 60)) = fin (1 / 2 ^ 60) := gini_add0 tiny_double (by norm_num)

theorem gini_half_half : add (fin (1 / 2)) (fin (1 / 2)) = fin 1 := by
  simp only [add]
  rw [show (1 : ℝ) / 2 + 1 / 2 = ((1 : ℤ) : ℝ) by norm_num, rnd_double (double_int (by norm_num)) (by norm_num)]
  norm_num

/-- The weights of the labels in the three bins. -/
noncomputable def giniMaps : List (LabelMap F64) := [[(1, fin (1 / 2))], [(-1, fin (1 / 2))], [(1, fin (1 / 2 ^ 60))]]

theorem giniPackLoop : FTree.packLoop giniBins (.dense ⟨"x", [0, 1, 3]⟩) giniSample.target (giniWeights.map fin) [0, 1, 2] (List.replicate giniBins.length []) =
    some giniMaps := by
  have hbig := FTree.maxVal_big
  have p0 : FTree.position giniBins 0 = some 0 := by rw [giniPosition (by linarith) (by linarith)]; norm_num
  have p1 : FTree.position giniBins 1 = some 1 := by rw [giniPosition (by linarith) (by linarith)]; norm_num
  have p3 : FTree.position giniBins 3 = some 2 := by rw [giniPosition (by linarith) (by linarith)]; norm_num
  have i0 : Feature.index (.dense ⟨"x", [(0 : ℝ), 1, 3]⟩) 0 = .ok 0 := rfl
  have i1 : Feature.index (.dense ⟨"x", [(0 : ℝ), 1, 3]⟩) 1 = .ok 1 := rfl
  have i2 : Feature.index (.dense ⟨"x", [(0 : ℝ), 1, 3]⟩) 2 = .ok 3 := rfl
  have t : giniSample.target = [1, -1, 1] := rfl
  rw [show List.replicate giniBins.length ([] : LabelMap F64) = [[], [], []] from rfl, t]
  unfold FTree.packLoop
  simp only [i0, giniWeights, List.map_cons, List.map_nil, List.getElem?_cons_zero, p0, gini_asI32.1, FTree.addTo, List.set_cons_zero, gini_zero_half]
  unfold FTree.packLoop
  simp only [i1, List.getElem?_cons_zero, List.getElem?_cons_succ, p1, gini_asI32.2, FTree.addTo, List.set_cons_zero, List.set_cons_succ, gini_zero_half]
  unfold FTree.packLoop
  simp only [i2, List.getElem?_cons_zero, List.getElem?_cons_succ, p3, gini_asI32.1, FTree.addTo, List.set_cons_zero, List.set_cons_succ, gini_zero_tiny]
  rfl

/-- The sum of the weights is `1`, however it is divided. -/
theorem giniSum : ∀ {r : F64}, FTree.SumOf [fin (1 / 2), fin (1 / 2), fin (1 / 2 ^ 60)] r → r = fin 1 := by
  -- a contiguous piece of the weights has `k` halves and `j` tiny weights
  have add_h : ∀ k j k' j' : ℕ, k + k' ≤ 2 → j + j' ≤ 1 →
      add (fin (if k = 0 then (j : ℝ) / 2 ^ 60 else k / 2)) (fin (if k' = 0 then (j' : ℝ) / 2 ^ 60 else k' / 2)) =
        fin (if k + k' = 0 then ((j + j' : ℕ) : ℝ) / 2 ^ 60 else ((k + k' : ℕ) : ℝ) / 2) := by
    intro k j k' j' h1 h2
    have e0 : add (fin (0 : ℝ)) (fin 0) = fin 0 := gini_add0 (by simpa using double_int (k := 0) (by norm_num)) (by norm_num)
    have e1 : add (fin (0 : ℝ)) (fin 1) = fin 1 := gini_add0 (by simpa using double_int (k := 1) (by norm_num)) (by norm_num)
    have c : ∀ a b : F64, add a b = add b a := by
      intro a b
      cases a with
      | nan => cases b <;> rfl
      | inf s => cases b with
        | nan => rfl
        | inf t => cases s <;> cases t <;> rfl
        | fin b => rfl
      | fin a => cases b with
        | nan => rfl
        | inf t => rfl
        | fin b => simp only [add, add_comm]
    have e2 : add (fin (1 / 2)) (fin (1 / 2 ^ 60)) = fin (1 / 2) := half_tiny
    have e3 : add (fin 1) (fin (1 / 2 ^ 60)) = fin 1 := one_tiny
    have e4 := gini_zero_half
    have e5 := gini_zero_tiny
    have e6 := gini_half_half
    have hk : k = 0 ∨ k = 1 ∨ k = 2 := by omega
    have hk' : k' = 0 ∨ k' = 1 ∨ k' = 2 := by omega
    have hj : j = 0 ∨ j = 1 := by omega
    have hj' : j' = 0 ∨ j' = 1 := by omega
    rcases hk with rfl | rfl | rfl <;> rcases hk' with rfl | rfl | rfl <;> rcases hj with rfl | rfl <;> rcases hj' with rfl | rfl <;>
      first
        | omega
        | (norm_num at e0 e1 e2 e3 e4 e5 e6 ⊢
           first
             | assumption
             | (rw [c]; assumption))
  have piece : ∀ (t : Split F64) (l : List (ℕ × ℕ)), t.items = l.map (fun p => fin (if p.1 = 0 then (p.2 : ℝ) / 2 ^ 60 else p.1 / 2)) →
      (l.map Prod.fst).sum ≤ 2 → (l.map Prod.snd).sum ≤ 1 →
      t.sum add (fin 0) = fin (if (l.map Prod.fst).sum = 0 then (((l.map Prod.snd).sum : ℕ) : ℝ) / 2 ^ 60 else (((l.map Prod.fst).sum : ℕ) : ℝ) / 2) := by
    intro t
    induction t with
    | seq xs =>
      intro l hi h1 h2
      have key : ∀ (l : List (ℕ × ℕ)) (k j : ℕ), k + (l.map Prod.fst).sum ≤ 2 → j + (l.map Prod.snd).sum ≤ 1 →
          (l.map (fun p => fin (if p.1 = 0 then (p.2 : ℝ) / 2 ^ 60 else p.1 / 2))).foldl add (fin (if k = 0 then (j : ℝ) / 2 ^ 60 else k / 2)) =
            fin (if k + (l.map Prod.fst).sum = 0 then ((j + (l.map Prod.snd).sum : ℕ) : ℝ) / 2 ^ 60 else ((k + (l.map Prod.fst).sum : ℕ) : ℝ) / 2) := by
        intro l
        induction l with
        | nil => intro k j _ _; simp
        | cons p l ih =>
          intro k j h1 h2
          simp only [List.map_cons, List.sum_cons] at h1 h2 ⊢
          rw [List.foldl_cons, add_h k j p.1 p.2 (by omega) (by omega), ih (k + p.1) (j + p.2) (by omega) (by omega)]
          simp only [add_assoc]
      have := key l 0 0 (by simpa using h1) (by simpa using h2)
      simp only [zero_add, if_true, Nat.cast_zero, zero_div] at this
      rw [← this, ← hi]
      rfl
    | join a b iha ihb =>
      intro l hi h1 h2
      obtain ⟨la, lb, rfl, hla, hlb⟩ := List.map_eq_append_iff.mp hi.symm
      simp only [List.map_append, List.sum_append] at h1 h2 ⊢
      show add (a.sum add (fin 0)) (b.sum add (fin 0)) = _
      rw [iha la hla.symm (by omega) (by omega), ihb lb hlb.symm (by omega) (by omega), add_h _ _ _ _ h1 h2]
  rintro r ⟨t, ht, rfl⟩
  rw [piece t [(1, 0), (1, 0), (0, 1)] (by rw [ht]; norm_num) (by norm_num) (by norm_num)]
  norm_num

theorem total_single {y : Int} {x r : F64} (h : FTree.Total [(y, x)] r) : r = add (fin 0) x := by
  obtain ⟨l, hp, rfl⟩ := h
  rw [List.perm_singleton.mp hp]
  rfl

theorem divide_one {y : Int} {x : ℝ} (h : Double x) (hx : |x| ≤ 10 ^ 20) {m : LabelMap F64} (hm : FTree.Divide (fin 1) [(y, fin x)] m) : m = [(y, fin x)] := by
  unfold FTree.Divide at hm
  rw [parMap_iff] at hm
  rw [hm]
  simp only [List.map_cons, List.map_nil, div, if_neg one_ne_zero, div_one, rnd_double h hx]

theorem giniPack {o : Option (List (Bin F64 × LabelMap F64))}
    (h : FTree.Pack giniBins [0, 1, 2] (.dense ⟨"x", [0, 1, 3]⟩) giniSample.target (giniWeights.map fin) o) :
    ∃ b0 b1 b2, o = some [(b0, [(1, fin (1 / 2))]), (b1, [(-1, fin (1 / 2))]), (b2, [(1, fin (1 / 2 ^ 60))])] := by
  unfold FTree.Pack at h
  rw [giniPackLoop] at h
  obtain ⟨totals, total, h1, h2, h3⟩ := h
  have ht : totals = [fin (1 / 2), fin (1 / 2), fin (1 / 2 ^ 60)] := by
    unfold giniMaps at h1
    obtain ⟨a, la, rfl⟩ : ∃ a l, totals = a :: l := by cases h1; exact ⟨_, _, rfl⟩
    rw [List.forall₂_cons] at h1
    obtain ⟨ha, h1⟩ := h1
    obtain ⟨b, lb, rfl⟩ : ∃ a l, la = a :: l := by cases h1; exact ⟨_, _, rfl⟩
    rw [List.forall₂_cons] at h1
    obtain ⟨hb, h1⟩ := h1
    obtain ⟨c, lc, rfl⟩ : ∃ a l, lb = a :: l := by cases h1; exact ⟨_, _, rfl⟩
    rw [List.forall₂_cons] at h1
    obtain ⟨hc, h1⟩ := h1
    cases h1
    rw [total_single ha, total_single hb, total_single hc, gini_zero_half, gini_zero_tiny]
  subst ht
  obtain rfl := giniSum h2
  rcases h3 with ⟨h3, -⟩ | ⟨-, h3⟩
  · exact absurd (show Lt (fin 0) (fin 1) from zero_lt_one) h3
  · obtain ⟨w', res, d1, m1, rfl⟩ : ∃ w' res, FTree.Divide (fin 1) [(1, fin (1 / 2))] w' ∧
        FTree.Merge (fin 1) ⟨fin (-maxVal), fin 1⟩ w' [(⟨fin 1, fin 2⟩, [(-1, fin (1 / 2))]), (⟨fin 2, fin maxVal⟩, [(1, fin (1 / 2 ^ 60))])] res ∧ o = some res := h3
    obtain ⟨nw, res', d2, m2, rfl⟩ := m1
    obtain ⟨nw', res'', d3, m3, rfl⟩ := m2
    rw [divide_one half_double (by norm_num) d1, divide_one half_double (by norm_num) d2]
    rw [show res'' = _ from m3, divide_one tiny_double (by norm_num) d3]
    exact ⟨_, _, _, rfl⟩

theorem exists_gini (m : LabelMap F64) : ∃ r, FTree.Gini m r := by
  obtain ⟨t, ht⟩ := FTree.exists_total m
  by_cases h : Le t (fin 0) ∨ m.isEmpty = true
  · exact ⟨fin 0, t, ht, (if_pos h).mpr rfl⟩
  · obtain ⟨c, hc⟩ := FTree.exists_sumOf (m.map fun p => sq (div p.2 t))
    exact ⟨_, t, ht, (if_neg h).mpr ⟨m, c, List.Perm.refl m, hc, rfl⟩⟩

theorem exists_impurityLoop {move : LabelMap F64 → FTree.Scan → Option FTree.Scan} {Imp : LabelMap F64 → F64 → Prop} (h : ∀ m, ∃ r, Imp m r) (ws : F64) :
    ∀ (pack : List (Bin F64 × LabelMap F64)) (st : FTree.Scan), ∃ o, FTree.ImpurityLoop move Imp ws pack st o := by
  intro pack
  induction pack with
  | nil => intro st; exact ⟨_, rfl⟩
  | cons q pack ih =>
    intro st
    obtain ⟨bin, map⟩ := q
    unfold FTree.ImpurityLoop
    cases hm : move map st with
    | none => exact ⟨none, map, List.Perm.refl _, by rw [hm]⟩
    | some st' =>
      obtain ⟨il, hil⟩ := h st'.left
      obtain ⟨ir, hir⟩ := h st'.right
      obtain ⟨o, ho⟩ := ih (open Classical in if Lt (add (mul (div st'.leftSum ws) il) (mul (fmax (sub (fin 1) (div st'.leftSum ws)) (fin 0)) ir)) st'.bestScore then
        { st' with bestScore := add (mul (div st'.leftSum ws) il) (mul (fmax (sub (fin 1) (div st'.leftSum ws)) (fin 0)) ir), bestThreshold := bin.stop } else st')
      exact ⟨o, map, List.Perm.refl _, by rw [hm]; exact ⟨il, ir, hil, hir, ho⟩⟩

theorem exists_splitByGini (pack : List (Bin F64 × LabelMap F64)) : ∃ o, FTree.SplitByGini pack o := by
  obtain ⟨ws, h1⟩ := FTree.exists_weightSum pack
  obtain ⟨right, h2⟩ := FTree.exists_allWeights pack
  obtain ⟨e, h3⟩ := exists_gini right
  obtain ⟨o, ho⟩ := exists_impurityLoop (move := FTree.moveGini) exists_gini ws pack ⟨[], fin 0, right, e, fin (-maxVal)⟩
  exact ⟨o, ws, right, e, h1, h2, h3, ho⟩

theorem impurityLoop_step {move : LabelMap F64 → FTree.Scan → Option FTree.Scan} {Imp : LabelMap F64 → F64 → Prop} {ws : F64} {bin : Bin F64} {y : Int} {x : F64}
    {rest : List (Bin F64 × LabelMap F64)} {st st' : FTree.Scan} {o : Option (F64 × F64)} (hm : move [(y, x)] st = some st')
    (h : FTree.ImpurityLoop move Imp ws ((bin, [(y, x)]) :: rest) st o) : ∃ st'' : FTree.Scan, st''.right = st'.right ∧ FTree.ImpurityLoop move Imp ws rest st'' o := by
  obtain ⟨map', hp, h⟩ := h
  rw [List.perm_singleton.mp hp, hm] at h
  obtain ⟨il, ir, -, -, h⟩ := h
  refine ⟨_, ?_, h⟩
  split <;> rfl

theorem moveGini_gone {y : Int} {x : F64} {st : FTree.Scan} (hg : HMap.get? st.right y = some x) (hx : Le (sub x x) (fin 0)) :
    ∃ st', FTree.moveGini [(y, x)] st = some st' ∧ st'.right = HMap.remove (HMap.insert st.right y (sub x x)) y := by
  unfold FTree.moveGini
  rw [hg]
  exact ⟨_, rfl, if_pos hx⟩

theorem giniSplit {b0 b1 b2 : Bin F64} {o : Option (F64 × F64)}
    (h : FTree.SplitByGini [(b0, [(1, fin (1 / 2))]), (b1, [(-1, fin (1 / 2))]), (b2, [(1, fin (1 / 2 ^ 60))])] o) : o = none := by
  obtain ⟨ws, right, e, -, ⟨ms, hms, hr⟩, -, h⟩ := h
  have hms' : ms = giniMaps := by
    unfold giniMaps
    simp only [List.map_cons, List.map_nil] at hms
    obtain ⟨a, la, rfl⟩ : ∃ a l, ms = a :: l := by cases hms; exact ⟨_, _, rfl⟩
    rw [List.forall₂_cons] at hms
    obtain ⟨ha, hms⟩ := hms
    obtain ⟨b, lb, rfl⟩ : ∃ a l, la = a :: l := by cases hms; exact ⟨_, _, rfl⟩
    rw [List.forall₂_cons] at hms
    obtain ⟨hb, hms⟩ := hms
    obtain ⟨c, lc, rfl⟩ : ∃ a l, lb = a :: l := by cases hms; exact ⟨_, _, rfl⟩
    rw [List.forall₂_cons] at hms
    obtain ⟨hc, hms⟩ := hms
    cases hms
    rw [List.perm_singleton.mp ha, List.perm_singleton.mp hb, List.perm_singleton.mp hc]
  have hr' : right = [(1, fin (1 / 2)), (-1, fin (1 / 2))] := by
    rw [hr, hms']
    have e2 : add (fin (1 / 2)) (fin (1 / 2 ^ 60)) = fin (1 / 2) := half_tiny
    simp [giniMaps, FTree.collectWeights, FTree.addTo, -one_div]
    rw [gini_zero_half, e2]
    exact ⟨rfl, rfl⟩
  subst hr'
  have hs : sub (fin (1 / 2)) (fin (1 / 2)) = fin 0 := by
    simp only [sub, neg, add]
    rw [show (1 : ℝ) / 2 + -(1 / 2) = ((0 : ℤ) : ℝ) by norm_num, rnd_double (double_int (by norm_num)) (by norm_num)]
    norm_num
  have hle : Le (sub (fin (1 / 2)) (fin (1 / 2))) (fin 0) := by rw [hs]; exact le_refl (0 : ℝ)
  obtain ⟨s1, m1, r1⟩ := moveGini_gone (y := 1) (x := fin (1 / 2)) (st := ⟨[], fin 0, [(1, fin (1 / 2)), (-1, fin (1 / 2))], e, fin (-maxVal)⟩) rfl hle
  obtain ⟨s1', e1, h⟩ := impurityLoop_step m1 h
  rw [r1] at e1
  have g1 : s1'.right = [(-1, fin (1 / 2))] := e1
  obtain ⟨s2, m2, r2⟩ := moveGini_gone (y := -1) (x := fin (1 / 2)) (st := s1') (by rw [g1]; rfl) hle
  obtain ⟨s2', e2, h⟩ := impurityLoop_step m2 h
  rw [r2, g1] at e2
  have g2 : s2'.right = [] := e2
  obtain ⟨map', hp, h⟩ := h
  have hm : FTree.moveGini map' s2' = none := by
    rw [List.perm_singleton.mp hp]
    unfold FTree.moveGini
    rw [g2]
    rfl
  rw [hm] at h
  exact h

theorem giniConfLoss {o : Option (F64 × F64)} (h : FTree.ConfLoss giniSample (giniWeights.map fin) [0, 1, 2] o) : ∃ c, o = some (c, fin (1 / 2)) := by
  have e2 : add (fin (1 / 2)) (fin (1 / 2 ^ 60)) = fin (1 / 2) := half_tiny
  have hc : FTree.countLabels giniSample.target (giniWeights.map fin) [0, 1, 2] [] = some [(1, fin (1 / 2)), (-1, fin (1 / 2))] := by
    have t : giniSample.target = [1, -1, 1] := rfl
    rw [t]
    simp [FTree.countLabels, giniWeights, FTree.addTo, asI64_one, asI64_neg_one, -one_div]
    rw [gini_zero_half, e2]
    exact ⟨rfl, rfl⟩
  unfold FTree.ConfLoss at h
  rw [if_neg (by simp), hc] at h
  obtain ⟨total, ⟨l', hp', ht⟩, l, x, hp, hx, rfl⟩ := h
  have hrep : l'.map Prod.snd = [fin (1 / 2), fin (1 / 2)] := by
    have := hp'.map Prod.snd
    exact (List.perm_replicate (n := 2) (a := fin (1 / 2))).mp this
  rw [hrep] at ht
  have htot : total = fin 1 := by
    rw [ht]
    simp only [List.foldl_cons, List.foldl_nil, gini_zero_half, gini_half_half]
  subst htot
  obtain ⟨a, ha, rfl⟩ := (FTree.extremum_ok (smallest := false) (key := fun p : Int × F64 => p.2) (items := l)
    (by rintro rfl; simpa using hp.length_eq) (fun a ha => by
      have := hp.mem_iff.mp ha
      simp only [List.mem_cons, List.not_mem_nil, or_false] at this
      rcases this with rfl | rfl <;> simp)).2 x hx
  have ha2 : a.2 = fin (1 / 2) := by
    have := hp.mem_iff.mp ha
    simp only [List.mem_cons, List.not_mem_nil, or_false] at this
    rcases this with rfl | rfl <;> rfl
  refine ⟨(FTree.leafValues (fin 1) a).1, ?_⟩
  simp only [Option.map_some]
  refine congrArg some (Prod.ext rfl ?_)
  unfold FTree.leafValues
  have h01 : Lt (fin 0) (fin 1) := zero_lt_one (α := ℝ)
  simp only [h01, if_true, ha2]
  have d : div (fin (1 / 2)) (fin 1) = fin (1 / 2) := by
    simp only [div, if_neg one_ne_zero, div_one, rnd_double half_double (by norm_num)]
  have sb : sub (fin 1) (fin (1 / 2)) = fin (1 / 2) := by
    simp only [sub, neg, add]
    rw [show (1 : ℝ) + -(1 / 2) = 1 / 2 by norm_num, rnd_double half_double (by norm_num)]
  rw [d, sb]
  simp only [mul, one_mul, rnd_double half_double (by norm_num : |(1 : ℝ) / 2| ≤ 10 ^ 20)]

/-- C94 is false: with the criterion Gini, on the column `0, 1, 3` with labels `+1, -1, +1` and the weights `1/2, 1/2, 2⁻⁶⁰`, training
panics in every execution.  The weight of the label `+1` is `1/2 + 2⁻⁶⁰`, which is rounded to `1/2`; when the first bin is moved to the left
nothing is left of it and the label is removed, and when the third bin is moved `get_mut(&y).unwrap()` fails. -/
theorem tree_f64_gini_panics (L : Libm) : SampleOk giniSample ∧ TreeWeights giniSample.nSample giniWeights ∧
    ∃ t : FTree.Tree, (∀ fuel, 3 ≤ fuel → FTree.build fuel ((DecisionTreeBuilder.new giniSample).setCriterion .gini) = some (.ok t)) ∧
      (∃ o, FTree.Produce L t giniSample (giniWeights.map fin) o) ∧ ∀ o, FTree.Produce L t giniSample (giniWeights.map fin) o → o = none := by
  have hs : SampleOk giniSample := oneColumn_ok rfl
  have hw : TreeWeights giniSample.nSample giniWeights := giniWeights_ok
  refine ⟨hs, hw, ⟨[("x", giniBins)], .gini, 2⟩, fun fuel hf => giniBuild hf, ?_⟩
  obtain ⟨idx, i1, i2, i3⟩ := node_of_weights hw (by simp [giniSample, oneColumn])
  have hidx : idx = [0, 1, 2] := by
    have h := FTree.positiveRows_f64 (dist := giniWeights.map fin) (w := fun i => giniWeights.getD i 0) [0, 1, 2]
      (by intro i hi; simp only [List.mem_cons, List.not_mem_nil, or_false] at hi; rcases hi with rfl | rfl | rfl <;> rfl)
    have hr : List.range giniSample.nSample = [0, 1, 2] := rfl
    rw [hr, h] at i1
    rw [← Option.some.inj i1]
    norm_num [giniWeights]
  subst hidx
  have hbig := FTree.maxVal_big
  have hpack : ∃ o, FTree.Pack giniBins [0, 1, 2] (.dense ⟨"x", [0, 1, 3]⟩) giniSample.target (giniWeights.map fin) o := by
    refine (FTree.pack_f64 (rb := [⟨-maxVal, 1⟩, ⟨1, 2⟩, ⟨2, maxVal⟩]) ⟨rfl, ?_, rfl, ?_, rfl, ?_, rfl⟩ (by norm_num) hs (f := .dense ⟨"x", [0, 1, 3]⟩)
      (by simp [giniSample, oneColumn]) ?_ i3 i2).1
    · show -maxVal < 1
      linarith
    · show (1 : ℝ) < 2
      norm_num
    · show 2 < maxVal
      linarith
    · intro i hi
      have hi' : i < 3 := hi
      refine big_lt ?_
      interval_cases i <;> norm_num [Feature.val, Feature.index, vecAt]
  have hbest : (∃ b, FTree.BestSplit L .gini [("x", giniBins)] giniSample (giniWeights.map fin) [0, 1, 2] b) ∧
      ∀ b, FTree.BestSplit L .gini [("x", giniBins)] giniSample (giniWeights.map fin) [0, 1, 2] b → b = none := by
    have hf : giniSample.features = [.dense ⟨"x", [0, 1, 3]⟩] := rfl
    have hfs : ∀ o, FTree.FeatureSplit L .gini [("x", giniBins)] giniSample (giniWeights.map fin) [0, 1, 2] (.dense ⟨"x", [0, 1, 3]⟩) o → o = none := by
      rintro o ⟨p, hp, ho⟩
      obtain ⟨b0, b1, b2, rfl⟩ := giniPack hp
      obtain ⟨r, hr, rfl⟩ := ho
      rw [giniSplit hr]
      rfl
    constructor
    · obtain ⟨p, hp⟩ := hpack
      obtain ⟨b0, b1, b2, rfl⟩ := giniPack hp
      obtain ⟨r, hr⟩ := exists_splitByGini [(b0, [(1, fin (1 / 2))]), (b1, [(-1, fin (1 / 2))]), (b2, [(1, fin (1 / 2 ^ 60))])]
      have hfo : FTree.FeatureSplit L .gini [("x", giniBins)] giniSample (giniWeights.map fin) [0, 1, 2] (.dense ⟨"x", [0, 1, 3]⟩) _ := ⟨_, hp, r, hr, rfl⟩
      have := hfs _ hfo
      rw [this] at hfo
      exact ⟨none, [none], by rw [hf]; exact .cons hfo .nil, rfl⟩
    · rintro b ⟨os, hos, hb⟩
      rw [hf] at hos
      obtain ⟨o, os, rfl⟩ : ∃ o l, os = o :: l := by cases hos; exact ⟨_, _, rfl⟩
      rw [List.forall₂_cons] at hos
      rw [hfs o hos.1] at hb
      exact hb
  obtain ⟨⟨a, ha⟩, hall⟩ := FTree.sumAt_ok i3
  obtain ⟨⟨c, hc⟩, -⟩ := FTree.confLoss_ok hs i3 i2
  have hne : fin (1 / 2) ≠ fin 0 := by simp
  unfold FTree.Produce
  rw [i1]
  simp only [i2, if_false]
  constructor
  · obtain ⟨b, hb⟩ := hbest.1
    obtain rfl := hbest.2 b hb
    obtain ⟨x, rfl⟩ := hall a ha
    obtain ⟨cc, rfl⟩ := giniConfLoss hc
    exact ⟨none, none, ⟨some x, some (cc, fin (1 / 2)), ha, hc, Or.inr ⟨hne, none, hb, rfl⟩⟩, rfl⟩
  · rintro o ⟨x, ⟨a, c, ha, hc, h⟩, rfl⟩
    obtain ⟨x', rfl⟩ := hall a ha
    obtain ⟨cc, rfl⟩ := giniConfLoss hc
    rcases h with ⟨h, -⟩ | ⟨-, b, hb, h⟩
    · exact absurd h hne
    · obtain rfl := hbest.2 b hb
      rw [show x = none from h]
      rfl

end Miniboosts.Props
