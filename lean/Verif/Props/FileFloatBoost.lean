import Verif.Props.FileFloat
import Verif.Props.FloatCERLPTrees
import Verif.Props.FloatMadaTrees

/-! # From a file to CERLPBoost, SmoothBoost and MadaBoost in `f64` (C128) -/

namespace Miniboosts.Props

open Miniboosts Spec F64

variable {θ : ℝ}

/-- Reading a learnable file, cutting the bins and configuring trees with the criterion `edge`. -/
theorem file_edge_trees (L : Libm) {parseIx : List Char → Option ℕ} {parse : List Char → Option ℝ} {r : SampleReader} {ys : List ℝ}
    (h : LearnableFile parseIx parse r ys θ) (hn : ys.length ≤ 10 ^ 5) {depth : ℕ} (hd : 0 < depth) :
    ∃ s b t, SampleReader.read parseIx parse r = .ok s ∧ s.nSample = ys.length ∧
      ((DecisionTreeBuilder.new s).setCriterion .edge).setMaxDepth depth = .ok b ∧ FTree.build (10 ^ 5) b = some (.ok t) ∧
      (∃ wl, FTree.IsLearner L t s wl) ∧ b.sample = s ∧ FloatTreeData b ∧ b.criterion = .edge ∧ 1 ≤ b.maxDepth ∧ TestMargin s t.bins θ ∧
      ∀ i < s.nSample, s.target.getD i 0 = ys.getD i 0 := by
  obtain ⟨s, e1, e2, e3, e4⟩ := learnableFile_reads h
  have hn' : s.nSample ≤ 10 ^ 5 := by rw [e2]; exact hn
  have hdata := boolSample_float e4 hn' (c := .edge) (by simp) depth
  obtain ⟨t, t1, -⟩ := tree_build_f64_partial (fileBuilder s .edge depth) hdata.sample hdata.rows (10 ^ 5) hdata.columns
  have ht := t1 (10 ^ 5) le_rfl
  exact ⟨s, fileBuilder s .edge depth, t, e1, e2, fileBuilder_eq hd, ht, exists_floatTreeLearner L t s, rfl, hdata, rfl, hd, boolSample_margin e4 hn' (by simp) ht, e3⟩

/-- No mistake on the rows: the label of every row is predicted. -/
theorem predicts_of_no_mistake {s : Sample ℝ} {f : WeightedMajority F64 (TreeNode F64)} (h : floatMistakes s.rows f = 0) {i : ℕ} (hi : i < s.nSample) :
    (F64.predict f (s, i) : ℝ) = s.target.getD i 0 := by
  unfold floatMistakes at h
  rw [List.countP_eq_zero] at h
  have := h ((s, i), s.target.getD i 0) (List.mem_map.2 ⟨i, List.mem_range.2 hi, rfl⟩)
  simpa using this

/-- C128: the file is read, the trees' bins are cut in `f64`, and CERLPBoost in `f64` with its default parameters and trees trained in `f64` (criterion `edge`, any positive depth) returns a
vote, and if it stopped before the limit of the iterations, the vote predicts the label of every row of the file, whichever trees the calls of the learner return. -/
theorem file_cerlp_f64 (L : Libm) (hexp : ∀ x ≤ 0, L.expA x ≤ 1) (other) {parseIx : List Char → Option ℕ} {parse : List Char → Option ℝ} {r : SampleReader} {ys : List ℝ}
    (h : LearnableFile parseIx parse r ys θ) (hθ : 1 / 8 ≤ θ) (hθ1 : θ ≤ 1) (hn : ys.length ≤ 10 ^ 5) {depth : ℕ} (hd : 0 < depth) :
    ∃ s b t, SampleReader.read parseIx parse r = .ok s ∧ s.nSample = ys.length ∧
      ((DecisionTreeBuilder.new s).setCriterion .edge).setMaxDepth depth = .ok b ∧ FTree.build (10 ^ 5) b = some (.ok t) ∧
      (∃ wl, FTree.IsLearner L t s wl) ∧ ∀ wl, FTree.IsLearner L t s wl → ∀ fuel, 25 * 10 ^ 6 < fuel →
        ∃ f qs, (CERLPBoostF.booster L other s.rows).run wl fuel (CERLPBoostF.init L s.rows) = some (.ok (f, qs)) ∧
          (∀ q ∈ qs, ∀ it, FTree.Produce L t s q (some (wl it q))) ∧
          ((qs.length : ℝ) < 8 * Real.log ys.length / F64.round (5 / 1000) ^ 2 - 1 / 1000 → ∀ i < ys.length, (F64.predict f (s, i) : ℝ) = ys.getD i 0) := by
  obtain ⟨s, b, t, e1, e2, e3, e4, e5, rfl, e7, e8, e9, e10, e11⟩ := file_edge_trees L h hn hd
  refine ⟨_, b, t, e1, e2, e3, e4, e5, fun wl hwl fuel hf => ?_⟩
  obtain ⟨hp, h1⟩ := cerlp_init_good (H := TreeNode F64) L b.sample.rows
  have hθ2 : 1 / 64 ≤ θ ^ 2 := by nlinarith
  obtain ⟨f, qs, k1, k2, -, k4⟩ := cerlp_f64_edge_trees L hexp other b e7 e8 e9 t e4 wl hwl hp (by linarith) hθ1 e10 (by norm_num at h1 hθ2 ⊢; linarith) fuel hf
  refine ⟨f, qs, k1, fun q hq => (k2 q hq).2, fun hs i hi => ?_⟩
  rw [← e2] at hi hs
  rw [← e11 i hi]
  exact predicts_of_no_mistake ((k4 hs).2 (by norm_num at h1 hθ2 ⊢; linarith)) hi

/-- C128: the same for SmoothBoost in `f64`, with `.tolerance(κ)` and `.gamma(γ)`, `2γ ≤ θ² - 3·10⁻⁵`: it returns after fewer than `2/(κγ²√(1-γ))` rounds, and -- if these are at most as many as
there are rows -- the vote is wrong on at most `(1 + 10⁻⁷) κ m/√(1-γ)` of the `m` rows of the file. -/
theorem file_smoothboost_f64 (L : Libm) (P : Powm) {parseIx : List Char → Option ℕ} {parse : List Char → Option ℝ} {r : SampleReader} {ys : List ℝ}
    (h : LearnableFile parseIx parse r ys θ) (hθ0 : 0 < θ) (hθ1 : θ ≤ 1) (hn : ys.length ≤ 10 ^ 5) {depth : ℕ} (hd : 0 < depth) {κ g : ℝ} (hD : Double g) (h1 : 1 / 10 ^ 30 ≤ κ) (h2 : κ < 1)
    (h3 : 0 ≤ g) (h4 : g < 1 / 2) (hgθ : 2 * g ≤ θ ^ 2 - 3 / 10 ^ 5) (hden : 3 / 10 ^ 6 ≤ κ * g ^ 2 * √(1 - g)) :
    ∃ s b t s₀, SampleReader.read parseIx parse r = .ok s ∧ s.nSample = ys.length ∧
      ((DecisionTreeBuilder.new s).setCriterion .edge).setMaxDepth depth = .ok b ∧ FTree.build (10 ^ 5) b = some (.ok t) ∧
      ((SmoothBoostF.init s.rows : SmoothBoostF (TreeNode F64)).setTolerance (fin κ)).setGamma (fin g) = .ok s₀ ∧
      (∃ wl, FTree.IsLearner L t s wl) ∧ ∀ wl, FTree.IsLearner L t s wl →
        ∃ n f qs, (SmoothBoostF.booster P s.rows).run wl n s₀ = some (.ok (f, qs)) ∧ (qs.length : ℝ) < 2 / (κ * g ^ 2 * √(1 - g)) ∧
          (qs.length ≤ ys.length → (((List.range ys.length).countP fun i => decide ((F64.predict f (s, i) : ℝ) ≠ ys.getD i 0) : ℕ) : ℝ) ≤
            (1 + 1 / 10 ^ 7) * (κ * ys.length / √(1 - g))) := by
  obtain ⟨s, b, t, e1, e2, e3, e4, e5, rfl, e7, e8, e9, e10, e11⟩ := file_edge_trees L h hn hd
  refine ⟨_, b, t, { (SmoothBoostF.init b.sample.rows).setTolerance (fin κ) with gamma := fin g }, e1, e2, e3, e4, ?_, e5, fun wl hwl => ?_⟩
  · unfold SmoothBoostF.setGamma
    exact if_pos ⟨h3, h4⟩
  obtain ⟨f, qs, k1, k2, k3⟩ := smoothboost_f64_edge_trees L P b e7 e8 e9 t e4 wl hwl { (SmoothBoostF.init b.sample.rows).setTolerance (fin κ) with gamma := fin g } κ g θ rfl rfl hD h1 h2 h3 h4
    hθ0 hθ1 e10 hgθ hden
  refine ⟨_, f, qs, k1, k2, fun hl => ?_⟩
  rw [← e2] at hl ⊢
  have := k3 hl
  unfold floatMistakes Sample.rows at this
  rw [List.countP_map] at this
  refine le_trans (le_of_eq ?_) this
  congr 1
  refine List.countP_congr fun i hi => ?_
  simp only [Function.comp, ne_eq, decide_eq_true_eq]
  rw [e11 i (List.mem_range.1 hi)]

/-- C128: the same for MadaBoost in `f64` with `.force_quit_at(T)`, `1 ≤ T ≤ 3000`: every run, however its parallel sums are divided, returns a vote after at most `T` rounds, and its confidence
for every row of the file is a number at most one in absolute value up to `10⁻⁵`. -/
theorem file_madaboost_f64 (L : Libm) {parseIx : List Char → Option ℕ} {parse : List Char → Option ℝ} {r : SampleReader} {ys : List ℝ}
    (h : LearnableFile parseIx parse r ys θ) (hθ : 1 / 80 ≤ θ) (hθ1 : θ ≤ 1) (hn : ys.length ≤ 10 ^ 5) {depth : ℕ} (hd : 0 < depth) {T : ℕ} (hT1 : 1 ≤ T) (hT : T ≤ 3000) :
    ∃ s b t, SampleReader.read parseIx parse r = .ok s ∧ s.nSample = ys.length ∧
      ((DecisionTreeBuilder.new s).setCriterion .edge).setMaxDepth depth = .ok b ∧ FTree.build (10 ^ 5) b = some (.ok t) ∧
      (∃ wl, FTree.IsLearner L t s wl) ∧ ∀ wl, FTree.IsLearner L t s wl → ∀ o, (MadaBoostF.booster L s.rows).Runs wl ((MadaBoostF.init s.rows).setForceQuitAt T) o →
        ∃ f qs, o = .ok (f, qs) ∧ 1 ≤ qs.length ∧ qs.length ≤ T ∧ (∀ q ∈ qs, ∀ it, FTree.Produce L t s q (some (wl it q))) ∧
          ∀ i < ys.length, ∃ c : ℝ, F64.weightedConf f (s, i) = fin c ∧ |c| ≤ 1 + 1 / 10 ^ 5 := by
  obtain ⟨s, b, t, e1, e2, e3, e4, e5, rfl, e7, e8, e9, e10, e11⟩ := file_edge_trees L h hn hd
  refine ⟨_, b, t, e1, e2, e3, e4, e5, fun wl hwl o ho => ?_⟩
  have hθ2 : 1 / 6400 ≤ θ ^ 2 := by nlinarith
  obtain ⟨f, qs, k1, k2, k3, k4, k5⟩ := madaboost_f64_edge_trees L b e7 e8 e9 t e4 wl hwl ((MadaBoostF.init b.sample.rows).setForceQuitAt T) θ (by linarith) hθ1 e10 (by norm_num at hθ2 ⊢; linarith)
    hT1 hT ho
  refine ⟨f, qs, k1, k2, k3, fun q hq => (k4 q hq).2, fun i hi => ?_⟩
  rw [← e2] at hi
  exact k5 ((b.sample, i), b.sample.target.getD i 0) (List.mem_map.2 ⟨i, List.mem_range.2 hi, rfl⟩)

/-- The hypotheses are met: a svmlight file holding the majority of three columns, with stumps and CERLPBoost. -/
example (other) : ∃ r s b t, SampleReader.read exIndices exCells r = .ok s ∧ s.nSample = 5 ∧
    ((DecisionTreeBuilder.new s).setCriterion .edge).setMaxDepth 1 = .ok b ∧ FTree.build (10 ^ 5) b = some (.ok t) ∧
    (∃ wl, FTree.IsLearner exLibm t s wl) ∧ ∀ wl, FTree.IsLearner exLibm t s wl →
      ∃ f qs, (CERLPBoostF.booster exLibm other s.rows).run wl (10 ^ 8) (CERLPBoostF.init exLibm s.rows) = some (.ok (f, qs)) := by
  obtain ⟨r, h⟩ := exRows_learnable
  obtain ⟨s, b, t, e1, e2, e3, e4, e5, e6⟩ := file_cerlp_f64 exLibm (fun x hx => Real.exp_le_one_iff.mpr hx) other h (by norm_num) (by norm_num) (by norm_num) (depth := 1) (by norm_num)
  refine ⟨r, s, b, t, e1, e2, e3, e4, e5, fun wl hwl => ?_⟩
  obtain ⟨f, qs, k1, -⟩ := e6 wl hwl (10 ^ 8) (by norm_num)
  exact ⟨f, qs, k1⟩

/-- The same file with SmoothBoost, `κ = 1/2` and `γ = 1/32`. -/
example (L : Libm) (P : Powm) : ∃ r s b t s₀, SampleReader.read exIndices exCells r = .ok s ∧ s.nSample = 5 ∧
    ((DecisionTreeBuilder.new s).setCriterion .edge).setMaxDepth 2 = .ok b ∧ FTree.build (10 ^ 5) b = some (.ok t) ∧
    ((SmoothBoostF.init s.rows : SmoothBoostF (TreeNode F64)).setTolerance (fin (1 / 2))).setGamma (fin (1 / 32)) = .ok s₀ ∧
    (∃ wl, FTree.IsLearner L t s wl) ∧ ∀ wl, FTree.IsLearner L t s wl → ∃ n f qs, (SmoothBoostF.booster P s.rows).run wl n s₀ = some (.ok (f, qs)) := by
  obtain ⟨r, h⟩ := exRows_learnable
  have hs : 1 / 2 ≤ √(1 - 1 / 32 : ℝ) := by
    apply Real.le_sqrt_of_sq_le; norm_num
  obtain ⟨s, b, t, s₀, e1, e2, e3, e4, e5, e6, e7⟩ := file_smoothboost_f64 L P h (by norm_num) (by norm_num) (by norm_num) (depth := 2) (by norm_num) (κ := 1 / 2) (g := 1 / 32)
    ⟨1, -5, by norm_num, by norm_num, by norm_num⟩ (by norm_num) (by norm_num) (by norm_num) (by norm_num) (by norm_num) (by norm_num at hs ⊢; linarith)
  refine ⟨r, s, b, t, s₀, e1, e2, e3, e4, e5, e6, fun wl hwl => ?_⟩
  obtain ⟨n, f, qs, k1, -⟩ := e7 wl hwl
  exact ⟨n, f, qs, k1⟩

/-- The same file with MadaBoost and ten rounds. -/
example (L : Libm) : ∃ r s b t, SampleReader.read exIndices exCells r = .ok s ∧ s.nSample = 5 ∧
    ((DecisionTreeBuilder.new s).setCriterion .edge).setMaxDepth 1 = .ok b ∧ FTree.build (10 ^ 5) b = some (.ok t) ∧
    (∃ wl, FTree.IsLearner L t s wl) ∧ ∀ wl, FTree.IsLearner L t s wl → ∀ o, (MadaBoostF.booster L s.rows).Runs wl ((MadaBoostF.init s.rows).setForceQuitAt 10) o →
      ∃ f qs, o = .ok (f, qs) := by
  obtain ⟨r, h⟩ := exRows_learnable
  obtain ⟨s, b, t, e1, e2, e3, e4, e5, e6⟩ := file_madaboost_f64 L h (by norm_num) (by norm_num) (by norm_num) (depth := 1) (by norm_num) (T := 10) (by norm_num) (by norm_num)
  refine ⟨r, s, b, t, e1, e2, e3, e4, e5, fun wl hwl o ho => ?_⟩
  obtain ⟨f, qs, k1, -⟩ := e6 wl hwl o ho
  exact ⟨f, qs, k1⟩

end Miniboosts.Props
