import Verif.Props.FloatAdaBoostV
import Verif.Props.FloatGini
import Verif.Props.FloatGraphSep
import Verif.Props.DecisionTree

/-! # AdaBoostV and AdaBoost on decision trees in `f64` (C113) -/

namespace Miniboosts.Props

open Miniboosts Spec F64

/-- A vote over tests with margin `θ` on all rows: for every sound weighting some test of the bins has an edge of at least `θ`, up to the rounding of the sum of the
weights. -/
theorem test_of_margin_pos {s : Sample ℝ} {binsMap : List (String × List (Bin F64))} {θ : ℝ} (hθ : 0 < θ) (hv : TestMargin s binsMap θ) {w : List ℝ}
    (hl : w.length = s.nSample) (h0 : ∀ x ∈ w, 0 ≤ x) (hW : 0 < w.sum) :
    ∃ f ∈ s.features, ∃ bins, HMap.get? binsMap f.name = some bins ∧ ∃ β ∈ bins, ∃ x, β.stop = fin x ∧ θ * w.sum ≤ testEdge s w f x := by
  obtain ⟨v, v1, v2, v3⟩ := hv
  set d := w.map fun x => x / w.sum with hd
  have hdl : d.length = s.nSample := by rw [hd, List.length_map, hl]
  have hdp : IsProb d := by
    refine ⟨?_, ?_⟩
    · rw [hd]
      simp only [List.mem_map]
      rintro _ ⟨x, hx, rfl⟩
      exact div_nonneg (h0 x hx) hW.le
    · rw [hd]
      simp only [div_eq_mul_inv]
      rw [List.sum_map_mul_right, List.map_id', mul_inv_cancel₀ hW.ne']
  have hget : ∀ i, d.getD i 0 = w.getD i 0 / w.sum := by
    intro i
    rw [hd, List.getD_eq_getElem?_getD, List.getD_eq_getElem?_getD, List.getElem?_map]
    cases w[i]? <;> simp
  obtain ⟨p, hpv, hpe⟩ := exists_test hθ v2 v3 hdl hdp
  obtain ⟨hf, bins, hbins, β, hβ, hx⟩ := v1 p hpv
  refine ⟨p.2.1, hf, bins, hbins, β, hβ, p.2.2, hx, ?_⟩
  have hge := testEdge_ge s w p.2.1 p.2.2
  have e : ((List.range s.nSample).map (fun i => d.getD i 0 * s.target.getD i 0 * stump p.2.1 p.2.2 i)).sum =
      ((List.range s.nSample).map fun i => w.getD i 0 * (s.target.getD i 0 * stump p.2.1 p.2.2 i)).sum / w.sum := by
    rw [div_eq_mul_inv, ← List.sum_map_mul_right]
    congr 1
    apply List.map_congr_left
    intro i _
    rw [hget]
    ring
  rw [e, abs_div, abs_of_pos hW, le_div_iff₀ hW] at hpe
  linarith

theorem test_of_margin {s : Sample ℝ} {binsMap : List (String × List (Bin F64))} {θ : ℝ} (hθ : 0 < θ) (hv : TestMargin s binsMap θ) {w : List ℝ}
    (hl : w.length = s.nSample) (h0 : ∀ x ∈ w, 0 ≤ x) (hs : |w.sum - 1| ≤ 25 / 10 ^ 8) :
    ∃ f ∈ s.features, ∃ bins, HMap.get? binsMap f.name = some bins ∧ ∃ β ∈ bins, ∃ x, β.stop = fin x ∧ θ * w.sum ≤ testEdge s w f x := by
  have hs' := abs_le.mp hs
  norm_num at hs'
  exact test_of_margin_pos hθ hv hl h0 (by linarith)

/-- The weights as numbers. -/
theorem sound_numbers {n : ℕ} (hn : 0 < n) {d : List F64} (h : SoundWeights n d) :
    ∃ w : List ℝ, d = w.map fin ∧ w.length = n ∧ (∀ x ∈ w, 0 ≤ x) ∧ |w.sum - 1| ≤ 25 / 10 ^ 8 ∧ TreeWeights n w := by
  obtain ⟨xs, hxs, hl, hpos, hsum, hD⟩ := h
  obtain ⟨w, hwe, hw⟩ := treeWeights_of_sound hn ⟨xs, hxs, hl, hpos, hsum, hD⟩
  have e : w = xs := List.map_injective_iff.mpr (fun _ _ h => by cases h; rfl) (hwe.symm.trans hxs)
  subst e
  exact ⟨w, hwe, hl, fun x hx => le_trans (by positivity) (hpos x hx), hsum, hw⟩

theorem edge_of_square {θ E W T c : ℝ} (hθ0 : 0 < θ) (hθ1 : θ ≤ 1) (hW : |W - 1| ≤ 25 / 10 ^ 8) (hT : θ * W ≤ T) (hE : T ^ 2 ≤ E * W + c) (hc0 : 0 ≤ c) (hc1 : c ≤ 1) :
    θ ^ 2 - c - 1 / 10 ^ 6 ≤ E := by
  have hW' := abs_le.mp hW
  norm_num at hW'
  have hW0 : 0 < W := by linarith
  have h1 : (θ * W) ^ 2 ≤ T ^ 2 := by
    have : 0 ≤ θ * W := by positivity
    gcongr
  have h2 : θ ^ 2 * W ^ 2 - c ≤ E * W := by nlinarith
  have hθ2 : θ ^ 2 ≤ 1 := by nlinarith
  have h3 : (θ ^ 2 - c - 1 / 10 ^ 6) * W ≤ θ ^ 2 * W ^ 2 - c := by
    have a : θ ^ 2 * W * (1 - W) ≤ 26 / 10 ^ 8 := by
      have : θ ^ 2 * W ≤ 1 * (1 + 1 / 1000000) := by
        apply mul_le_mul hθ2 (by linarith) hW0.le (by norm_num)
      have hn : 0 ≤ θ ^ 2 * W := by positivity
      rcases le_total (1 - W) 0 with h | h
      · nlinarith
      · nlinarith
    have b : c * (1 - W) ≤ 26 / 10 ^ 8 := by
      rcases le_total (1 - W) 0 with h | h <;> nlinarith
    nlinarith
  exact le_of_mul_le_mul_right (h3.trans h2) hW0

/-- C113: AdaBoostV on trees with the criterion `edge`, both in `f64`.  If a vote over the tests `column < boundary of a bin` has margin `θ` on every row, `θ²` exceeds
the tolerance `ν ≥ 0.01` by `4·10⁻⁵`, and no tree of the run has an edge above `0.95`, then training never panics, the learner is called once per round, and the returned
vote of trees has a margin of at least `θ² - ν - max(ln m - Tν²/2, 0)/(Tν) - 4·10⁻⁵ - 10⁻⁵/ν` on every row. -/
theorem adaboostv_f64_edge_trees (L : Libm) (b : DecisionTreeBuilder ℝ) (hb : FloatTreeData b) (hc : b.criterion = .edge) (hd : 1 ≤ b.maxDepth) (t : FTree.Tree)
    (ht : FTree.build (10 ^ 5) b = some (.ok t)) (wl : WeakLearner F64 (TreeNode F64)) (hwl : FTree.IsLearner L t b.sample wl) (s : AdaBoostVF (TreeNode F64))
    (ν θ : ℝ) (htol : s.tolerance = fin ν) (hν : 1 / 100 ≤ ν) (hθ0 : 0 < θ) (hθ : ν + 4 / 10 ^ 5 ≤ θ ^ 2) (hθ1 : θ ^ 2 ≤ 95 / 100) (hv : TestMargin b.sample t.bins θ)
    (hup : ∀ it st, AdaBoostVF.Reach L b.sample.rows wl s it st → it ≤ st.maxIter → exactEdge b.sample.rows st.dist (wl it st.dist) ≤ 95 / 100)
    (hT1 : 1 ≤ AdaBoostVF.limit L b.sample.rows s) (hT : AdaBoostVF.limit L b.sample.rows s ≤ 900) {r} (h : (AdaBoostVF.booster L b.sample.rows).Runs wl s r) :
    ∃ f qs, r = .ok (f, qs) ∧ qs.length = AdaBoostVF.limit L b.sample.rows s ∧
      (∀ d ∈ qs, SoundWeights b.sample.nSample d ∧ ∀ it, FTree.Produce L t b.sample d (some (wl it d))) ∧
      ∀ i < b.sample.nSample, ∃ c : ℝ, F64.weightedConf f (b.sample, i) = fin c ∧
        θ ^ 2 - ν - max (Real.log b.sample.nSample - AdaBoostVF.limit L b.sample.rows s * (ν ^ 2 / 2)) 0 / (AdaBoostVF.limit L b.sample.rows s * ν) - 4 / 10 ^ 5 - 1 / 10 ^ 5 / ν
          ≤ b.sample.target.getD i 0 * c := by
  have hθ1' : θ ≤ 1 := by nlinarith
  have hlow : ∀ it d, SoundWeights b.sample.nSample d → θ ^ 2 - 3 / 10 ^ 5 ≤ exactEdge b.sample.rows d (wl it d) := by
    intro it d hsd
    obtain ⟨hp, -⟩ := floatTree_conf hb ht hwl hsd it
    obtain ⟨w, rfl, hl, h0, hsum, hw⟩ := sound_numbers hb.rows hsd
    obtain ⟨f, hf, bins, hbins, β, hβ, x, hx, hg⟩ := test_of_margin hθ0 hv hl h0 hsum
    have hsum' := abs_le.mp hsum
    norm_num at hsum'
    have hE := tree_f64_edge L b hb hc hd t ht w hw (by linarith) _ hp f hf bins hbins β hβ x hx
    have := edge_of_square hθ0 hθ1' hsum hg hE (by norm_num) (by norm_num)
    norm_num at this ⊢
    linarith
  have hfair : AdaBoostVF.Fair L b.sample.rows wl s (θ ^ 2 - 3 / 10 ^ 5) (95 / 100) :=
    ⟨fun it st _ _ hd => (floatTree_conf hb ht hwl (floatRows_length b.sample ▸ hd) it).2,
      fun it st hr hi hd => ⟨hlow it _ (floatRows_length b.sample ▸ hd), hup it st hr hi⟩⟩
  obtain ⟨f, qs, h1, h2, h3, h4⟩ := adaboostv_f64_margin L b.sample.rows (floatRows_labels hb.sample hb.labels)
    (by rw [floatRows_length]; exact hb.rows_le) (floatRows_binary hb) wl s ν _ htol hν (by norm_num at hθ ⊢; linarith) (by norm_num; linarith) hfair hT1 hT h
  rw [floatRows_length] at h3 h4
  refine ⟨f, qs, h1, h2, fun d hd => ⟨h3 d hd, fun it => (floatTree_conf hb ht hwl (h3 d hd) it).1⟩, fun i hi => ?_⟩
  obtain ⟨c, hc, hm⟩ := h4 ((b.sample, i), b.sample.target.getD i 0) (List.mem_map.mpr ⟨i, List.mem_range.mpr hi, rfl⟩)
  refine ⟨c, hc, le_trans ?_ hm⟩
  linarith

/-- C113: AdaBoost on trees with the criterion `edge`, both in `f64`, under the same assumption about the tests: the number of wrong rows shrinks geometrically, so
that after enough rounds every label is predicted. -/
theorem adaboost_f64_margin_trees (L : Libm) (b : DecisionTreeBuilder ℝ) (hb : FloatTreeData b) (hc : b.criterion = .edge) (hd : 1 ≤ b.maxDepth) (t : FTree.Tree)
    (ht : FTree.build (10 ^ 5) b = some (.ok t)) (wl : WeakLearner F64 (TreeNode F64)) (hwl : FTree.IsLearner L t b.sample wl) (s : AdaBoostF (TreeNode F64))
    (θ : ℝ) (hθ0 : 0 < θ) (hθ : 2 / 1000 ≤ θ ^ 2) (hθ1 : θ ^ 2 ≤ 998 / 1000) (hv : TestMargin b.sample t.bins θ)
    (hup : ∀ it st, FloatReach L b.sample.rows wl s it st → it ≤ st.maxIter → exactEdge b.sample.rows st.dist (wl it st.dist) ≤ 998 / 1000)
    (hT1 : 1 ≤ floatLimit b.sample.rows s) (hT : floatLimit b.sample.rows s ≤ 900) {r} (h : (AdaBoostF.booster L b.sample.rows).Runs wl s r) :
    ∃ f qs, r = .ok (f, qs) ∧ qs.length = floatLimit b.sample.rows s ∧
      (floatMistakes b.sample.rows f : ℝ) ≤
        1001 / 1000 * (Real.sqrt (1 - (θ ^ 2 - 3 / 10 ^ 5) ^ 2) + 1 / 10 ^ 5) ^ floatLimit b.sample.rows s * b.sample.nSample := by
  have hθ1' : θ ≤ 1 := by nlinarith
  have hlow : ∀ it d, SoundWeights b.sample.nSample d → θ ^ 2 - 3 / 10 ^ 5 ≤ exactEdge b.sample.rows d (wl it d) := by
    intro it d hsd
    obtain ⟨hp, -⟩ := floatTree_conf hb ht hwl hsd it
    obtain ⟨w, rfl, hl, h0, hsum, hw⟩ := sound_numbers hb.rows hsd
    obtain ⟨f, hf, bins, hbins, β, hβ, x, hx, hg⟩ := test_of_margin hθ0 hv hl h0 hsum
    have hsum' := abs_le.mp hsum
    norm_num at hsum'
    have hE := tree_f64_edge L b hb hc hd t ht w hw (by linarith) _ hp f hf bins hbins β hβ x hx
    have := edge_of_square hθ0 hθ1' hsum hg hE (by norm_num) (by norm_num)
    norm_num at this ⊢
    linarith
  have hfair : FairRun L b.sample.rows wl s (θ ^ 2 - 3 / 10 ^ 5) (998 / 1000) :=
    ⟨fun it st _ _ hd => (floatTree_conf hb ht hwl (floatRows_length b.sample ▸ hd) it).2,
      fun it st hr hi hd => ⟨hlow it _ (floatRows_length b.sample ▸ hd), hup it st hr hi⟩⟩
  obtain ⟨f, qs, h1, h2, -, h4⟩ := adaboost_float_training_error L b.sample.rows (floatRows_labels hb.sample hb.labels) (floatRows_ne hb)
    (by rw [floatRows_length]; exact hb.rows_le) (floatRows_binary hb) wl _ (by norm_num; linarith) (by norm_num; linarith) s hfair hT1 hT h
  rw [floatRows_length] at h4
  exact ⟨f, qs, h1, h2, h4⟩

/-! ## The depth limit in `f64` -/

theorem fullTree_f64_height (L : Libm) {t : FTree.Tree} {s : Sample ℝ} {dist : List F64} : ∀ (depth : ℕ) (idx : List ℕ) (node : TrainNode F64),
    FTree.FullTree L t s dist depth idx (some node) → height (FTree.ofTrain node) ≤ depth := by
  intro depth
  induction depth with
  | zero =>
    rintro idx node ⟨a, c, -, -, h⟩
    match a, c with
    | some total, some (cf, loss) => cases h; exact le_rfl
    | some _, none => cases h
    | none, _ => cases h
  | succ depth ih =>
    rintro idx node ⟨a, c, -, -, h⟩
    match a, c with
    | some total, some (cf, loss) =>
      rcases h with ⟨-, h⟩ | ⟨-, b, -, h⟩
      · cases h; exact Nat.zero_le _
      · match b with
        | none => cases h
        | some (feature, threshold) =>
          simp only at h
          split at h
          · cases h
          · split at h
            · cases h; exact Nat.zero_le _
            · obtain ⟨lt, rt, h1, h2, h⟩ := h
              match lt, rt with
              | some l, some r =>
                cases h
                have := ih _ _ h1
                have := ih _ _ h2
                simp only [FTree.ofTrain, height]
                omega
              | some _, none => cases h
              | none, _ => cases h
    | some _, none => cases h
    | none, _ => cases h

theorem removeRedundant_f64_height (n : TrainNode F64) : height (FTree.ofTrain (FTree.removeRedundant n)) ≤ height (FTree.ofTrain n) := by
  induction n with
  | leaf c w l => exact le_refl _
  | branch rule left right c w l n ihl ihr =>
    unfold FTree.removeRedundant
    split
    · simp only [FTree.ofTrain, height]; omega
    · split
      · simp only [FTree.ofTrain, height]; omega
      · split
        · simp [FTree.ofTrain, height]
        · simp only [FTree.ofTrain, height]; omega

/-- Also in `f64`, whatever the weights, a tree that training returns has at most `max_depth` tests on every way from the root to a leaf. -/
theorem tree_f64_depth (L : Libm) (t : FTree.Tree) (s : Sample ℝ) (dist : List F64) (tree : TreeNode F64) (h : FTree.Produce L t s dist (some tree)) :
    height tree ≤ t.maxDepth := by
  unfold FTree.Produce at h
  split at h
  · cases h
  · split at h
    · cases h
    · obtain ⟨x, hx, h⟩ := h
      cases x with
      | none => cases h
      | some node =>
        cases h
        exact (removeRedundant_f64_height node).trans (fullTree_f64_height L _ _ _ hx)

/-! ## An example -/

/-- The learner for the sample of C94 with the criterion `edge` and a single test per tree. -/
noncomputable def stumpBuilder : DecisionTreeBuilder ℝ := { edgeBuilder with maxDepth := 1 }

theorem stumpBuilder_data : FloatTreeData stumpBuilder :=
  ⟨edgeBuilder_data.sample, edgeBuilder_data.column, edgeBuilder_data.rows, edgeBuilder_data.rows_le, edgeBuilder_data.columns, edgeBuilder_data.criterion,
    edgeBuilder_data.labels, edgeBuilder_data.binary⟩

theorem stumpBuild : FTree.build (10 ^ 5) stumpBuilder = some (.ok ⟨[("x", giniBins)], .edge, 1⟩) := by
  unfold FTree.build
  have h : stumpBuilder.nBins = [("x", 3)] := giniSample_bins
  have hf' : stumpBuilder.sample.features = [.dense ⟨"x", [0, 1, 3]⟩] := rfl
  rw [h, hf']
  simp only [FTree.cutAll, Feature.name, HMap.get?, if_true, giniCut (show 3 ≤ 10 ^ 5 by norm_num)]
  rfl

/-- A single test cannot tell the middle row from both of its neighbours. -/
theorem stump_conf {tree : TreeNode F64} (h : height tree ≤ 1) :
    (conf tree (giniSample, 1) : F64) = conf tree (giniSample, 0) ∨ (conf tree (giniSample, 1) : F64) = conf tree (giniSample, 2) := by
  show (FTree.confidence giniSample 1 tree).getD nan = (FTree.confidence giniSample 0 tree).getD nan ∨
    (FTree.confidence giniSample 1 tree).getD nan = (FTree.confidence giniSample 2 tree).getD nan
  cases tree with
  | leaf c => left; rfl
  | branch rule l r =>
    obtain ⟨a, rfl⟩ : ∃ a, l = .leaf a := by
      cases l with
      | leaf a => exact ⟨a, rfl⟩
      | branch _ _ _ => simp only [height] at h; omega
    obtain ⟨b, rfl⟩ : ∃ b, r = .leaf b := by
      cases r with
      | leaf a => exact ⟨a, rfl⟩
      | branch _ _ _ => simp only [height] at h; omega
    simp only [FTree.confidence, FTree.goesLeft]
    cases hbn : giniSample.byName rule.feature with
    | error e => left; rfl
    | ok f =>
      have hf : f = .dense ⟨"x", [0, 1, 3]⟩ := by
        unfold Sample.byName at hbn
        by_cases hx : "x" = rule.feature
        · rw [show HMap.get? giniSample.nameToIndex rule.feature = some 0 from if_pos hx] at hbn
          cases hbn
          rfl
        · rw [show HMap.get? giniSample.nameToIndex rule.feature = none from if_neg hx] at hbn
          cases hbn
      subst hf
      have h0 : (Feature.dense ⟨"x", [(0 : ℝ), 1, 3]⟩).index 0 = .ok 0 := rfl
      have h1 : (Feature.dense ⟨"x", [(0 : ℝ), 1, 3]⟩).index 1 = .ok 1 := rfl
      have h2 : (Feature.dense ⟨"x", [(0 : ℝ), 1, 3]⟩).index 2 = .ok 3 := rfl
      simp only [h0, h1, h2]
      by_cases c1 : F64.Lt (fin 1) rule.threshold
      · left
        have c0 : F64.Lt (fin 0) rule.threshold := by
          match rule.threshold, c1 with
          | fin a, c1 => exact lt_trans (by norm_num) c1
          | inf t, c1 => exact c1
        simp only [c0, c1]
      · right
        have c2 : ¬ F64.Lt (fin 3) rule.threshold := by
          intro c2
          apply c1
          match rule.threshold, c2 with
          | fin a, c2 => exact lt_trans (by norm_num) c2
          | inf t, c2 => exact c2
        simp only [c1, c2]

/-- One round of AdaBoostV with the tolerance `1/20`. -/
noncomputable def oneRound : AdaBoostVF (TreeNode F64) := { AdaBoostVF.init giniSample.rows with tolerance := fin (1 / 20), forceQuitAt := some 1 }

theorem reachV_first {L : Libm} {H X : Type*} [Classifier H X F64] {S : Examples X ℝ} {wl : WeakLearner F64 H} {s st : AdaBoostVF H} {it : Nat}
    (h : AdaBoostVF.Reach L S wl s it st) : 1 ≤ it ∧ (it = 1 → AdaBoostVF.preprocess L S s = .ok st) ∧ st.maxIter = AdaBoostVF.limit L S s := by
  induction h with
  | start h =>
    refine ⟨le_rfl, fun _ => h, ?_⟩
    change AdaBoostVF.preprocess L S s = _ at h
    unfold AdaBoostVF.preprocess at h
    split at h
    · cases h
    · cases h; rfl
  | @next it s₁ out _ hb hf ih =>
    refine ⟨by omega, fun h => by omega, ?_⟩
    change AdaBoostVF.Boost L S s₁ wl it _ at hb
    unfold AdaBoostVF.Boost at hb
    split at hb
    · cases hb; cases hf
    · obtain ⟨edge, -, ⟨-, h⟩ | ⟨-, d, hd, h⟩⟩ := hb
      · cases h; cases hf
      · cases d with
        | error e => cases h
        | ok d => cases h; exact ih.2.2

/-- The hypotheses of `adaboostv_f64_edge_trees` are met: on the sample of C94, which no single test separates, trees with one test have edges of about one third in
the first round. -/
example (L : Libm) : ∃ wl : WeakLearner F64 (TreeNode F64), FTree.IsLearner L ⟨[("x", giniBins)], .edge, 1⟩ giniSample wl ∧
    ∃ r, (AdaBoostVF.booster L giniSample.rows).Runs wl oneRound r ∧ ∃ f qs, r = .ok (f, qs) ∧ qs.length = 1 := by
  obtain ⟨wl, hwl⟩ := exists_floatTreeLearner L ⟨[("x", giniBins)], .edge, 1⟩ giniSample
  obtain ⟨r, hr⟩ := exists_runV L giniSample.rows wl oneRound
  refine ⟨wl, hwl, r, hr, ?_⟩
  have hup : ∀ it st, AdaBoostVF.Reach L giniSample.rows wl oneRound it st → it ≤ st.maxIter → exactEdge giniSample.rows st.dist (wl it st.dist) ≤ 95 / 100 := by
    intro it st h hi
    obtain ⟨h1, h2, h3⟩ := reachV_first h
    have hit : it = 1 := by
      have : AdaBoostVF.limit L giniSample.rows oneRound = 1 := rfl
      omega
    subst hit
    obtain ⟨x, hx1, hx2, hx3⟩ := approx (z := 1 / 3) (by norm_num [abs_of_pos])
    have hd : st.dist = [fin x, fin x, fin x] := by
      have hp := h2 rfl
      unfold AdaBoostVF.preprocess at hp
      split at hp
      · cases hp
      · cases hp
        have hd : div (fin 1) (fin ((giniSample.rows.length : ℕ) : ℝ)) = fin x := by
          rw [floatRows_length]
          show div (fin 1) (fin ((3 : ℕ) : ℝ)) = fin x
          simp only [div]
          rw [if_neg (by norm_num), ← hx1]
          norm_num
        simp only [hd]
        rw [floatRows_length]
        rfl
    have hx' := abs_le.mp hx2
    norm_num at hx'
    have hsound : SoundWeights stumpBuilder.sample.nSample st.dist := by
      rw [hd]
      refine ⟨[x, x, x], rfl, rfl, ?_, ?_, ?_⟩
      · intro y hy
        simp only [List.mem_cons, List.not_mem_nil, or_false, or_self] at hy
        subst hy
        rw [two_eta]
        have := eta_tiny
        norm_num at this
        linarith
      · simp only [List.sum_cons, List.sum_nil]
        rw [abs_le]; constructor <;> linarith
      · intro y hy
        simp only [List.mem_cons, List.not_mem_nil, or_false, or_self] at hy
        subst hy
        exact hx3
    obtain ⟨hp, hc⟩ := floatTree_conf stumpBuilder_data stumpBuild hwl hsound 1
    have hht := tree_f64_depth L _ _ _ _ hp
    rw [hd] at hc hht ⊢
    set tree := wl 1 [fin x, fin x, fin x] with htree
    have hrows : giniSample.rows = [((giniSample, 0), 1), ((giniSample, 1), -1), ((giniSample, 2), 1)] := rfl
    have hc' : ∀ e ∈ giniSample.rows, ∃ c : ℝ, conf tree e.1 = fin c ∧ |c| ≤ 1 := hc
    obtain ⟨c0, a0, b0⟩ := hc' ((giniSample, 0), 1) (by simp [hrows])
    obtain ⟨c1, a1, b1⟩ := hc' ((giniSample, 1), -1) (by simp [hrows])
    obtain ⟨c2, a2, b2⟩ := hc' ((giniSample, 2), 1) (by simp [hrows])
    have hE : exactEdge giniSample.rows [fin x, fin x, fin x] tree = x * (c0 - c1 + c2) := by
      rw [exactEdge, hrows]
      simp only [List.zipWith_cons_cons, List.zipWith_nil_left, List.sum_cons, List.sum_nil, a0, a1, a2]
      simp only [F64.val]
      ring
    rw [hE]
    rw [abs_le] at b0 b1 b2
    rcases stump_conf hht with h | h
    · rw [a0, a1] at h
      cases h
      nlinarith
    · rw [a1, a2] at h
      cases h
      nlinarith
  obtain ⟨f, qs, h1, h2, -⟩ := adaboostv_f64_edge_trees L stumpBuilder stumpBuilder_data rfl le_rfl _ stumpBuild wl hwl oneRound (1 / 20) (1 / 3) rfl (by norm_num)
    (by norm_num) (by norm_num) (by norm_num) giniMargin hup le_rfl (by show 1 ≤ 900; norm_num) hr
  exact ⟨f, qs, h1, h2⟩

end Miniboosts.Props
