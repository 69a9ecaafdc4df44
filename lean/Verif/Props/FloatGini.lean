import Verif.Lemmas.FloatGiniTree
import Verif.Props.FloatEdge

/-! # The criterion Gini in `f64` (C111) -/

namespace Miniboosts.Props

open Miniboosts Spec F64

/-- What is asked of the data is what C95 asks, with Gini as the criterion. -/
structure GiniTreeData (b : DecisionTreeBuilder ℝ) : Prop where
  criterion : b.criterion = .gini
  data : FloatTreeData (b.setCriterion .edge)

/-- `build` only stores the criterion. -/
theorem build_setCriterion (fuel : ℕ) (b : DecisionTreeBuilder ℝ) (c : Criterion) {t : FTree.Tree} (ht : FTree.build fuel b = some (.ok t)) :
    FTree.build fuel (b.setCriterion c) = some (.ok { t with criterion := c }) := by
  unfold FTree.build at ht ⊢
  rw [show (b.setCriterion c).nBins = b.nBins from rfl, show (b.setCriterion c).sample = b.sample from rfl]
  cases h : FTree.cutAll fuel b.nBins b.sample.features with
  | none => rw [h] at ht; cases ht
  | some r =>
    rw [h] at ht
    cases r with
    | error e => cases ht
    | ok bins => cases ht; rfl

theorem gini_fine {b : DecisionTreeBuilder ℝ} (hb : GiniTreeData b) {t : FTree.Tree} (ht : FTree.build (10 ^ 5) b = some (.ok t)) :
    FTree.FineTree t b.sample ∧ t.criterion = .gini ∧ t.maxDepth = b.maxDepth := by
  obtain ⟨h1, -, h3⟩ := build_fine hb.data (build_setCriterion _ b .edge ht)
  refine ⟨⟨⟨h1.ok.sample, h1.ok.some_feature, h1.ok.values, h1.ok.bins⟩, h1.fine⟩, ?_, h3⟩
  unfold FTree.build at ht
  cases h : FTree.cutAll (10 ^ 5) b.nBins b.sample.features with
  | none => rw [h] at ht; cases ht
  | some r =>
    rw [h] at ht
    cases r with
    | error e => cases ht
    | ok bins => cases ht; exact hb.criterion

theorem gini_builds {b : DecisionTreeBuilder ℝ} (hb : GiniTreeData b) : ∃ t, FTree.build (10 ^ 5) b = some (.ok t) := by
  obtain ⟨t, t1, -⟩ := tree_build_f64_partial (b.setCriterion .edge) hb.data.sample hb.data.rows (10 ^ 5) hb.data.columns
  have h := build_setCriterion _ _ b.criterion (t1 (10 ^ 5) le_rfl)
  exact ⟨_, h⟩

/-- With Gini the search on a column returns a threshold when no weight is tiny. -/
theorem gini_searches (L : Libm) {t : FTree.Tree} (hc : t.criterion = .gini) {s : Sample ℝ} (ht : FTree.FineTree t s) (hy : ∀ y ∈ s.target, y = 1 ∨ y = -1)
    {dist : List F64} {w : ℕ → ℝ} (idx : List ℕ) (hN : FTree.Node s dist w idx) (hne : idx ≠ []) (hw : ∀ i ∈ idx, 1 / 10 ^ 6 ≤ w i) : FTree.Searches L t s dist idx := by
  intro f hf
  obtain ⟨rb, b1, b2, b3⟩ := ht.ok.bins f hf
  obtain ⟨⟨p, hp⟩, hall⟩ := FTree.pack_f64 b3 b2 ht.ok.sample hf (ht.ok.values f hf) hN hne
  unfold FTree.FeatureSplit
  rw [b1, hc]
  constructor
  · obtain ⟨pack, ms, rfl, -⟩ := hall p hp
    obtain ⟨o, ho⟩ := exists_splitByGini pack
    exact ⟨_, some pack, hp, o, ho, rfl⟩
  · rintro o ⟨p, hp, ho⟩
    obtain ⟨pack, ms, rfl, -⟩ := hall p hp
    obtain ⟨r, hr, rfl⟩ := ho
    obtain ⟨z, thr, rfl, -⟩ := FTree.splitByGini_near b3 b2 (ht.fine f hf rb b1) ht.ok.sample hf (ht.ok.values f hf) hN hne (tree_binary ht.ok.sample hy hN.row) hp hr (.inr hw)
    exact ⟨fin z, fin thr, rfl, by simp⟩

/-- C111, training: with the criterion Gini and no positive weight below `10⁻⁶`, training in `f64` has an outcome and every outcome — whatever the order of
the hash maps and the division of the parallel sums — is a tree, never the panic of C94, which answers every row with a number in `[-1, 1]`. -/
theorem tree_f64_gini_trains (L : Libm) (b : DecisionTreeBuilder ℝ) (hb : GiniTreeData b) (t : FTree.Tree) (ht : FTree.build (10 ^ 5) b = some (.ok t)) (w : List ℝ)
    (hw : TreeWeights b.sample.nSample w) (hbig : ∀ x ∈ w, 0 < x → 1 / 10 ^ 6 ≤ x) :
    (∃ o, FTree.Produce L t b.sample (w.map fin) o) ∧
      ∀ o, FTree.Produce L t b.sample (w.map fin) o → ∃ tree, o = some tree ∧
        ∀ row < b.sample.nSample, ∃ x : ℝ, FTree.confidence b.sample row tree = some (fin x) ∧ |x| ≤ 1 := by
  classical
  obtain ⟨hfine, tc, -⟩ := gini_fine hb ht
  obtain ⟨idx, i1, i2, i3⟩ := node_of_weights hw hb.data.rows_le
  have hbig' : ∀ i ∈ idx, 1 / 10 ^ 6 ≤ w.getD i 0 := by
    intro i hi
    have hi' : i < w.length := by rw [hw.length]; exact i3.row i hi
    have hpos : 0 < w.getD i 0 := by
      have := (i3.weight i hi).2.1
      have := eta_pos
      linarith
    have hm : w.getD i 0 ∈ w := by
      rw [List.getD_eq_getElem?_getD, List.getElem?_eq_getElem hi']
      exact List.getElem_mem hi'
    exact hbig _ hm hpos
  obtain ⟨⟨x, hx⟩, hall⟩ := FTree.fullTree_grows L hfine.ok (P := fun idx => ∀ i ∈ idx, 1 / 10 ^ 6 ≤ w.getD i 0)
    (fun idx p h i hi => h i (List.mem_filter.mp hi).1) (fun idx hN hne hP => gini_searches L tc hfine hb.data.labels idx hN hne hP) t.maxDepth idx i3 i2 hbig'
  unfold FTree.Produce
  rw [i1]
  simp only [i2, if_false]
  refine ⟨⟨_, x, hx, rfl⟩, ?_⟩
  rintro o ⟨x, hx, rfl⟩
  obtain ⟨node, rfl, hg⟩ := hall x hx
  exact ⟨_, rfl, fun row hrow => FTree.confidence_good hb.data.sample hrow _ (FTree.ofTrain_good _ (FTree.removeRedundant_good _ hg))⟩

/-- C111, learning: with the criterion Gini and a depth of at least one, every tree that `produce` returns — however small the weights are — has an edge that
is, up to `4·10⁻⁵`, at least the square of the edge of every rule of thumb `value of the column < boundary of a bin`. -/
theorem tree_f64_gini (L : Libm) (b : DecisionTreeBuilder ℝ) (hb : GiniTreeData b) (hd : 1 ≤ b.maxDepth) (t : FTree.Tree)
    (ht : FTree.build (10 ^ 5) b = some (.ok t)) (w : List ℝ) (hw : TreeWeights b.sample.nSample w) (hW : 1 / 2 ≤ w.sum) (tree : TreeNode F64)
    (hp : FTree.Produce L t b.sample (w.map fin) (some tree)) (f : Feature ℝ) (hf : f ∈ b.sample.features) (bins : List (Bin F64))
    (hbins : HMap.get? t.bins f.name = some bins) (β : Bin F64) (hβ : β ∈ bins) (x : ℝ) (hx : β.stop = fin x) :
    testEdge b.sample w f x ^ 2 ≤ exactEdge b.sample.rows (w.map fin) tree * w.sum + 4 / 10 ^ 5 := by
  classical
  obtain ⟨hfine, tc, td⟩ := gini_fine hb ht
  obtain ⟨idx, node, hidx, i2, i3, hfull, rfl⟩ := produce_rel hw hb.data.rows_le hp
  have hbin := tree_binary (s := b.sample) hb.data.sample hb.data.labels i3.row
  have h0 := weights_nonneg hw
  have e1 : (idx.map fun i => w.getD i 0).sum = w.sum := by
    rw [hidx, ← weights_sum hw.length]
    have := sum_positive (w := fun i => w.getD i 0) _ h0 fun _ => 1
    simpa using this
  have e3 : FTree.edgeOn b.sample (fun i => w.getD i 0) (FTree.ofTrain (FTree.removeRedundant node)) idx =
      exactEdge b.sample.rows (w.map fin) (FTree.ofTrain (FTree.removeRedundant node)) := by
    rw [exactEdge_rows hw.length]
    unfold FTree.edgeOn
    rw [hidx, sum_positive _ h0]
  obtain ⟨d, hdep⟩ : ∃ d, t.maxDepth = d + 1 := ⟨t.maxDepth - 1, by omega⟩
  rw [hdep] at hfull
  obtain ⟨Q, hQ1, hQ2, hQ3⟩ := FTree.fullTree_gini L tc hfine i3 i2 hbin (e1 ▸ hW) hfull
  rw [e1, e3] at hQ3
  obtain ⟨rb, rb1, rb2, rb3⟩ := hfine.ok.bins f hf
  rw [hbins] at rb1
  obtain rfl := Option.some.inj rb1
  obtain ⟨γ, hγ, rfl⟩ := List.mem_map.mp hβ
  have hx' : γ.stop = x := by
    have : fin γ.stop = fin x := hx
    simpa using this
  have hdiff := hQ2 f hf rb hbins γ hγ
  rw [hx'] at hdiff
  have hW0 : 0 < w.sum := by linarith
  rw [e1, div_pow, div_le_iff₀ (by positivity)] at hQ1
  unfold FTree.diff at hdiff
  rw [e1, abs_div, abs_of_pos hW0, div_pow, div_le_iff₀ (by positivity)] at hdiff
  have hsum := FTree.signed_filter b.sample (fun i => w.getD i 0) idx fun i => decide (f.val i < x)
  have hst : testEdge b.sample w f x = |FTree.signedWeight b.sample (fun i => w.getD i 0) (idx.filter fun i => decide (f.val i < x))| +
      |FTree.signedWeight b.sample (fun i => w.getD i 0) (idx.filter fun i => !decide (f.val i < x))| := by
    unfold testEdge FTree.signedWeight
    rw [hidx, sum_positive_filter _ h0, sum_positive_filter _ h0]
    congr 3
    refine congrArg _ (List.filter_congr fun i _ => ?_)
    rw [← decide_not]
    exact decide_eq_decide.mpr not_lt.symm
  have hle : testEdge b.sample w f x ^ 2 ≤ Q * w.sum ^ 2 := by
    rw [hst, FTree.sides_max, hsum]
    rcases max_choice (|FTree.signedWeight b.sample (fun i => w.getD i 0) idx|) (|FTree.signedWeight b.sample (fun i => w.getD i 0) (idx.filter fun i => !decide (f.val i < x)) -
      FTree.signedWeight b.sample (fun i => w.getD i 0) (idx.filter fun i => decide (f.val i < x))|) with h | h
    · rw [h]; exact hQ1
    · rw [h]
      unfold FTree.below at hdiff
      rw [← hsum] at hdiff
      refine le_trans (le_of_eq ?_) hdiff
      congr 2
      ring
  have h2 : Q * w.sum ^ 2 ≤ (exactEdge b.sample.rows (w.map fin) (FTree.ofTrain (FTree.removeRedundant node)) + 2 / 10 ^ 5) * w.sum := by
    rw [show Q * w.sum ^ 2 = Q * w.sum * w.sum by ring]
    gcongr
    linarith
  have h3 := hw.sum
  have h4 : (2 / 10 ^ 5 : ℝ) * w.sum ≤ 2 / 10 ^ 5 * (3 / 2) := by gcongr
  norm_num at h4 ⊢
  linarith

/-! ## AdaBoost on these trees -/

/-- AdaBoost on trees with the criterion Gini, both in `f64`: if in every round that a run may reach no weight is below `10⁻⁶`, some test on the bins has an
edge of at least `γ`, and no tree's edge exceeds `0.998`, then the returned vote is wrong on at most a fraction
`1.001 (√(1 - (γ² - 5·10⁻⁵)²) + 10⁻⁵)^T` of the rows. -/
theorem adaboost_f64_gini_trees (L : Libm) (b : DecisionTreeBuilder ℝ) (hb : GiniTreeData b) (hd : 1 ≤ b.maxDepth) (t : FTree.Tree)
    (ht : FTree.build (10 ^ 5) b = some (.ok t)) (wl : WeakLearner F64 (TreeNode F64)) (hwl : FTree.IsLearner L t b.sample wl) (γ : ℝ)
    (hγ0 : 0 ≤ γ) (hγ : 1 / 1000 ≤ γ ^ 2 - 5 / 10 ^ 5) (hγ2 : γ ^ 2 - 5 / 10 ^ 5 ≤ 998 / 1000) (s : AdaBoostF (TreeNode F64))
    (hbig : ∀ it st, FloatReach L b.sample.rows wl s it st → it ≤ st.maxIter → ∀ q ∈ st.dist, 1 / 10 ^ 6 ≤ F64.val q)
    (htest : ∀ it st, FloatReach L b.sample.rows wl s it st → it ≤ st.maxIter → ∃ f ∈ b.sample.features, ∃ bins, HMap.get? t.bins f.name = some bins ∧
      ∃ β ∈ bins, ∃ x, β.stop = fin x ∧ γ ≤ testEdge b.sample (st.dist.map F64.val) f x)
    (hup : ∀ it st, FloatReach L b.sample.rows wl s it st → it ≤ st.maxIter → exactEdge b.sample.rows st.dist (wl it st.dist) ≤ 998 / 1000)
    (hT1 : 1 ≤ floatLimit b.sample.rows s) (hT : floatLimit b.sample.rows s ≤ 900) {r} (h : (AdaBoostF.booster L b.sample.rows).Runs wl s r) :
    ∃ f qs, r = .ok (f, qs) ∧ qs.length = floatLimit b.sample.rows s ∧
      (floatMistakes b.sample.rows f : ℝ) ≤
        1001 / 1000 * (Real.sqrt (1 - (γ ^ 2 - 5 / 10 ^ 5) ^ 2) + 1 / 10 ^ 5) ^ floatLimit b.sample.rows s * b.sample.nSample := by
  have hconf : ∀ it st, FloatReach L b.sample.rows wl s it st → it ≤ st.maxIter → SoundWeights b.sample.nSample st.dist →
      FTree.Produce L t b.sample st.dist (some (wl it st.dist)) ∧ ∀ e ∈ b.sample.rows, ∃ c : ℝ, conf (wl it st.dist) e.1 = fin c ∧ |c| ≤ 1 := by
    intro it st hr hi hsd
    have hbg := hbig it st hr hi
    obtain ⟨w, hwe, hw⟩ := treeWeights_of_sound hb.data.rows hsd
    rw [hwe] at hbg ⊢
    obtain ⟨⟨o, ho⟩, hall⟩ := tree_f64_gini_trains L b hb t ht w hw fun x hx _ => hbg (fin x) (List.mem_map_of_mem hx)
    obtain ⟨tree, rfl, -⟩ := hall o ho
    have hp := hwl it _ ⟨tree, ho⟩
    obtain ⟨tree', h1, h2⟩ := hall _ hp
    cases h1
    refine ⟨hp, fun e he => ?_⟩
    obtain ⟨i, hi, rfl⟩ := List.mem_map.mp he
    obtain ⟨x, hx, hx1⟩ := h2 i (List.mem_range.mp hi)
    refine ⟨x, ?_, hx1⟩
    show (FTree.confidence b.sample i (wl it (w.map fin))).getD nan = fin x
    rw [hx]
    rfl
  have hlow : ∀ it st, FloatReach L b.sample.rows wl s it st → it ≤ st.maxIter → SoundWeights b.sample.nSample st.dist →
      γ ^ 2 - 5 / 10 ^ 5 ≤ exactEdge b.sample.rows st.dist (wl it st.dist) := by
    intro it st hr hi hsd
    obtain ⟨hp, -⟩ := hconf it st hr hi hsd
    obtain ⟨f, hf, bins, hbins, β, hβ, x, hx, hg⟩ := htest it st hr hi
    have hu := hup it st hr hi
    obtain ⟨xs, hxs, hl, hpos, hsum, hD⟩ := hsd
    obtain ⟨w, hwe, hw⟩ := treeWeights_of_sound hb.data.rows ⟨xs, hxs, hl, hpos, hsum, hD⟩
    have e : w = xs := List.map_injective_iff.mpr (fun _ _ h => by cases h; rfl) (hwe.symm.trans hxs)
    subst e
    have hval : st.dist.map F64.val = w := by
      rw [hxs, List.map_map]
      exact (List.map_congr_left fun _ _ => rfl).trans (List.map_id _)
    rw [hval] at hg
    have hsum' := abs_le.mp hsum
    rw [hxs] at hp hu ⊢
    have hE := tree_f64_gini L b hb hd t ht w hw (by linarith) _ hp f hf bins hbins β hβ x hx
    have h1 : γ ^ 2 ≤ testEdge b.sample w f x ^ 2 := by gcongr
    set E := exactEdge b.sample.rows (w.map fin) (wl it (w.map fin))
    norm_num at hγ hsum' hE ⊢
    nlinarith
  have hfair : FairRun L b.sample.rows wl s (γ ^ 2 - 5 / 10 ^ 5) (998 / 1000) :=
    ⟨fun it st hr hi hd => (hconf it st hr hi (floatRows_length b.sample ▸ hd)).2,
      fun it st hr hi hd => ⟨hlow it st hr hi (floatRows_length b.sample ▸ hd), hup it st hr hi⟩⟩
  obtain ⟨f, qs, h1, h2, -, h4⟩ := adaboost_float_training_error L b.sample.rows (floatRows_labels hb.data.sample hb.data.labels) (floatRows_ne (b := b.setCriterion .edge) hb.data)
    (by rw [floatRows_length]; exact hb.data.rows_le) (floatRows_binary (b := b.setCriterion .edge) hb.data) wl _ hγ hγ2 s hfair hT1 hT h
  rw [floatRows_length] at h4
  exact ⟨f, qs, h1, h2, h4⟩

/-! ## Examples -/

/-- The learner for the sample of C94, with Gini. -/
noncomputable def giniBuilder : DecisionTreeBuilder ℝ := (DecisionTreeBuilder.new giniSample).setCriterion .gini

theorem giniBuilder_data : GiniTreeData giniBuilder := ⟨rfl, edgeBuilder_data⟩

/-- Weights for the rows of `giniSample`, none of them tiny. -/
noncomputable def evenWeights : List ℝ := [1 / 2, 1 / 4, 1 / 4]

theorem evenWeights_ok : TreeWeights 3 evenWeights := by
  have h2 : F64.Rep (1 / 2) := ⟨1, -1, by norm_num, by norm_num, by norm_num⟩
  have h4 : F64.Rep (1 / 4) := ⟨1, -2, by norm_num, by norm_num, by norm_num⟩
  refine ⟨rfl, ?_, ?_, ⟨1 / 2, by simp [evenWeights], by norm_num⟩, by norm_num [evenWeights]⟩
  · intro x hx
    simp only [evenWeights, List.mem_cons, List.not_mem_nil, or_false] at hx
    rcases hx with rfl | rfl | rfl
    · exact h2
    · exact h4
    · exact h4
  · intro x hx
    simp only [evenWeights, List.mem_cons, List.not_mem_nil, or_false] at hx
    rcases hx with rfl | rfl | rfl <;> norm_num

/-- On the sample of C94 with the weights `1/2, 1/4, 1/4` Gini training returns a tree, and every tree that it may return has an edge of at least `0.249`. -/
example (L : Libm) : (∃ tree, FTree.Produce L ⟨[("x", giniBins)], .gini, 2⟩ giniSample (evenWeights.map fin) (some tree)) ∧
    (∀ o, FTree.Produce L ⟨[("x", giniBins)], .gini, 2⟩ giniSample (evenWeights.map fin) o → o ≠ none) ∧
    ∀ tree, FTree.Produce L ⟨[("x", giniBins)], .gini, 2⟩ giniSample (evenWeights.map fin) (some tree) → 249 / 1000 ≤ exactEdge giniSample.rows (evenWeights.map fin) tree := by
  have hbuild : FTree.build (10 ^ 5) giniBuilder = some (.ok ⟨[("x", giniBins)], .gini, 2⟩) := giniBuild (by norm_num)
  obtain ⟨⟨o, ho⟩, hall⟩ := tree_f64_gini_trains L giniBuilder giniBuilder_data _ hbuild evenWeights evenWeights_ok (by
    intro x hx _
    simp only [evenWeights, List.mem_cons, List.not_mem_nil, or_false] at hx
    rcases hx with rfl | rfl | rfl <;> norm_num)
  refine ⟨?_, ?_, ?_⟩
  · obtain ⟨tree, rfl, -⟩ := hall o ho
    exact ⟨tree, ho⟩
  · intro o ho
    obtain ⟨tree, rfl, -⟩ := hall o ho
    simp
  · intro tree hp
    have hsum : evenWeights.sum = 1 := by norm_num [evenWeights]
    have h := tree_f64_gini L giniBuilder giniBuilder_data (by decide) _ hbuild evenWeights evenWeights_ok (by rw [hsum]; norm_num) tree hp
      (.dense ⟨"x", [0, 1, 3]⟩) (by simp [giniBuilder, DecisionTreeBuilder.setCriterion, DecisionTreeBuilder.new, giniSample, oneColumn]) giniBins rfl
      ⟨fin (-maxVal), fin 1⟩ (by simp [giniBins]) 1 rfl
    have hv0 : (Feature.dense ⟨"x", [(0 : ℝ), 1, 3]⟩).val 0 = 0 := rfl
    have hv1 : (Feature.dense ⟨"x", [(0 : ℝ), 1, 3]⟩).val 1 = 1 := rfl
    have hv2 : (Feature.dense ⟨"x", [(0 : ℝ), 1, 3]⟩).val 2 = 3 := rfl
    have ht : testEdge giniSample evenWeights (.dense ⟨"x", [0, 1, 3]⟩) 1 = 1 / 2 := by
      have hr : List.range giniSample.nSample = [0, 1, 2] := rfl
      have htg : giniSample.target = [1, -1, 1] := rfl
      unfold testEdge
      rw [hr, htg]
      simp only [List.filter_cons, List.filter_nil, hv0, hv1, hv2, evenWeights]
      norm_num
    change testEdge giniSample evenWeights (.dense ⟨"x", [0, 1, 3]⟩) 1 ^ 2 ≤ exactEdge giniSample.rows (evenWeights.map fin) tree * evenWeights.sum + _ at h
    rw [ht, hsum] at h
    norm_num at h ⊢
    linarith

/-- The learner for three rows that no test separates, with Gini. -/
noncomputable def sameGiniBuilder : DecisionTreeBuilder ℝ := sameBuilder.setCriterion .gini

theorem sameGiniBuilder_data : GiniTreeData sameGiniBuilder := ⟨rfl, sameEdgeBuilder_data⟩

/-- The hypotheses of `adaboost_f64_gini_trees` are met by one round on these rows, where the best answer is the constant. -/
example (L : Libm) : ∃ (t : FTree.Tree) (wl : WeakLearner F64 (TreeNode F64)), FTree.build (10 ^ 5) sameGiniBuilder = some (.ok t) ∧ FTree.IsLearner L t sameSample wl ∧
    (∃ r, (AdaBoostF.booster L sameSample.rows).Runs wl sameBooster r) ∧
    ∀ r, (AdaBoostF.booster L sameSample.rows).Runs wl sameBooster r → ∃ f qs, r = .ok (f, qs) ∧ qs.length = 1 := by
  obtain ⟨t, ht⟩ := gini_builds sameGiniBuilder_data
  obtain ⟨wl, hwl⟩ := exists_floatTreeLearner L t sameSample
  refine ⟨t, wl, ht, hwl, exists_float_run L _ wl _, fun r hr => ?_⟩
  have hedges : TreeEdges L sameSample wl sameBooster (1 / 10) (998 / 1000) := by
    refine sameEdges_of (t := t) fun d hd hq => ?_
    obtain ⟨w, rfl, hw⟩ := treeWeights_of_sound (by decide) hd
    obtain ⟨⟨o, ho⟩, hall⟩ := tree_f64_gini_trains L sameGiniBuilder sameGiniBuilder_data t ht w hw fun x hx _ => le_trans (by norm_num) (hq (fin x) (List.mem_map_of_mem hx))
    obtain ⟨tree, rfl, -⟩ := hall o ho
    exact hwl 1 _ ⟨tree, ho⟩
  have hbig : ∀ it st, FloatReach L sameGiniBuilder.sample.rows wl sameBooster it st → it ≤ st.maxIter → ∀ q ∈ st.dist, 1 / 10 ^ 6 ≤ F64.val q := by
    intro it st hr hi q hq
    obtain ⟨h1, h2, h3⟩ := reach_first hr
    have hit : it = 1 := by
      have : floatLimit sameSample.rows sameBooster = 1 := rfl
      have h3' : st.maxIter = floatLimit sameSample.rows sameBooster := h3
      omega
    subst hit
    obtain ⟨x, hd, -, hx⟩ := sameDist (h2 rfl)
    have hx' := abs_le.mp hx
    rw [hd] at hq
    simp only [List.mem_cons, List.not_mem_nil, or_false, or_self] at hq
    subst hq
    show 1 / 10 ^ 6 ≤ x
    norm_num at hx' ⊢
    linarith
  have htest : ∀ it st, FloatReach L sameGiniBuilder.sample.rows wl sameBooster it st → it ≤ st.maxIter → ∃ f ∈ sameGiniBuilder.sample.features, ∃ bins,
      HMap.get? t.bins f.name = some bins ∧ ∃ β ∈ bins, ∃ x, β.stop = fin x ∧ 3 / 10 ≤ testEdge sameGiniBuilder.sample (st.dist.map F64.val) f x := by
    intro it st hr hi
    obtain ⟨h1, h2, h3⟩ := reach_first hr
    have hit : it = 1 := by
      have : floatLimit sameSample.rows sameBooster = 1 := rfl
      have h3' : st.maxIter = floatLimit sameSample.rows sameBooster := h3
      omega
    subst hit
    obtain ⟨x, hd, -, hx⟩ := sameDist (h2 rfl)
    have hx' := abs_le.mp hx
    have hf : Feature.dense ⟨"x", [(0 : ℝ), 0, 0]⟩ ∈ sameGiniBuilder.sample.features := by
      simp [sameGiniBuilder, sameBuilder, DecisionTreeBuilder.setCriterion, DecisionTreeBuilder.new, sameSample, oneColumn]
    obtain ⟨t', t1, -, -, t4⟩ := tree_build_f64_partial sameGiniBuilder sameEdgeBuilder_data.sample sameEdgeBuilder_data.rows (10 ^ 5) sameEdgeBuilder_data.columns
    have : t' = t := by
      have := t1 (10 ^ 5) le_rfl
      rw [ht] at this
      cases this
      rfl
    subst this
    obtain ⟨rb, r1, r2, r3, -⟩ := t4 _ hf
    have hlen : rb.length = 1 := by
      have hb : sameGiniBuilder.nBins = [("x", 1)] := sameSample_bins
      rw [hb] at r2
      exact Option.some.inj r2
    obtain ⟨β, rfl⟩ := List.length_eq_one_iff.mp hlen
    have hstop : β.stop = maxVal := r3.2.2
    refine ⟨_, hf, _, r1, _, List.mem_map_of_mem (List.mem_singleton_self β), maxVal, congrArg fin hstop, ?_⟩
    have hbig := FTree.maxVal_big
    have hr : List.range sameGiniBuilder.sample.nSample = [0, 1, 2] := rfl
    have htg : sameGiniBuilder.sample.target = [1, 1, -1] := rfl
    have hv : ∀ i ∈ [0, 1, 2], (Feature.dense ⟨"x", [(0 : ℝ), 0, 0]⟩).val i = 0 := by
      intro i hi
      simp only [List.mem_cons, List.not_mem_nil, or_false] at hi
      rcases hi with rfl | rfl | rfl <;> rfl
    have h0 : (0 : ℝ) < maxVal := by linarith
    have h0' : ¬ maxVal ≤ (0 : ℝ) := not_le.mpr h0
    unfold testEdge
    rw [hd, hr, htg]
    simp only [List.filter_cons, List.filter_nil, hv 0 (by simp), hv 1 (by simp), hv 2 (by simp), h0, h0', decide_true, decide_false, if_true, Bool.false_eq_true, if_false,
      List.map_cons, List.map_nil, List.sum_cons, List.sum_nil, F64.val, List.getD_cons_zero, List.getD_cons_succ]
    rw [abs_of_nonneg (by linarith)]
    norm_num at hx' ⊢
    linarith
  obtain ⟨f, qs, h1, h2, -⟩ := adaboost_f64_gini_trees L sameGiniBuilder sameGiniBuilder_data (by decide) t ht wl hwl (3 / 10) (by norm_num) (by norm_num) (by norm_num) sameBooster
    hbig htest (fun it st hr hi => (hedges it st hr hi).2) le_rfl (by show 1 ≤ 900; norm_num) hr
  exact ⟨f, qs, h1, h2⟩

end Miniboosts.Props
