import Verif.Props.FloatSmooth
import Verif.Props.FloatVTrees

/-! # SmoothBoost on decision trees in `f64` (C119) -/

namespace Miniboosts.Props

open Miniboosts Spec F64

/-- Smooth weights as numbers. -/
theorem smooth_numbers {κ : ℝ} {n : ℕ} {d : List F64} (h : SmoothWeights κ n d) :
    ∃ w : List ℝ, d = w.map fin ∧ w.length = n ∧ (∀ x ∈ w, 0 ≤ x) ∧ |w.sum - 1| ≤ 25 / 10 ^ 8 ∧ TreeWeights n w := by
  obtain ⟨w, hxs, hl, hpos, hsum, hD⟩ := h
  have hs := abs_le.mp hsum
  norm_num at hs
  refine ⟨w, hxs, hl, fun x hx => (hpos x hx).1, hsum.trans (by norm_num), hl, hD, fun x hx => (hpos x hx).1, ?_, by linarith⟩
  by_contra hne
  push Not at hne
  have : w.sum ≤ (w.map fun _ => (0 : ℝ)).sum := by
    conv_lhs => rw [← List.map_id w]
    exact List.sum_le_sum fun x hx => hne x hx
  simp only [List.map_const', List.sum_replicate, smul_zero] at this
  linarith

/-- Any weights that a tree can be trained on: the tree that the learner returns is one that training may produce, and its confidences are numbers in `[-1, 1]`. -/
theorem floatTree_conf_of {L : Libm} {b : DecisionTreeBuilder ℝ} (hb : FloatTreeData b) {t : FTree.Tree} (ht : FTree.build (10 ^ 5) b = some (.ok t))
    {wl : WeakLearner F64 (TreeNode F64)} (hwl : FTree.IsLearner L t b.sample wl) {w : List ℝ} (hw : TreeWeights b.sample.nSample w) (it : Nat) :
    FTree.Produce L t b.sample (w.map fin) (some (wl it (w.map fin))) ∧
      ∀ e ∈ b.sample.rows, ∃ c : ℝ, conf (wl it (w.map fin)) e.1 = fin c ∧ |c| ≤ 1 := by
  obtain ⟨t', t1, ⟨o, ho⟩, hall⟩ := tree_f64_trains_partial L b hb.sample hb.column hb.rows hb.rows_le hb.columns hb.criterion w hw
  have : t' = t := by
    have := t1 (10 ^ 5) le_rfl
    rw [ht] at this
    cases this
    rfl
  subst this
  obtain ⟨tree, rfl, -⟩ := hall o ho
  have hp := hwl it _ ⟨tree, ho⟩
  obtain ⟨tree', h1, h2⟩ := hall _ hp
  cases h1
  refine ⟨hp, fun e he => ?_⟩
  obtain ⟨i, hi, rfl⟩ := List.mem_map.mp he
  obtain ⟨x, hx, hx1⟩ := h2 i (List.mem_range.mp hi)
  refine ⟨x, ?_, hx1⟩
  show (FTree.confidence b.sample i (wl it (w.map fin))).getD nan = fin x
  rw [hx]
  rfl

theorem floatTree_answersSmooth {L : Libm} {b : DecisionTreeBuilder ℝ} (hb : FloatTreeData b) {t : FTree.Tree} (ht : FTree.build (10 ^ 5) b = some (.ok t))
    {wl : WeakLearner F64 (TreeNode F64)} (hwl : FTree.IsLearner L t b.sample wl) (κ : ℝ) : AnswersSmooth b.sample.rows κ wl := by
  intro it d hd
  rw [floatRows_length] at hd
  obtain ⟨w, rfl, -, -, -, hw⟩ := smooth_numbers hd
  exact (floatTree_conf_of hb ht hwl hw it).2

/-- SmoothBoost's options on a sample that trees can be trained on. -/
theorem smoothConfig_trees {b : DecisionTreeBuilder ℝ} (hb : FloatTreeData b) {s₀ : SmoothBoostF (TreeNode F64)} {κ g : ℝ} (hκ : s₀.kappa = fin κ)
    (hg : s₀.gamma = fin g) (hD : Double g) (h1 : 1 / 10 ^ 30 ≤ κ) (h2 : κ < 1) (h3 : 0 ≤ g) (h4 : g < 1 / 2) : SmoothConfig b.sample.rows s₀ κ g :=
  ⟨floatRows_binary hb, floatRows_labels hb.sample hb.labels, by rw [floatRows_length]; exact hb.rows_le, hκ, hg, hD, h1, h2, h3, h4⟩

/-- C119: SmoothBoost on trees with any criterion but Gini, both in `f64`: `run` returns after at least one and at most `limit` rounds, every weight vector was smooth
and every hypothesis a tree that training on its weight vector may produce, and the result is the equal vote over the first `m` trees. -/
theorem smoothboost_f64_trees_return (L : Libm) (P : Powm) (b : DecisionTreeBuilder ℝ) (hb : FloatTreeData b) (t : FTree.Tree)
    (ht : FTree.build (10 ^ 5) b = some (.ok t)) (wl : WeakLearner F64 (TreeNode F64)) (hwl : FTree.IsLearner L t b.sample wl) (s₀ : SmoothBoostF (TreeNode F64))
    (κ g : ℝ) (hκ : s₀.kappa = fin κ) (hg : s₀.gamma = fin g) (hD : Double g) (h1 : 1 / 10 ^ 30 ≤ κ) (h2 : κ < 1) (h3 : 0 ≤ g) (h4 : g < 1 / 2) :
    ∃ f qs, (SmoothBoostF.booster P b.sample.rows).run wl (SmoothBoostF.maxLoop s₀ + 1) s₀ = some (.ok (f, qs)) ∧ 1 ≤ qs.length ∧
      qs.length ≤ SmoothBoostF.maxLoop s₀ ∧ f.hypotheses = (qs.mapIdx fun i q => wl (i + 1) q).take b.sample.nSample ∧
      (∀ d ∈ qs, SmoothWeights κ b.sample.nSample d ∧ ∀ it, FTree.Produce L t b.sample d (some (wl it d))) ∧
      ∃ v : ℝ, f.weights = List.replicate (min b.sample.nSample qs.length) (fin v) ∧ |v * (min b.sample.nSample qs.length : ℕ) - 1| ≤ 1 / 10 ^ 8 := by
  have hc := smoothConfig_trees hb hκ hg hD h1 h2 h3 h4
  obtain ⟨f, qs, r1, r2, r3, r4, r5, r6⟩ := smoothboost_f64_returns P b.sample.rows s₀ κ g hc wl (floatTree_answersSmooth hb ht hwl κ)
  rw [floatRows_length] at r4 r5 r6
  refine ⟨f, qs, r1, r2, r3, r5, fun d hd => ⟨r4 d hd, fun it => ?_⟩, r6⟩
  obtain ⟨w, rfl, -, -, -, hw⟩ := smooth_numbers (r4 d hd)
  exact (floatTree_conf_of hb ht hwl hw it).1

/-- C119: SmoothBoost on trees with the criterion `edge`, both in `f64`.  If a vote over the tests `column < boundary of a bin` has margin `θ` on every row and
`2γ ≤ θ² - 3·10⁻⁵`, fewer than `2/(κγ²√(1-γ))` rounds are made, and -- if these are at most as many as there are rows -- the returned vote of trees misclassifies at
most `(1 + 10⁻⁷) κ m/√(1-γ)` of the `m` rows. -/
theorem smoothboost_f64_edge_trees (L : Libm) (P : Powm) (b : DecisionTreeBuilder ℝ) (hb : FloatTreeData b) (hcr : b.criterion = .edge) (hd : 1 ≤ b.maxDepth)
    (t : FTree.Tree) (ht : FTree.build (10 ^ 5) b = some (.ok t)) (wl : WeakLearner F64 (TreeNode F64)) (hwl : FTree.IsLearner L t b.sample wl)
    (s₀ : SmoothBoostF (TreeNode F64)) (κ g θ : ℝ) (hκ : s₀.kappa = fin κ) (hg : s₀.gamma = fin g) (hD : Double g) (h1 : 1 / 10 ^ 30 ≤ κ) (h2 : κ < 1)
    (h3 : 0 ≤ g) (h4 : g < 1 / 2) (hθ0 : 0 < θ) (hθ1 : θ ≤ 1) (hv : TestMargin b.sample t.bins θ) (hgθ : 2 * g ≤ θ ^ 2 - 3 / 10 ^ 5)
    (hden : 3 / 10 ^ 6 ≤ κ * g ^ 2 * √(1 - g)) :
    ∃ f qs, (SmoothBoostF.booster P b.sample.rows).run wl (SmoothBoostF.maxLoop s₀ + 1) s₀ = some (.ok (f, qs)) ∧
      (qs.length : ℝ) < 2 / (κ * g ^ 2 * √(1 - g)) ∧
      (qs.length ≤ b.sample.nSample → (floatMistakes b.sample.rows f : ℝ) ≤ (1 + 1 / 10 ^ 7) * (κ * b.sample.nSample / √(1 - g))) := by
  have hc := smoothConfig_trees hb hκ hg hD h1 h2 h3 h4
  obtain ⟨f, qs, r1, r2, r3⟩ := smoothboost_f64_rounds P b.sample.rows s₀ κ g hc wl (floatTree_answersSmooth hb ht hwl κ)
    (by
      intro it d hsd
      rw [floatRows_length] at hsd
      obtain ⟨w, rfl, hl, h0, hsum, hw⟩ := smooth_numbers hsd
      obtain ⟨hp, -⟩ := floatTree_conf_of hb ht hwl hw it
      obtain ⟨f, hf, bins, hbins, β, hβ, x, hx, hge⟩ := test_of_margin hθ0 hv hl h0 hsum
      have hsum' := abs_le.mp hsum
      norm_num at hsum'
      have hE := tree_f64_edge L b hb hcr hd t ht w hw (by linarith) _ hp f hf bins hbins β hβ x hx
      have := edge_of_square hθ0 hθ1 hsum hge hE (by norm_num) (by norm_num)
      norm_num at this hgθ ⊢
      linarith) hden
  rw [floatRows_length] at r3
  exact ⟨f, qs, r1, r2, r3⟩

/-! ## An example -/

/-- SmoothBoost with `κ = 1/2` and `γ = 1/32`. -/
noncomputable def exSmoothTrees : SmoothBoostF (TreeNode F64) := { (SmoothBoostF.init giniSample.rows).setTolerance (fin (1 / 2)) with gamma := fin (1 / 32) }

/-- The hypotheses of C119 are met: on the sample of C94, which no single test separates, trees with one test and `γ = 1/32`. -/
example (L : Libm) (P : Powm) : ∃ wl : WeakLearner F64 (TreeNode F64), FTree.IsLearner L ⟨[("x", giniBins)], .edge, 1⟩ giniSample wl ∧
    ∃ f qs, (SmoothBoostF.booster P giniSample.rows).run wl (SmoothBoostF.maxLoop exSmoothTrees + 1) exSmoothTrees = some (.ok (f, qs)) ∧
      (qs.length : ℝ) < 2 / (1 / 2 * (1 / 32) ^ 2 * √(1 - 1 / 32)) := by
  obtain ⟨wl, hwl⟩ := exists_floatTreeLearner L ⟨[("x", giniBins)], .edge, 1⟩ giniSample
  have hs : 1 / 2 ≤ √(1 - 1 / 32 : ℝ) := by
    apply Real.le_sqrt_of_sq_le; norm_num
  obtain ⟨f, qs, r1, r2, -⟩ := smoothboost_f64_edge_trees L P stumpBuilder stumpBuilder_data rfl le_rfl _ stumpBuild wl hwl exSmoothTrees (1 / 2) (1 / 32) (1 / 3)
    rfl rfl ⟨1, -5, by norm_num, by norm_num, by norm_num⟩ (by norm_num) (by norm_num) (by norm_num) (by norm_num) (by norm_num) (by norm_num) giniMargin
    (by norm_num) (by norm_num at hs ⊢; linarith)
  exact ⟨wl, hwl, f, qs, r1, r2⟩

end Miniboosts.Props
