import Verif.Props.FloatMada
import Verif.Props.FloatSmoothTrees

/-! # MadaBoost on decision trees in `f64` (C120) -/

namespace Miniboosts.Props

open Miniboosts Spec F64

/-- MadaBoost's weights as numbers. -/
theorem capped_numbers {n : ℕ} {d : List F64} (h : CappedWeights n d) :
    ∃ w : List ℝ, d = w.map fin ∧ w.length = n ∧ (∀ x ∈ w, 0 ≤ x) ∧ |w.sum - 1| ≤ 3 / 10 ^ 6 ∧ TreeWeights n w := by
  obtain ⟨w, hxs, hl, hpos, hsum⟩ := h
  have hs := abs_le.mp hsum
  norm_num at hs
  refine ⟨w, hxs, hl, fun x hx => (hpos x hx).1, hsum, hl, fun x hx => (hpos x hx).2, fun x hx => (hpos x hx).1, ?_, by linarith⟩
  by_contra hne
  push Not at hne
  have : w.sum ≤ (w.map fun _ => (0 : ℝ)).sum := by
    conv_lhs => rw [← List.map_id w]
    exact List.sum_le_sum fun x hx => hne x hx
  simp only [List.map_const', List.sum_replicate, smul_zero] at this
  linarith

/-- The trees that training returns are never nearly always wrong. -/
theorem floatTree_mada {L : Libm} {b : DecisionTreeBuilder ℝ} (hb : FloatTreeData b) {t : FTree.Tree} (ht : FTree.build (10 ^ 5) b = some (.ok t))
    {wl : WeakLearner F64 (TreeNode F64)} (hwl : FTree.IsLearner L t b.sample wl) : MadaLearner b.sample.rows wl (-(1 / 10 ^ 7)) := by
  constructor
  · intro it d hd
    rw [floatRows_length] at hd
    obtain ⟨w, rfl, -, -, -, hw⟩ := capped_numbers hd
    exact (floatTree_conf_of hb ht hwl hw it).2
  · intro it d hd
    rw [floatRows_length] at hd
    obtain ⟨w, rfl, -, -, hs, hw⟩ := capped_numbers hd
    have h := (tree_f64_answers_means L t b.sample hb.sample hb.rows_le hb.labels w hw _ (floatTree_conf_of hb ht hwl hw it).1).2
    have hs' := abs_le.mp hs
    norm_num at hs'
    have h2 : 0 ≤ meanLabel b.sample w (List.range b.sample.nSample) ^ 2 * w.sum := mul_nonneg (sq_nonneg _) (by linarith)
    norm_num at h ⊢
    linarith

/-- With the criterion `edge` and a vote over the tests with margin `θ`, the edges are at least `θ² - 3·10⁻⁵`. -/
theorem floatTree_mada_edge {L : Libm} {b : DecisionTreeBuilder ℝ} (hb : FloatTreeData b) (hcr : b.criterion = .edge) (hd : 1 ≤ b.maxDepth) {t : FTree.Tree}
    (ht : FTree.build (10 ^ 5) b = some (.ok t)) {wl : WeakLearner F64 (TreeNode F64)} (hwl : FTree.IsLearner L t b.sample wl) {θ : ℝ} (hθ0 : 0 < θ) (hθ1 : θ ≤ 1)
    (hv : TestMargin b.sample t.bins θ) : MadaLearner b.sample.rows wl (θ ^ 2 - 3 / 10 ^ 5) := by
  refine ⟨(floatTree_mada hb ht hwl).conf, fun it d hsd => ?_⟩
  rw [floatRows_length] at hsd
  obtain ⟨w, rfl, hl, h0, hsum, hw⟩ := capped_numbers hsd
  obtain ⟨hp, -⟩ := floatTree_conf_of hb ht hwl hw it
  have hsum' := abs_le.mp hsum
  norm_num at hsum'
  obtain ⟨f, hf, bins, hbins, β, hβ, x, hx, hge⟩ := test_of_margin_pos hθ0 hv hl h0 (by linarith)
  have hE := tree_f64_edge L b hb hcr hd t ht w hw (by linarith) _ hp f hf bins hbins β hβ x hx
  generalize exactEdge b.sample.rows (w.map fin) (wl it (w.map fin)) = E at *
  generalize testEdge b.sample w f x = T at *
  generalize w.sum = W at *
  have h1 : (θ * W) ^ 2 ≤ T ^ 2 := by
    have : 0 ≤ θ * W := mul_nonneg hθ0.le (by linarith)
    gcongr
  have h2 : (θ ^ 2 - 3 / 10 ^ 5) * W ≤ E * W := by
    have hθ2 : θ ^ 2 ≤ 1 := by nlinarith
    have h3 : θ ^ 2 * W * (1 - W) ≤ 4 / 10 ^ 6 := by
      have a : θ ^ 2 * W ≤ 1 * (1 + 3 / 10 ^ 6) := mul_le_mul hθ2 (by norm_num; linarith) (by linarith) (by norm_num)
      have a0 : 0 ≤ θ ^ 2 * W := mul_nonneg (sq_nonneg _) (by linarith)
      rcases le_total (1 - W) 0 with h | h
      · exact le_trans (mul_nonpos_of_nonneg_of_nonpos a0 h) (by norm_num)
      · refine (mul_le_mul a (show 1 - W ≤ 3 / 10 ^ 6 by norm_num; linarith) h (by norm_num)).trans (by norm_num)
    norm_num at h3 hE ⊢
    nlinarith
  exact le_of_mul_le_mul_right h2 (by linarith)

/-- C120: MadaBoost on trees with any criterion but Gini, both in `f64`: boosting never panics, every weight vector was a distribution up to rounding, and every
hypothesis was a tree that training on it may produce. -/
theorem madaboost_f64_trees_never_panics (L : Libm) (b : DecisionTreeBuilder ℝ) (hb : FloatTreeData b) (t : FTree.Tree)
    (ht : FTree.build (10 ^ 5) b = some (.ok t)) (wl : WeakLearner F64 (TreeNode F64)) (hwl : FTree.IsLearner L t b.sample wl) (s : MadaBoostF (TreeNode F64))
    (hM : madaLimitF b.sample.rows s ≤ 3000) :
    ∃ s₀, (MadaBoostF.booster L b.sample.rows).preprocess s wl = .ok s₀ ∧ ∀ r, (MadaBoostF.booster L b.sample.rows).Loop wl s₀ 1 r →
      ∃ s' qs, r = .ok (s', qs) ∧ qs.length ≤ madaLimitF b.sample.rows s ∧
        ∀ d ∈ qs, CappedWeights b.sample.nSample d ∧ ∀ it, FTree.Produce L t b.sample d (some (wl it d)) := by
  have hbin := floatRows_binary hb
  have hpre : ∃ s₀, (MadaBoostF.booster L b.sample.rows).preprocess s wl = .ok s₀ := by
    show ∃ s₀, MadaBoostF.preprocess b.sample.rows s = .ok s₀
    unfold MadaBoostF.preprocess
    rw [hbin]
    exact ⟨_, rfl⟩
  obtain ⟨s₀, hs⟩ := hpre
  refine ⟨s₀, hs, fun r hl => ?_⟩
  obtain ⟨s', qs, h1, h2, h3⟩ := madaboost_f64_never_panics L b.sample.rows (floatRows_labels hb.sample hb.labels) (checkBinary_ne_nil hbin)
    (by rw [floatRows_length]; exact hb.rows_le) s s₀ wl _ (by norm_num) (floatTree_mada hb ht hwl) hM hs hl
  rw [floatRows_length] at h2
  refine ⟨s', qs, h1, h3, fun d hd => ⟨h2 d hd, fun it => ?_⟩⟩
  obtain ⟨w, rfl, -, -, -, hw⟩ := capped_numbers (h2 d hd)
  exact (floatTree_conf_of hb ht hwl hw it).1

/-- C120: MadaBoost on trees with the criterion `edge`, both in `f64`.  If a vote over the tests `column < boundary of a bin` has margin `θ` on every row, with
`θ² ≥ 13·10⁻⁵`, every run with between one and `3000` rounds returns a classifier, whose confidence for every row of the sample is a number at most one in absolute
value up to `10⁻⁵`. -/
theorem madaboost_f64_edge_trees (L : Libm) (b : DecisionTreeBuilder ℝ) (hb : FloatTreeData b) (hcr : b.criterion = .edge) (hd : 1 ≤ b.maxDepth)
    (t : FTree.Tree) (ht : FTree.build (10 ^ 5) b = some (.ok t)) (wl : WeakLearner F64 (TreeNode F64)) (hwl : FTree.IsLearner L t b.sample wl)
    (s : MadaBoostF (TreeNode F64)) (θ : ℝ) (hθ0 : 0 < θ) (hθ1 : θ ≤ 1) (hv : TestMargin b.sample t.bins θ) (hθ : 13 / 10 ^ 5 ≤ θ ^ 2)
    (hM1 : 1 ≤ madaLimitF b.sample.rows s) (hM : madaLimitF b.sample.rows s ≤ 3000) {r} (hr : (MadaBoostF.booster L b.sample.rows).Runs wl s r) :
    ∃ f qs, r = .ok (f, qs) ∧ 1 ≤ qs.length ∧ qs.length ≤ madaLimitF b.sample.rows s ∧
      (∀ d ∈ qs, CappedWeights b.sample.nSample d ∧ ∀ it, FTree.Produce L t b.sample d (some (wl it d))) ∧
      ∀ e ∈ b.sample.rows, ∃ c : ℝ, F64.weightedConf f e.1 = fin c ∧ |c| ≤ 1 + 1 / 10 ^ 5 := by
  have hbin := floatRows_binary hb
  obtain ⟨f', qs', h1', h2'⟩ := madaboost_f64_confidence L b.sample.rows (floatRows_labels hb.sample hb.labels) (by rw [floatRows_length]; exact hb.rows_le)
    hbin s wl _ (by norm_num at hθ ⊢; linarith) (floatTree_mada_edge hb hcr hd ht hwl hθ0 hθ1 hv) hM1 hM hr
  obtain ⟨f, qs, h1, h2, h3, h4, -⟩ := madaboost_f64_returns L b.sample.rows (floatRows_labels hb.sample hb.labels) (by rw [floatRows_length]; exact hb.rows_le)
    hbin s wl _ (by norm_num at hθ ⊢; linarith) (floatTree_mada_edge hb hcr hd ht hwl hθ0 hθ1 hv) hM1 hM hr
  rw [floatRows_length] at h2
  rw [h1, Except.ok.injEq, Prod.mk.injEq] at h1'
  rw [← h1'.1] at h2'
  refine ⟨f, qs, h1, h3, h4, fun d hd => ⟨h2 d hd, fun it => ?_⟩, h2'⟩
  obtain ⟨w, rfl, -, -, -, hw⟩ := capped_numbers (h2 d hd)
  exact (floatTree_conf_of hb ht hwl hw it).1

/-- The hypotheses are met: on the sample of C94, trees with one test, twenty rounds. -/
example (L : Libm) : ∃ wl : WeakLearner F64 (TreeNode F64), FTree.IsLearner L ⟨[("x", giniBins)], .edge, 1⟩ giniSample wl ∧
    ∃ r, (MadaBoostF.booster L giniSample.rows).Runs wl ((MadaBoostF.init giniSample.rows).setForceQuitAt 20) r ∧ ∃ f qs, r = .ok (f, qs) ∧ 1 ≤ qs.length ∧
      qs.length ≤ 20 := by
  obtain ⟨wl, hwl⟩ := exists_floatTreeLearner L ⟨[("x", giniBins)], .edge, 1⟩ giniSample
  obtain ⟨r, hr⟩ := exists_runMada L giniSample.rows wl ((MadaBoostF.init giniSample.rows).setForceQuitAt 20)
  obtain ⟨f, qs, h1, h2, h3, -⟩ := madaboost_f64_edge_trees L stumpBuilder stumpBuilder_data rfl le_rfl _ stumpBuild wl hwl
    ((MadaBoostF.init giniSample.rows).setForceQuitAt 20) (1 / 3) (by norm_num) (by norm_num) giniMargin
    (by norm_num) (by simp [madaLimitF, MadaBoostF.setForceQuitAt]) (by simp [madaLimitF, MadaBoostF.setForceQuitAt]) hr
  exact ⟨wl, hwl, r, hr, f, qs, h1, h2, h3⟩

end Miniboosts.Props
